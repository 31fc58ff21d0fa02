import Verif.Uri.Urn
import Verif.Http.ParamProps
import Verif.Lti.Nonce
/-!
# C110: the permissions of an LTI launch (pyslet/imsbltiv1p0.py:116-293, 927-979)

Text is a list of character codes; the `roles` parameter is taken to be ASCII, since other characters are first
escaped by `URI.from_octets`.  The URN objects are those of `Verif.Uri.Urn`.
-/
namespace Verif.Lti
open Uri (codes URI urnParse urnText SchemeOk Uric isTrans isAllowed)
open Http (splitByte)

/-! ### Model -/

/-- The characters removed by `str.strip()`, in ASCII. -/
def isBlank (c : Nat) : Bool := c == 32 || (9 ≤ c && c ≤ 13) || (28 ≤ c && c ≤ 31)

/-- `s.strip()` -/
def strip (s : Str) : Str := ((s.dropWhile isBlank).reverse.dropWhile isBlank).reverse

/-- `ROLE_HANDLES`, imsbltiv1p0.py:119-224: the name and what follows "urn:lti:". -/
def handleTable : List (String × String) :=
  [("Learner", "role:ims/lis/Learner"), ("Learner/Learner", "role:ims/lis/Learner/Learner"),
   ("Learner/NonCreditLearner", "role:ims/lis/Learner/NonCreditLearner"),
   ("Learner/GuestLearner", "role:ims/lis/Learner/GuestLearner"),
   ("Learner/ExternalLearner", "role:ims/lis/Learner/ExternalLearner"),
   ("Learner/Instructor", "role:ims/lis/Learner/Instructor"), ("Instructor", "role:ims/lis/Instructor"),
   ("Instructor/PrimaryInstructor", "role:ims/lis/Instructor/PrimaryInstructor"),
   ("Instructor/Lecturer", "role:ims/lis/Instructor/Lecturer"),
   ("Instructor/GuestInstructor", "role:ims/lis/Instructor/GuestInstructor"),
   ("Instructor/ExternalInstructor", "role:ims/lis/Instructor/ExternalInstructor"),
   ("ContentDeveloper", "role:ims/lis/ContentDeveloper"),
   ("ContentDeveloper/ContentDeveloper", "role:ims/lis/ContentDeveloper/ContentDeveloper"),
   ("ContentDeveloper/Librarian", "role:ims/lis/ContentDeveloper/Librarian"),
   ("ContentDeveloper/ContentExpert", "role:ims/lis/ContentDeveloper/ContentExpert"),
   ("ContentDeveloper/ExternalContentExpert", "role:ims/lis/ContentDeveloper/ExternalContentExpert"),
   ("Member", "role:ims/lis/Member"), ("Member/Member", "role:ims/lis/Member/Member"),
   ("Manager", "role:ims/lis/Manager"), ("Manager/AreaManager", "role:ims/lis/Manager/AreaManager"),
   ("Manager/CourseCoordinator", "role:ims/lis/Manager/CourseCoordinator"),
   ("Manager/Observer", "role:ims/lis/Manager/Observer"),
   ("Manager/ExternalObserver", "role:ims/lis/Manager/ExternalObserver"), ("Mentor", "role:ims/lis/Mentor"),
   ("Mentor/Mentor", "role:ims/lis/Mentor/Mentor"), ("Mentor/Reviewer", "role:ims/lis/Mentor/Reviewer"),
   ("Mentor/Advisor", "role:ims/lis/Mentor/Advisor"), ("Mentor/Auditor", "role:ims/lis/Mentor/Auditor"),
   ("Mentor/Tutor", "role:ims/lis/Mentor/Tutor"),
   ("Mentor/LearningFacilitator", "role:ims/lis/Mentor/LearningFacilitator"),
   ("Mentor/ExternalMentor", "role:ims/lis/Mentor/ExternalMentor"),
   ("Mentor/ExternalReviewer", "role:ims/lis/Mentor/ExternalReviewer"),
   ("Mentor/ExternalAdvisor", "role:ims/lis/Mentor/ExternalAdvisor"),
   ("Mentor/ExternalAuditor", "role:ims/lis/Mentor/ExternalAuditor"),
   ("Mentor/ExternalTutor", "role:ims/lis/Mentor/ExternalTutor"),
   ("Mentor/ExternalLearningFacilitator", "role:ims/lis/Mentor/ExternalLearningFacilitator"),
   ("Administrator", "role:ims/lis/Administrator"),
   ("Administrator/Administrator", "role:ims/lis/Administrator/Administrator"),
   ("Administrator/Support", "role:ims/lis/Administrator/Support"),
   ("Administrator/Developer", "role:ims/lis/Administrator/ExternalDeveloper"),
   ("Administrator/SystemAdministrator", "role:ims/lis/Administrator/SystemAdministrator"),
   ("Administrator/ExternalSystemAdministrator", "role:ims/lis/Administrator/ExternalSystemAdministrator"),
   ("Administrator/ExternalDeveloper", "role:ims/lis/Administrator/ExternalDeveloper"),
   ("Administrator/ExternalSupport", "role:ims/lis/Administrator/ExternalSupport"),
   ("TeachingAssistant", "role:ims/lis/TeachingAssistant"),
   ("TeachingAssistant/TeachingAssistant", "role:ims/lis/TeachingAssistant/TeachingAssistant"),
   ("TeachingAssistant/TeachingAssistantSection", "role:ims/lis/TeachingAssistant/TeachingAssistantSection"),
   ("TeachingAssistant/TeachingAssistantSectionAssociation", "role:ims/lis/TeachingAssistant/TeachingAssistantSectionAssociation"),
   ("TeachingAssistant/TeachingAssistantOffering", "role:ims/lis/TeachingAssistant/TeachingAssistantOffering"),
   ("TeachingAssistant/TeachingAssistantTemplate", "role:ims/lis/TeachingAssistant/TeachingAssistantTemplate"),
   ("TeachingAssistant/TeachingAssistantGroup", "role:ims/lis/TeachingAssistant/TeachingAssistantGroup"),
   ("TeachingAssistant/Grader", "role:ims/lis/TeachingAssistant/Grader")]

/-- `ROLE_HANDLES` as text. -/
def handles : List (Str × Str) := handleTable.map fun p => (codes p.1, codes p.2)

/-- "lti" -/
def ltiText : Str := [108, 116, 105]

/-- The URN that `set_launch_permissions` makes from a role, imsbltiv1p0.py:933-937: its NID and NSS.  `none`: an
exception; this covers None and a URI that is not a URN, for which `split_role` raises ValueError, line 250. -/
def roleUrn (s : Str) : Option (Str × Str) :=
  match URI.init s with
  | none => none
  | some u =>
    match u.scheme with
    | some sch =>
      if Uri.lower sch = urnText then
        match u.parts.opaquePart with
        | some o => urnParse o
        | none => none
      else none
    | none => (handles.lookup s).map fun nss => (ltiText, nss)

/-- "ims" and "lis" -/
def imsText : Str := [105, 109, 115]
def lisText : Str := [108, 105, 115]

/-- `split_role`, imsbltiv1p0.py:227-268; `none`: ValueError. -/
def splitRole (nid nss : Str) : Option (Str × Str × Option Str) :=
  if nid ≠ ltiText then none
  else match splitByte 58 nss with
    | [vocab, path] =>
      match splitByte 47 path with
      | [ims, lis, t] => if t ≠ [] ∧ ims = imsText ∧ lis = lisText then some (vocab, t, none) else none
      | [ims, lis, t, sub] => if t ≠ [] ∧ ims = imsText ∧ lis = lisText then some (vocab, t, some sub) else none
      | _ => none
    | _ => none

/-- `is_subrole`, imsbltiv1p0.py:271-293. -/
def isSubrole (role parent : Str × Str) : Option Bool := do
  let (rvocab, rtype, _) ← splitRole role.1 role.2
  let (pvocab, ptype, psub) ← splitRole parent.1 parent.2
  return rvocab == pvocab && rtype == ptype && psub == none

/-- `ROLE_HANDLES['Instructor']` and `ROLE_HANDLES['Learner']`. -/
def instructorUrn : Str × Str := (ltiText, codes "role:ims/lis/Instructor")
def learnerUrn : Str × Str := (ltiText, codes "role:ims/lis/Learner")

/-- `get_permissions`, imsbltiv1p0.py:951-979: READ is 1, WRITE 2, CONFIGURE 4. -/
def getPermissions (role : Str × Str) : Option Nat := do
  if ← isSubrole role instructorUrn then return 1 ||| 2 ||| 4
  else if ← isSubrole role learnerUrn then return 1
  else return 0

/-- The loop of `set_launch_permissions`, imsbltiv1p0.py:932-938. -/
def permLoop : Nat → List Str → Option Nat
  | p, [] => some p
  | p, r :: rs =>
    match roleUrn (strip r) with
    | none => none
    | some u =>
      match getPermissions u with
      | none => none
      | some q => permLoop (p ||| q) rs

/-- `set_launch_permissions`, imsbltiv1p0.py:927-939, for the `roles` parameter. -/
def launchPermissions (roles : Option Str) : Option Nat :=
  match roles with
  | none => some 0
  | some r => permLoop 0 (splitByte 44 r)

/-! ### Specification -/

/-- The text of a sub-type. -/
def subText : Option Str → Str
  | none => []
  | some s => 47 :: s

/-- A role written in full: "urn:lti:vocab:ims/lis/Type" or "urn:lti:vocab:ims/lis/Type/SubType", perhaps with a
fragment; "urn" in upper or lower case. -/
def FullRole (vocab type : Str) (sub : Option Str) (s : Str) : Prop :=
  ∃ (sch : Str) (f : Option Str),
    let nss := vocab ++ codes ":ims/lis/" ++ type ++ subText sub
    let urn := sch ++ codes ":lti:" ++ nss
    s = urn ++ (match f with | some f => 35 :: f | none => []) ∧
    Uri.lower sch = urnText ∧ Uric isAllowed urn ∧ (∀ x, f = some x → Uric isAllowed x) ∧ (∀ c ∈ nss, isTrans c = true) ∧
    58 ∉ vocab ∧ 58 ∉ type ∧ 47 ∉ type ∧ type ≠ [] ∧ (∀ x, sub = some x → 58 ∉ x ∧ 47 ∉ x)

/-- The name of a role: one of the handles of the LTI specification, "Type" or "Type/SubType". -/
def Named (type s : Str) : Prop :=
  s ∈ handles.map Prod.fst ∧ (s = type ∨ type ++ [47] <+: s) ∧ 47 ∉ type

/-- A role in the vocabulary of the context ("role") with the given type, by name or in full. -/
def HasType (type s : Str) : Prop := Named type s ∨ ∃ sub, FullRole (codes "role") type sub s

/-- A role of LTI. -/
def LtiRole (s : Str) : Prop := (∃ type, Named type s) ∨ ∃ vocab type sub, FullRole vocab type sub s

/-! ### Proofs -/

theorem lookup_mem {α β : Type} [BEq α] [LawfulBEq α] (l : List (α × β)) (a : α) (b : β) (h : l.lookup a = some b) : (a, b) ∈ l := by
  induction l with
  | nil => cases h
  | cons p r ih =>
    obtain ⟨x, y⟩ := p
    rw [List.lookup_cons] at h
    split at h
    · rename_i he
      simp only [Option.some.injEq] at h
      rw [eq_of_beq he, h]; simp
    · simp [ih h]

theorem lookup_isSome {α β : Type} [BEq α] [LawfulBEq α] (l : List (α × β)) (a : α) (h : a ∈ l.map Prod.fst) : ∃ b, l.lookup a = some b := by
  induction l with
  | nil => simp at h
  | cons p r ih =>
    obtain ⟨x, y⟩ := p
    rw [List.lookup_cons]
    by_cases e : a == x
    · rw [e]; exact ⟨y, rfl⟩
    · simp only [List.map_cons, List.mem_cons] at h
      rcases h with h | h
      · exact absurd (by rw [h]; exact BEq.rfl) e
      · obtain ⟨b, hb⟩ := ih h
        rw [Bool.not_eq_true] at e
        exact ⟨b, by rw [e]; exact hb⟩

/-- The first part of a name. -/
def first (s : Str) : Str := s.takeWhile (· ≠ 47)

theorem handles_ok : ∀ p ∈ handles, (URI.init p.1).map (·.scheme) = some none ∧
    ∃ sub, splitRole ltiText p.2 = some (codes "role", first p.1, sub) := by
  have h : handles.all (fun p => decide ((URI.init p.1).map (·.scheme) = some none) &&
      (match splitRole ltiText p.2 with
        | some (v, t, _) => v == codes "role" && t == first p.1
        | none => false)) = true := by decide +kernel
  intro p hp
  have := List.all_eq_true.1 h p hp
  rw [Bool.and_eq_true, decide_eq_true_eq] at this
  refine ⟨this.1, ?_⟩
  have h2 := this.2
  split at h2
  · rename_i v t sub e
    simp only [Bool.and_eq_true, beq_iff_eq] at h2
    exact ⟨sub, by rw [e, h2.1, h2.2]⟩
  · cases h2

theorem first_own (t r : Str) (h : 47 ∉ t) : (t ++ r).takeWhile (· ≠ 47) = t ++ r.takeWhile (· ≠ 47) := by
  induction t with
  | nil => rfl
  | cons a t ih =>
    simp only [List.mem_cons, not_or] at h
    rw [List.cons_append, List.takeWhile_cons_of_pos (by simpa using fun e => h.1 e.symm), ih h.2]
    rfl

theorem first_cases (s : Str) : 47 ∉ first s ∧ (s = first s ∨ ∃ r, s = first s ++ 47 :: r) := by
  unfold first
  induction s with
  | nil => simp
  | cons a s ih =>
    by_cases h : a = 47
    · subst h; simp
    · rw [List.takeWhile_cons_of_pos (by simpa using h)]
      refine ⟨by simp only [List.mem_cons, not_or]; exact ⟨fun e => h e.symm, ih.1⟩, ?_⟩
      rcases ih.2 with e | ⟨r, e⟩
      · left; rw [← e]
      · right; exact ⟨r, by rw [List.cons_append, ← e]⟩

theorem named_first (type s : Str) : Named type s ↔ s ∈ handles.map Prod.fst ∧ first s = type := by
  unfold Named
  constructor
  · rintro ⟨h1, h2, h3⟩
    refine ⟨h1, ?_⟩
    unfold first
    rcases h2 with rfl | ⟨r, rfl⟩
    · have := first_own s [] h3
      simpa using this
    · rw [List.append_assoc, first_own type _ h3]
      simp
  · rintro ⟨h1, rfl⟩
    obtain ⟨h2, h3⟩ := first_cases s
    refine ⟨h1, ?_, h2⟩
    rcases h3 with h3 | ⟨r, h3⟩
    · exact Or.inl h3
    · right; exact ⟨r, by rw [List.append_assoc]; exact h3.symm⟩

theorem splitByte_parts (c : Nat) (s : Str) : ∃ h t, splitByte c s = h :: t ∧ c ∉ h ∧
    ((t = [] ∧ s = h) ∨ ∃ r, t = splitByte c r ∧ s = h ++ c :: r) := by
  induction s with
  | nil => exact ⟨[], [], rfl, by simp, Or.inl ⟨rfl, rfl⟩⟩
  | cons a s ih =>
    rw [splitByte]
    by_cases h : a = c
    · subst h
      rw [if_pos rfl]
      exact ⟨[], _, rfl, by simp, Or.inr ⟨s, rfl, rfl⟩⟩
    · rw [if_neg h]
      obtain ⟨x, t, e, hx, ht⟩ := ih
      rw [e]
      refine ⟨a :: x, t, rfl, by simp only [List.mem_cons, not_or]; exact ⟨fun e => h e.symm, hx⟩, ?_⟩
      rcases ht with ⟨rfl, rfl⟩ | ⟨r, rfl, rfl⟩
      · exact Or.inl ⟨rfl, rfl⟩
      · exact Or.inr ⟨r, rfl, rfl⟩

theorem split_one (c : Nat) (s a : Str) : splitByte c s = [a] ↔ s = a ∧ c ∉ a := by
  constructor
  · intro h
    obtain ⟨x, t, e, hx, ht⟩ := splitByte_parts c s
    rw [h] at e
    simp only [List.cons.injEq] at e
    obtain ⟨rfl, rfl⟩ := e
    rcases ht with ⟨-, rfl⟩ | ⟨r, h2, -⟩
    · exact ⟨rfl, hx⟩
    · obtain ⟨y, u, e, -⟩ := splitByte_parts c r
      rw [e] at h2; cases h2
  · rintro ⟨rfl, h⟩; exact Http.splitByte_none c s h

theorem split_cons (c : Nat) (s a b : Str) (l : List Str) :
    splitByte c s = a :: b :: l ↔ ∃ r, s = a ++ c :: r ∧ c ∉ a ∧ splitByte c r = b :: l := by
  constructor
  · intro h
    obtain ⟨x, t, e, hx, ht⟩ := splitByte_parts c s
    rw [h] at e
    simp only [List.cons.injEq] at e
    obtain ⟨rfl, rfl⟩ := e
    rcases ht with ⟨h2, -⟩ | ⟨r, h2, h3⟩
    · cases h2
    · exact ⟨r, h3, hx, h2.symm⟩
  · rintro ⟨r, rfl, h1, h2⟩
    rw [Http.splitByte_append c a r h1, h2]

theorem split_role_iff (nss v t : Str) (sub : Option Str) :
    splitRole ltiText nss = some (v, t, sub) ↔
      nss = v ++ codes ":ims/lis/" ++ t ++ subText sub ∧ 58 ∉ v ∧ 58 ∉ t ∧ 47 ∉ t ∧ t ≠ [] ∧
        ∀ x, sub = some x → 58 ∉ x ∧ 47 ∉ x := by
  have e9 : codes ":ims/lis/" = 58 :: (imsText ++ 47 :: (lisText ++ [47])) := by decide
  have m1 : 47 ∉ imsText := by decide
  have m2 : 47 ∉ lisText := by decide
  have m3 : 58 ∉ imsText := by decide
  have m4 : 58 ∉ lisText := by decide
  unfold splitRole
  rw [if_neg (by simp)]
  constructor
  · intro h
    split at h
    · rename_i vocab path e
      obtain ⟨r, rfl, h1, h2⟩ := (split_cons 58 nss vocab path []).1 e
      obtain ⟨rfl, h2⟩ := (split_one 58 r path).1 h2
      split at h
      · rename_i a b c e2
        split at h
        · rename_i hc
          obtain ⟨hc, rfl, rfl⟩ := hc
          simp only [Option.some.injEq, Prod.mk.injEq] at h
          obtain ⟨rfl, rfl, rfl⟩ := h
          obtain ⟨r1, rfl, -, e3⟩ := (split_cons 47 r _ _ _).1 e2
          obtain ⟨r2, rfl, -, e4⟩ := (split_cons 47 _ _ _ _).1 e3
          obtain ⟨rfl, e5⟩ := (split_one 47 _ _).1 e4
          refine ⟨by rw [e9]; simp [subText], h1, ?_, e5, hc, by simp⟩
          intro hm; apply h2; simp [hm]
        · cases h
      · rename_i a b c d e2
        split at h
        · rename_i hc
          obtain ⟨hc, rfl, rfl⟩ := hc
          simp only [Option.some.injEq, Prod.mk.injEq] at h
          obtain ⟨rfl, rfl, rfl⟩ := h
          obtain ⟨r1, rfl, -, e3⟩ := (split_cons 47 r _ _ _).1 e2
          obtain ⟨r2, rfl, -, e4⟩ := (split_cons 47 _ _ _ _).1 e3
          obtain ⟨r3, rfl, e5, e6⟩ := (split_cons 47 _ _ _ _).1 e4
          obtain ⟨rfl, e7⟩ := (split_one 47 _ _).1 e6
          refine ⟨by rw [e9]; simp [subText], h1, ?_, e5, hc, ?_⟩
          · intro hm; apply h2; simp [hm]
          · intro x hx
            simp only [Option.some.injEq] at hx
            subst hx
            exact ⟨fun hm => h2 (by simp [hm]), e7⟩
        · cases h
      · cases h
    · cases h
  · rintro ⟨rfl, h1, h2, h3, h4, h5⟩
    have e1 : v ++ codes ":ims/lis/" ++ t ++ subText sub =
        v ++ 58 :: (imsText ++ 47 :: (lisText ++ 47 :: (t ++ subText sub))) := by rw [e9]; simp
    have hp : 58 ∉ imsText ++ 47 :: (lisText ++ 47 :: (t ++ subText sub)) := by
      simp only [List.mem_append, List.mem_cons, not_or]
      refine ⟨m3, by decide, m4, by decide, h2, ?_⟩
      cases sub with
      | none => simp [subText]
      | some x => simp only [subText, List.mem_cons, not_or]; exact ⟨by decide, (h5 x rfl).1⟩
    rw [e1, Http.splitByte_append 58 v _ h1, Http.splitByte_none 58 _ hp]
    dsimp only
    rw [Http.splitByte_append 47 _ _ m1, Http.splitByte_append 47 _ _ m2]
    cases sub with
    | none =>
      rw [show t ++ subText none = t by simp [subText], Http.splitByte_none 47 t h3]
      dsimp only
      rw [if_pos ⟨h4, rfl, rfl⟩]
    | some x =>
      rw [show t ++ subText (some x) = t ++ 47 :: x from rfl, Http.splitByte_append 47 t x h3,
        Http.splitByte_none 47 x (h5 x rfl).2]
      dsimp only
      rw [if_pos ⟨h4, rfl, rfl⟩]

theorem scheme_urn (sch : Str) (h : Uri.lower sch = urnText) : SchemeOk sch := by
  have key : ∀ c d, (if Uri.isUpper c then c + 32 else c) = d → Uri.isAlpha d = true → Uri.isAlpha c = true := by
    intro c d e hd
    split at e
    · rename_i hu
      simp only [Uri.isAlpha, Bool.or_eq_true]
      exact Or.inl hu
    · rw [e]; exact hd
  unfold Uri.lower urnText at h
  match sch with
  | [] => cases h
  | [_] => simp at h
  | [_, _] => simp at h
  | _ :: _ :: _ :: _ :: _ => simp at h
  | [a, b, c] =>
    simp only [List.map_cons, List.map_nil, List.cons.injEq, and_true] at h
    right
    refine ⟨a, [b, c], rfl, key a _ h.1 (by decide), ?_⟩
    intro x hx
    simp only [List.mem_cons, List.not_mem_nil, or_false] at hx
    rcases hx with rfl | rfl
    · exact Uri.alpha_scheme (key _ _ h.2.1 (by decide))
    · exact Uri.alpha_scheme (key _ _ h.2.2 (by decide))

/-- What `roleUrn` does with a URI that has a scheme. -/
def absUrn (u : URI) (sch : Str) : Option (Str × Str) :=
  if Uri.lower sch = urnText then
    match u.parts.opaquePart with
    | some o => urnParse o
    | none => none
  else none

theorem mk_lti (o nss sch : Str) (f : Option Str) :
    ((Uri.mkURI o f).scheme = some sch ∧ absUrn (Uri.mkURI o f) sch = some (ltiText, nss)) ↔
      o = sch ++ codes ":lti:" ++ nss ∧ Uri.lower sch = urnText ∧ ∀ c ∈ nss, isTrans c = true := by
  have e5 : codes ":lti:" = 58 :: (ltiText ++ [58]) := by decide
  constructor
  · rintro ⟨h1, h2⟩
    obtain ⟨k1, k2, k3, k4, k5⟩ := Uri.mkURI_text o f
    unfold absUrn at h2
    split at h2
    · rename_i hu
      split at h2
      · rename_i op hop
        obtain ⟨a1, -, a3, -⟩ := (Uri.C44_accepts op ltiText nss).1 h2
        refine ⟨?_, hu, a3⟩
        obtain ⟨-, ha⟩ := k4 sch h1
        have ht : (Uri.mkURI o f).parts.text = op := by
          rcases ha with ha | ⟨c, r, -, ha⟩ | ha
          · rw [ha] at hop; cases hop
          · rw [ha] at hop ⊢
            simp only [Option.some.injEq] at hop
            simp [Uri.Parts.text, hop]
          · rw [ha.1] at hop; cases hop
        rw [ht, h1] at k1
        rw [← k1, a1, e5]
        simp [Uri.schemeText]
      · cases h2
    · cases h2
  · rintro ⟨rfl, h2, h3⟩
    have hp : ({ opaquePart := some (ltiText ++ 58 :: nss) } : Uri.Parts).AfterScheme :=
      Or.inr (Or.inl ⟨108, [116, 105] ++ 58 :: nss, by decide, rfl⟩)
    have hc := Uri.C21_components sch { opaquePart := some (ltiText ++ 58 :: nss) } f (scheme_urn sch h2) hp
    have ho : Uri.schemeText (some sch) ++ Uri.Parts.text { opaquePart := some (ltiText ++ 58 :: nss) } =
        sch ++ codes ":lti:" ++ nss := by rw [e5]; simp [Uri.schemeText, Uri.Parts.text]
    rw [ho] at hc
    rw [hc]
    refine ⟨rfl, ?_⟩
    unfold absUrn
    rw [if_pos h2]
    dsimp only
    exact (Uri.C44_accepts _ _ _).2 ⟨rfl, ⟨by decide, 108, [116, 105], rfl, by decide, by decide⟩, h3, by decide⟩

/-- A text with scheme is a URN with NID "lti". -/
theorem init_lti (s nss : Str) :
    (∃ u sch, URI.init s = some u ∧ u.scheme = some sch ∧ absUrn u sch = some (ltiText, nss)) ↔
    ∃ (sch : Str) (f : Option Str),
      s = sch ++ codes ":lti:" ++ nss ++ (match f with | some f => 35 :: f | none => []) ∧
      Uri.lower sch = urnText ∧ Uric isAllowed (sch ++ codes ":lti:" ++ nss) ∧ (∀ x, f = some x → Uric isAllowed x) ∧
      ∀ c ∈ nss, isTrans c = true := by
  constructor
  · rintro ⟨u, sch, h1, h2, h3⟩
    have hs : (URI.init s).isSome := by rw [h1]; rfl
    rcases (Uri.C21_accepts s).1 hs with hu | ⟨a, f, rfl, ha, hf⟩
    · rw [Uri.init_plain s hu] at h1
      cases h1
      obtain ⟨k1, k2, k3⟩ := (mk_lti s nss sch none).1 ⟨h2, h3⟩
      refine ⟨sch, none, by simpa using k1, k2, by rw [← k1]; exact hu, by simp, k3⟩
    · rw [Uri.init_fragment a f ha hf] at h1
      cases h1
      obtain ⟨k1, k2, k3⟩ := (mk_lti a nss sch (some f)).1 ⟨h2, h3⟩
      refine ⟨sch, some f, by dsimp only; rw [← k1], k2, by rw [← k1]; exact ha, ?_, k3⟩
      intro x hx; cases hx; exact hf
  · rintro ⟨sch, f, rfl, h2, h3, h4, h5⟩
    obtain ⟨k1, k2⟩ := (mk_lti (sch ++ codes ":lti:" ++ nss) nss sch f).2 ⟨rfl, h2, h5⟩
    refine ⟨Uri.mkURI (sch ++ codes ":lti:" ++ nss) f, sch, ?_, k1, k2⟩
    cases f with
    | none => simp only [List.append_nil]; exact Uri.init_plain _ h3
    | some f => exact Uri.init_fragment _ f h3 (h4 f rfl)

/-- The parts of a role, however it is written. -/
def roleParts (s : Str) : Option (Str × Str × Option Str) := (roleUrn s).bind fun u => splitRole u.1 u.2

theorem roleParts_iff (s v t : Str) :
    (∃ sub, roleParts s = some (v, t, sub)) ↔ (v = codes "role" ∧ Named t s) ∨ ∃ sub, FullRole v t sub s := by
  have hnid : ∀ (u : Str × Str) v t sub, splitRole u.1 u.2 = some (v, t, sub) → u.1 = ltiText := by
    intro u v t sub h
    unfold splitRole at h
    split at h
    · cases h
    · rename_i hn; exact Decidable.not_not.1 hn
  have full : ∀ sub, (∃ u sch nss, URI.init s = some u ∧ u.scheme = some sch ∧ absUrn u sch = some (ltiText, nss) ∧
      splitRole ltiText nss = some (v, t, sub)) ↔ FullRole v t sub s := by
    intro sub
    constructor
    · rintro ⟨u, sch, nss, h1, h2, h3, h4⟩
      obtain ⟨sch', f, e1, e2, e3, e4, e5⟩ := (init_lti s nss).1 ⟨u, sch, h1, h2, h3⟩
      obtain ⟨a1, a2, a3, a4, a5, a6⟩ := (split_role_iff nss v t sub).1 h4
      subst a1
      exact ⟨sch', f, e1, e2, e3, e4, e5, a2, a3, a4, a5, a6⟩
    · rintro ⟨sch', f, e1, e2, e3, e4, e5, a2, a3, a4, a5, a6⟩
      obtain ⟨u, sch, h1, h2, h3⟩ := (init_lti s (v ++ codes ":ims/lis/" ++ t ++ subText sub)).2 ⟨sch', f, e1, e2, e3, e4, e5⟩
      exact ⟨u, sch, _, h1, h2, h3, (split_role_iff _ v t sub).2 ⟨rfl, a2, a3, a4, a5, a6⟩⟩
  constructor
  · rintro ⟨sub, h⟩
    unfold roleParts at h
    cases hr : roleUrn s with
    | none => rw [hr] at h; cases h
    | some u =>
      rw [hr, Option.bind_some] at h
      have hl := hnid u _ _ _ h
      unfold roleUrn at hr
      split at hr
      · cases hr
      · rename_i w hw
        split at hr
        · rename_i sch hsch
          right
          refine ⟨sub, (full sub).1 ⟨w, sch, u.2, hw, hsch, ?_, ?_⟩⟩
          · rw [← hl]; exact hr
          · rw [← hl]; exact h
        · left
          rw [Option.map_eq_some_iff] at hr
          obtain ⟨nss, h1, rfl⟩ := hr
          have hm := lookup_mem _ _ _ h1
          obtain ⟨-, sub', h2⟩ := handles_ok _ hm
          dsimp only at h h2
          rw [h2] at h
          simp only [Option.some.injEq, Prod.mk.injEq] at h
          exact ⟨h.1.symm, (named_first t s).2 ⟨List.mem_map.2 ⟨_, hm, rfl⟩, h.2.1⟩⟩
  · rintro (⟨rfl, h⟩ | ⟨sub, h⟩)
    · obtain ⟨h1, rfl⟩ := (named_first t s).1 h
      obtain ⟨nss, h2⟩ := lookup_isSome _ _ h1
      have hm := lookup_mem _ _ _ h2
      obtain ⟨h3, sub, h4⟩ := handles_ok _ hm
      refine ⟨sub, ?_⟩
      unfold roleParts roleUrn
      dsimp only at h3
      rw [Option.map_eq_some_iff] at h3
      obtain ⟨u, h5, h6⟩ := h3
      rw [h5]
      dsimp only
      rw [h6]
      dsimp only
      rw [h2]
      exact h4
    · obtain ⟨u, sch, nss, h1, h2, h3, h4⟩ := (full sub).2 h
      refine ⟨sub, ?_⟩
      unfold roleParts roleUrn
      rw [h1]
      dsimp only
      rw [h2]
      dsimp only
      rw [show (if Uri.lower sch = urnText then match u.parts.opaquePart with | some o => urnParse o | none => none
        else none) = absUrn u sch from rfl, h3]
      exact h4

theorem getPermissions_eq (u : Str × Str) : getPermissions u = (splitRole u.1 u.2).map fun p =>
    if p.1 = codes "role" ∧ p.2.1 = codes "Instructor" then 7
    else if p.1 = codes "role" ∧ p.2.1 = codes "Learner" then 1 else 0 := by
  have h1 : splitRole instructorUrn.1 instructorUrn.2 = some (codes "role", codes "Instructor", none) := by decide +kernel
  have h2 : splitRole learnerUrn.1 learnerUrn.2 = some (codes "role", codes "Learner", none) := by decide +kernel
  unfold getPermissions isSubrole
  cases h : splitRole u.1 u.2 with
  | none => rfl
  | some p =>
    obtain ⟨v, t, sub⟩ := p
    rw [h1, h2]
    simp only [bind, Option.bind, pure, Option.map_some]
    have ne : codes "Learner" ≠ codes "Instructor" := by decide
    by_cases a : v = codes "role" <;> by_cases b : t = codes "Instructor" <;> by_cases c : t = codes "Learner" <;>
      simp [a, b, c, ne]

/-! ### C110 -/

/-- The permissions that a set of roles gives. -/
noncomputable def granted (rs : List Str) : Nat :=
  open Classical in
  if ∃ r ∈ rs, HasType (codes "Instructor") (strip r) then 7
  else if ∃ r ∈ rs, HasType (codes "Learner") (strip r) then 1 else 0

theorem roleParts_type (s type : Str) : (∃ sub, roleParts s = some (codes "role", type, sub)) ↔ HasType type s := by
  rw [roleParts_iff]; unfold HasType; simp

theorem lti_iff (s : Str) : (roleParts s).isSome ↔ LtiRole s := by
  unfold LtiRole
  constructor
  · intro h
    rw [Option.isSome_iff_exists] at h
    obtain ⟨⟨v, t, sub⟩, h⟩ := h
    rcases (roleParts_iff s v t).1 ⟨sub, h⟩ with ⟨-, h⟩ | ⟨sub, h⟩
    · exact Or.inl ⟨t, h⟩
    · exact Or.inr ⟨v, t, sub, h⟩
  · intro h
    have : ∃ v t sub, roleParts s = some (v, t, sub) := by
      rcases h with ⟨t, h⟩ | ⟨v, t, sub, h⟩
      · obtain ⟨sub, h⟩ := (roleParts_iff s (codes "role") t).2 (Or.inl ⟨rfl, h⟩)
        exact ⟨_, _, _, h⟩
      · obtain ⟨sub, h⟩ := (roleParts_iff s v t).2 (Or.inr ⟨sub, h⟩)
        exact ⟨_, _, _, h⟩
    obtain ⟨v, t, sub, h⟩ := this
    rw [h]; rfl

/-- The permissions of one role. -/
theorem one_role (s : Str) : (roleUrn s).bind getPermissions = (roleParts s).map fun p =>
    if p.1 = codes "role" ∧ p.2.1 = codes "Instructor" then 7
    else if p.1 = codes "role" ∧ p.2.1 = codes "Learner" then 1 else 0 := by
  unfold roleParts
  cases roleUrn s with
  | none => rfl
  | some u => exact getPermissions_eq u

theorem perm_or {P Q A B R S : Prop} {_ : Decidable P} {_ : Decidable Q} {_ : Decidable A} {_ : Decidable B} {_ : Decidable R}
    {_ : Decidable S}
    (h1 : P ↔ A ∨ R) (h2 : Q ↔ B ∨ S) : (if P then 7 else if Q then 1 else 0) =
      ((if A then 7 else if B then 1 else 0) ||| (if R then 7 else if S then 1 else 0)) := by
  by_cases a : A <;> by_cases b : B <;> by_cases c : R <;> by_cases d : S <;> simp [h1, h2, a, b, c, d]

theorem permLoop_eq (p : Nat) (rs : List Str) (hp : p = 0 ∨ p = 1 ∨ p = 7) :
    (∀ q, permLoop p rs = some q → (∀ r ∈ rs, LtiRole (strip r)) ∧ q = p ||| granted rs) ∧
    ((∀ r ∈ rs, LtiRole (strip r)) → ∃ q, permLoop p rs = some q) := by
  induction rs generalizing p with
  | nil =>
    refine ⟨fun q h => ?_, fun _ => ⟨p, rfl⟩⟩
    simp only [permLoop, Option.some.injEq] at h
    subst h
    simp [granted]
  | cons r rs ih =>
    have ho := one_role (strip r)
    have step : permLoop p (r :: rs) = ((roleUrn (strip r)).bind getPermissions).bind fun q => permLoop (p ||| q) rs := by
      rw [permLoop]
      cases roleUrn (strip r) with
      | none => rfl
      | some u => simp only [Option.bind_some]; cases getPermissions u <;> rfl
    rw [step, ho]
    cases hr : roleParts (strip r) with
    | none =>
      simp only [Option.map_none, Option.bind_none]
      refine ⟨fun q h => by simp at h, fun h => ?_⟩
      have := (lti_iff (strip r)).2 (h r (by simp))
      rw [hr] at this; cases this
    | some x =>
      obtain ⟨v, t, sub⟩ := x
      have hl : LtiRole (strip r) := (lti_iff _).1 (by rw [hr]; rfl)
      have ht : ∀ type, HasType type (strip r) ↔ v = codes "role" ∧ t = type := by
        intro type
        rw [← roleParts_type, hr]
        simp
      simp only [Option.map_some, Option.bind_some]
      generalize hg : (if v = codes "role" ∧ t = codes "Instructor" then 7
        else if v = codes "role" ∧ t = codes "Learner" then 1 else 0) = g
      have hgv : g = 0 ∨ g = 1 ∨ g = 7 := by
        rw [← hg]; split
        · simp
        · split <;> simp
      have hpg : (p ||| g) = 0 ∨ (p ||| g) = 1 ∨ (p ||| g) = 7 := by
        rcases hp with rfl | rfl | rfl <;> rcases hgv with h | h | h <;> rw [h] <;> decide
      obtain ⟨i1, i2⟩ := ih (p ||| g) hpg
      have hgr : granted (r :: rs) = g ||| granted rs := by
        unfold granted
        have e : ∀ type, (∃ x, x ∈ r :: rs ∧ HasType type (strip x)) ↔
            (v = codes "role" ∧ t = type) ∨ ∃ x, x ∈ rs ∧ HasType type (strip x) := by
          intro type
          rw [← ht type]
          constructor
          · rintro ⟨x, hx, h⟩
            rcases List.mem_cons.1 hx with rfl | hx
            · exact Or.inl h
            · exact Or.inr ⟨x, hx, h⟩
          · rintro (h | ⟨x, hx, h⟩)
            · exact ⟨r, by simp, h⟩
            · exact ⟨x, by simp [hx], h⟩
        rw [← hg]
        apply perm_or
        · exact e _
        · exact e _
      refine ⟨fun q h => ?_, fun h => i2 fun x hx => h x (by simp [hx])⟩
      obtain ⟨j1, j2⟩ := i1 q h
      refine ⟨?_, by rw [j2, hgr, Nat.or_assoc]⟩
      intro x hx
      rcases List.mem_cons.1 hx with rfl | hx
      · exact hl
      · exact j1 x hx

/-- C110: the permissions of a launch.  They are set exactly when every role in the list is a role of LTI; they are
read, write and configure (7) if one of the roles is an Instructor role, by name or as a URN, with or without
sub-role; otherwise read (1) if one of them is a Learner role; otherwise nothing. -/
theorem C110_permissions_partial (roles : Str) (p : Nat) :
    launchPermissions (some roles) = some p ↔
      (∀ r ∈ splitByte 44 roles, LtiRole (strip r)) ∧ p = granted (splitByte 44 roles) := by
  obtain ⟨h1, h2⟩ := permLoop_eq 0 (splitByte 44 roles) (Or.inl rfl)
  show permLoop 0 (splitByte 44 roles) = some p ↔ _
  constructor
  · intro h
    obtain ⟨a, b⟩ := h1 p h
    exact ⟨a, by rw [b, Nat.zero_or]⟩
  · rintro ⟨a, rfl⟩
    obtain ⟨q, hq⟩ := h2 a
    rw [hq, (h1 q hq).2, Nat.zero_or]

/-- C110: the list of roles: no part has a comma, and the parts with commas in between are the parameter. -/
theorem C110_list (l : List Str) (h : l ≠ []) (hc : ∀ r ∈ l, 44 ∉ r) : splitByte 44 (Http.joinByte 44 l) = l :=
  Http.splitByte_join 44 l h hc

/-- C110: without the parameter there are no permissions. -/
theorem C110_no_roles : launchPermissions none = some 0 := rfl

/-- C110, violated: a role that is not one of LTI does not add nothing, as documented, but makes the launch fail, even
beside a role that is known: a URN of another namespace, a name that is not a handle, or nothing after a comma. -/
theorem C110_unknown_roles :
    launchPermissions (some (codes "Instructor,urn:example:tutor")) = none ∧
    launchPermissions (some (codes "Learner,Guest")) = none ∧
    launchPermissions (some (codes "Learner,")) = none := by decide +kernel

/-! Cases that meet the hypotheses. -/

example : launchPermissions (some (codes "Learner, Instructor/Lecturer")) = some 7 := by decide +kernel
example : launchPermissions (some (codes "urn:lti:role:ims/lis/Learner/GuestLearner,Mentor")) = some 1 := by decide +kernel
example : launchPermissions (some (codes "urn:lti:instrole:ims/lis/Instructor")) = some 0 := by decide +kernel
example : launchPermissions (some (codes "Learner/Instructor")) = some 1 := by decide +kernel
example : HasType (codes "Instructor") (codes "URN:lti:role:ims/lis/Instructor/Other#x") := by
  rw [← roleParts_type]
  exact ⟨some (codes "Other"), by decide +kernel⟩

end Verif.Lti

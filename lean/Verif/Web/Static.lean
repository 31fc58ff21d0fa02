import Verif.Web.C106
import Verif.Cookie.Suffix
/-!
# C106: static pages (pyslet/wsgi.py:966-1030)

The file system is a parameter: which paths are directories and which are files.
-/
namespace Verif.Web

/-! ### Model -/

/-- `os.path.join(a, p)` (posixpath): an absolute second part replaces the first. -/
def osJoin (a p : Str) : Str :=
  if p.head? = some 47 then p
  else if a = [] ∨ a.getLast? = some 47 then a ++ p
  else a ++ 47 :: p

/-- `p.split('.')`. -/
def dots : Str → List Str
  | [] => [[]]
  | c :: r =>
    if c = 46 then [] :: dots r
    else match dots r with
      | a :: l => (c :: a) :: l
      | [] => [[c]]

/-- What becomes of a request: the file that is sent, the page is not found, or an error (`encode` fails). -/
inductive Page
  | file (path : Str)
  | notFound
  | error
  deriving DecidableEq

/-- `is_ldh_label(p.encode('ascii'))`; none when it cannot be encoded. -/
def ldhAscii (p : Str) : Option Bool := if p.all (· < 128) then some (Cookie.isLdh p) else none

/-- The loop of `static_page`, wsgi.py:987-1015. -/
def staticLoop (isdir isfile : Str → Bool) (target : Str) : List Str → Page
  | [] => .notFound
  | [p] =>
    if p = [] then .notFound
    else match dots p with
      | [a, b] =>
        match ldhAscii a with
        | none => .error
        | some false => .notFound
        | some true =>
          match ldhAscii b with
          | none => .error
          | some false => .notFound
          | some true => if isfile (osJoin target p) then .file (osJoin target p) else .notFound
      | _ => .notFound
  | p :: q :: r =>
    if p = [] then staticLoop isdir isfile target (q :: r)
    else match ldhAscii p with
      | none => .error
      | some false => .notFound
      | some true =>
        if isdir (osJoin target p) then staticLoop isdir isfile (osJoin target p) (q :: r) else .notFound

/-- `static_page`, wsgi.py:980-1015. -/
def staticPage (isdir isfile : Str → Bool) (staticFiles : Option Str) (pathInfo : Str) : Page :=
  match staticFiles with
  | none => .notFound
  | some root => staticLoop isdir isfile root (Vfs.comps pathInfo)

/-! ### Specification -/

/-- A safe name: ASCII letters, digits and hyphens, and not empty. -/
def SafeName (p : Str) : Prop := p ≠ [] ∧ ∀ c ∈ p, (65 ≤ c ∧ c ≤ 90) ∨ (97 ≤ c ∧ c ≤ 122) ∨ (48 ≤ c ∧ c ≤ 57) ∨ c = 45

/-- The path of something inside a directory: the names follow the path of the directory, separated by slashes. -/
def inside (root : Str) (dirs : List Str) : Str := dirs.foldl (fun a p => if a.getLast? = some 47 then a ++ p else a ++ 47 :: p) root

/-! ### Theorems -/

theorem dots_join {p a b : Str} (h : dots p = [a, b]) : p = a ++ 46 :: b := by
  have key : ∀ p : Str, dots p ≠ [] ∧ ∀ x l, dots p = x :: l → p = x ++ (l.flatMap fun y => 46 :: y) := by
    intro p
    induction p with
    | nil =>
      refine ⟨by simp [dots], ?_⟩
      intro x l e
      rw [dots] at e
      injection e with e1 e2
      subst e1; subst e2; rfl
    | cons c r ih =>
      rw [dots]
      split
      · rename_i hc
        refine ⟨by simp, ?_⟩
        intro x l e
        injection e with e1 e2
        subst e1; subst e2; subst hc
        cases hd : dots r with
        | nil => exact absurd hd ih.1
        | cons y m => rw [ih.2 y m hd]; simp
      · cases hd : dots r with
        | nil => exact absurd hd ih.1
        | cons y m =>
          refine ⟨by simp, ?_⟩
          intro x l e
          injection e with e1 e2
          subst e1; subst e2
          rw [ih.2 y m hd]; simp
  have := (key p).2 a [b] h
  simpa using this

theorem safe_of_ldh {p : Str} (h : ldhAscii p = some true) : SafeName p := by
  unfold ldhAscii at h
  split at h
  case isFalse => cases h
  have h : Cookie.isLdh p = true := Option.some.inj h
  unfold Cookie.isLdh at h
  split at h
  · cases h
  · rename_i hn
    refine ⟨fun e => hn (by simp [e]), ?_⟩
    intro c hc
    have := Cookie.ldhLoop_mem p _ _ h c hc
    simp only [Cookie.isAlpha, Text.isDigit, Bool.or_eq_true, Bool.and_eq_true, decide_eq_true_eq] at this
    omega

theorem safe_head {p : Str} (h : SafeName p) : p.head? ≠ some 47 := by
  cases p with
  | nil => simp
  | cons c r =>
    have := h.2 c (by simp)
    simp only [List.head?_cons, ne_eq, Option.some.injEq]
    omega

theorem osJoin_safe {a p : Str} (ha : a ≠ []) (hp : p.head? ≠ some 47) :
    osJoin a p = if a.getLast? = some 47 then a ++ p else a ++ 47 :: p := by
  unfold osJoin
  rw [if_neg hp]
  simp [ha]

theorem osJoin_ne {a p : Str} (ha : a ≠ []) (hp : p.head? ≠ some 47) : osJoin a p ≠ [] := by
  rw [osJoin_safe ha hp]
  split <;> simp [ha]

theorem staticLoop_inside (isdir isfile : Str → Bool) (f : Str) : ∀ (cs : List Str) (target : Str), target ≠ [] →
    staticLoop isdir isfile target cs = .file f →
    ∃ dirs a b, (∀ d ∈ dirs, SafeName d) ∧ SafeName a ∧ SafeName b ∧ f = inside target (dirs ++ [a ++ 46 :: b]) ∧ isfile f = true ∧
      cs.filter (· ≠ []) = dirs ++ [a ++ 46 :: b]
  | [], _, _, h => by cases h
  | [p], target, ht, h => by
    rw [staticLoop] at h
    split at h
    · cases h
    rename_i hp
    split at h
    case h_2 => cases h
    rename_i a b hd
    split at h
    · cases h
    · cases h
    rename_i h1
    split at h
    · cases h
    · cases h
    rename_i h2
    split at h
    case isFalse => cases h
    rename_i h3
    cases h
    have sa := safe_of_ldh h1
    have sb := safe_of_ldh h2
    have e := dots_join hd
    have hh : p.head? ≠ some 47 := by
      rw [e]
      have := safe_head sa
      cases a with
      | nil => exact absurd rfl sa.1
      | cons c a => exact this
    refine ⟨[], a, b, by simp, sa, sb, ?_, h3, ?_⟩
    · rw [osJoin_safe ht hh, List.nil_append, ← e]; rfl
    · simp [hp, e]
  | p :: q :: r, target, ht, h => by
    rw [staticLoop] at h
    split at h
    · rename_i hp
      obtain ⟨dirs, a, b, h1, h2, h3, h4, h5, h6⟩ := staticLoop_inside isdir isfile f (q :: r) target ht h
      refine ⟨dirs, a, b, h1, h2, h3, h4, h5, ?_⟩
      rw [List.filter_cons, if_neg (by simp [hp])]; exact h6
    · rename_i hp
      split at h
      · cases h
      · cases h
      · rename_i hl
        split at h
        case isFalse => cases h
        have sp := safe_of_ldh hl
        obtain ⟨dirs, a, b, h1, h2, h3, h4, h5, h6⟩ := staticLoop_inside isdir isfile f (q :: r) _ (osJoin_ne ht (safe_head sp)) h
        refine ⟨p :: dirs, a, b, ?_, h2, h3, ?_, h5, ?_⟩
        · intro d hd
          rcases List.mem_cons.1 hd with rfl | hd
          · exact sp
          · exact h1 d hd
        · rw [h4, osJoin_safe ht (safe_head sp)]; rfl
        · rw [List.filter_cons, if_pos (by simp [hp]), h6]; rfl

/-- C106: whatever the path, a static page is a file inside the directory of static files, named by the components of
the path, all of which are made of letters, digits and hyphens, with a full stop in the last one only. -/
theorem C106_static (isdir isfile : Str → Bool) (root : Str) (hr : root ≠ []) (path f : Str)
    (h : staticPage isdir isfile (some root) path = .file f) :
    ∃ dirs a b, (∀ d ∈ dirs, SafeName d) ∧ SafeName a ∧ SafeName b ∧ f = inside root (dirs ++ [a ++ 46 :: b]) ∧ isfile f = true ∧
      (Vfs.comps path).filter (· ≠ []) = dirs ++ [a ++ 46 :: b] :=
  staticLoop_inside isdir isfile f (Vfs.comps path) root hr h

theorem dots_plain {b : Str} (h : 46 ∉ b) : dots b = [b] := by
  induction b with
  | nil => rfl
  | cons c b ih =>
    rw [dots, if_neg (fun e => h (by simp [e])), ih (fun e => h (by simp [e]))]

theorem dots_two {a b : Str} (ha : 46 ∉ a) (hb : 46 ∉ b) : dots (a ++ 46 :: b) = [a, b] := by
  induction a with
  | nil => rw [List.nil_append, dots, if_pos rfl, dots_plain hb]
  | cons c a ih =>
    rw [List.cons_append, dots, if_neg (fun e => ha (by simp [e])), ih (fun e => ha (by simp [e]))]

theorem safe_nodot {p : Str} (h : SafeName p) : 46 ∉ p := by
  intro hm
  have := h.2 _ hm
  omega

theorem ldh_ascii {p : Str} (h : Cookie.isLdh p = true) : ldhAscii p = some true := by
  have hs : SafeName p := by
    unfold Cookie.isLdh at h
    split at h
    · cases h
    · rename_i hn
      refine ⟨fun e => hn (by simp [e]), ?_⟩
      intro c hc
      have := Cookie.ldhLoop_mem p _ _ h c hc
      simp only [Cookie.isAlpha, Text.isDigit, Bool.or_eq_true, Bool.and_eq_true, decide_eq_true_eq] at this
      omega
  unfold ldhAscii
  rw [if_pos, h]
  rw [List.all_eq_true]
  intro c hc
  have := hs.2 c hc
  simp only [decide_eq_true_eq]
  omega

/-- C106: a file in a directory of static files whose names are labels is served. -/
theorem C106_static_served (isdir isfile : Str → Bool) (root : Str) (hr : root ≠ []) (path : Str) (dirs : List Str) (a b : Str)
    (hd : ∀ d ∈ dirs, Cookie.isLdh d = true) (ha : Cookie.isLdh a = true) (hb : Cookie.isLdh b = true)
    (hp : Vfs.comps path = [] :: (dirs ++ [a ++ 46 :: b]))
    (hdirs : ∀ k, 0 < k → k ≤ dirs.length → isdir (inside root (dirs.take k)) = true)
    (hf : isfile (inside root (dirs ++ [a ++ 46 :: b])) = true) :
    staticPage isdir isfile (some root) path = .file (inside root (dirs ++ [a ++ 46 :: b])) := by
  have key : ∀ (dirs : List Str) (root : Str), root ≠ [] → (∀ d ∈ dirs, Cookie.isLdh d = true) →
      (∀ k, 0 < k → k ≤ dirs.length → isdir (inside root (dirs.take k)) = true) →
      isfile (inside root (dirs ++ [a ++ 46 :: b])) = true →
      staticLoop isdir isfile root (dirs ++ [a ++ 46 :: b]) = .file (inside root (dirs ++ [a ++ 46 :: b])) := by
    intro dirs
    induction dirs with
    | nil =>
      intro root hr _ _ hf
      rw [List.nil_append] at hf ⊢
      have sa := safe_of_ldh (ldh_ascii ha)
      have sb := safe_of_ldh (ldh_ascii hb)
      have hh : (a ++ 46 :: b).head? ≠ some 47 := by
        have := safe_head sa
        cases a with
        | nil => exact absurd rfl sa.1
        | cons c a => exact this
      rw [staticLoop, if_neg (by simp), dots_two (safe_nodot sa) (safe_nodot sb)]
      simp only [ldh_ascii ha, ldh_ascii hb]
      have e : osJoin root (a ++ 46 :: b) = inside root [a ++ 46 :: b] := by rw [osJoin_safe hr hh]; rfl
      rw [e, hf, if_pos rfl]
    | cons d dirs ih =>
      intro root hr hd hk hf
      have hl := ldh_ascii (hd d (by simp))
      have sd := safe_of_ldh hl
      have e : osJoin root d = if root.getLast? = some 47 then root ++ d else root ++ 47 :: d := osJoin_safe hr (safe_head sd)
      have hin : ∀ l, inside root (d :: l) = inside (osJoin root d) l := by intro l; rw [e]; rfl
      have hdir : isdir (osJoin root d) = true := by
        have := hk 1 (by omega) (by simp)
        rw [show (d :: dirs).take 1 = [d] by simp, hin] at this
        exact this
      have hrec := ih (osJoin root d) (osJoin_ne hr (safe_head sd)) (fun x hx => hd x (by simp [hx])) (by
        intro k h0 h1
        have := hk (k + 1) (by omega) (by simp; omega)
        rw [List.take_succ_cons, hin] at this
        exact this) (by rw [List.cons_append, hin] at hf; exact hf)
      rw [List.cons_append, hin]
      rw [← hrec]
      cases hcs : dirs ++ [a ++ 46 :: b] with
      | nil => simp at hcs
      | cons q r =>
        rw [staticLoop, if_neg sd.1]
        simp only [hl, hdir, if_true]
  unfold staticPage
  dsimp only
  rw [hp]
  have := key dirs root hr hd hdirs hf
  rw [← this]
  cases hcs : dirs ++ [a ++ 46 :: b] with
  | nil => simp at hcs
  | cons q r => rw [staticLoop, if_pos rfl]

/-- `/srv` and the request `/img//logo.png`. -/
example : staticPage (fun _ => true) (fun _ => true) (some [47, 115]) [47, 105, 47, 47, 97, 46, 98] = .file [47, 115, 47, 105, 47, 97, 46, 98] := by
  decide +kernel

/-- A request with a character outside ASCII is an internal error, not a missing page. -/
theorem C106_violation_ascii : staticPage (fun _ => true) (fun _ => true) (some [47, 115]) [47, 233, 46, 98] = .error := by
  decide +kernel

end Verif.Web

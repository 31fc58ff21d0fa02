import Verif.Uri.PathProps
import Mathlib.Data.List.Induction
/-!
# Model of `pyslet/http/auth.py` class `BasicCredentials`: the paths credentials are good for (C81)

Segments and paths are the texts of `Verif.Uri`.
-/
namespace Verif.Auth
open Uri (Str splitAbsPath normalizeSegments splitOn)

/-- The loop of `is_prefix`, auth.py:304-309.  The second case is an IndexError in Python; it cannot be reached, see
the length test in `isPrefix`. -/
def isPrefixLoop : List Str → List Str → Bool
  | [], _ => true
  | _ :: _, [] => true
  | p :: ps, s :: ss => if p ≠ [] ∧ p ≠ s then false else isPrefixLoop ps ss

/-- `is_prefix`, auth.py:301-310. -/
def isPrefix (pre path : List Str) : Bool := if pre.length > path.length then false else isPrefixLoop pre path

/-- `test_path`, auth.py:250-257, for credentials with the given `path_prefixes`; `none`: ValueError. -/
def testPath (prefixes : List (List Str)) (path : Str) : Option Bool := do
  let segs ← splitAbsPath path
  return prefixes.any fun p => isPrefix p (normalizeSegments segs)

/-- The prefix made from a path, auth.py:276-282: `new_prefix`.  `none`: ValueError. -/
def newPrefix (path : Str) : Option (List Str) := do
  let segs ← splitAbsPath (if path = [] then [47] else path)
  return normalizeSegments (if segs.getLast? = some [] then segs else segs.dropLast ++ [[]])

/-- The loop over the stored prefixes, auth.py:283-297: what is left of the list, and `keep`. -/
def addLoop (new : List Str) : List (List Str) → List (List Str) × Bool
  | [] => ([], true)
  | p :: r =>
    if isPrefix p new then (p :: r, false)
    else if isPrefix new p then addLoop new r
    else ((p :: (addLoop new r).1), (addLoop new r).2)

/-- `add_success_path`, auth.py:259-299: `path_prefixes` after the call. -/
def addSuccessPath (prefixes : List (List Str)) (path : Str) : Option (List (List Str)) := do
  let new ← newPrefix path
  let (r, keep) := addLoop new prefixes
  return if keep then r ++ [new] else r

/-- `path_prefixes` after a history of successes; the list is empty to begin with, auth.py:216. -/
def afterSuccesses (ss : List Str) : Option (List (List Str)) :=
  ss.foldlM (init := []) addSuccessPath

/-! ### Specification -/

/-- The folders of a path that starts with '/': what stands between the slashes once '.' and '..' have been
followed; the last piece, after the last slash, is not a folder. -/
def folders (path : Str) : List Str := (normalizeSegments (splitOn 47 path).tail).dropLast

/-- The part of a path up to and including its last slash. -/
def upToSlash (path : Str) : Str := (path.reverse.dropWhile (· ≠ 47)).reverse

/-- The path lies in the folder that holds the document, or deeper. -/
def AtOrBelow (path document : Str) : Prop := folders (upToSlash document) <+: folders path

instance (path document : Str) : Decidable (AtOrBelow path document) := inferInstanceAs (Decidable (_ <+: _))

/-- A path that starts with a slash. -/
def Absolute (path : Str) : Prop := path.head? = some 47

instance (path : Str) : Decidable (Absolute path) := inferInstanceAs (Decidable (_ = _))

/-! ### Lemmas -/

theorem isPrefixLoop_iff (p s : List Str) (h : p.length ≤ s.length) :
    isPrefixLoop p s = true ↔ ∀ i (hi : i < p.length), p[i] = [] ∨ p[i] = s[i] := by
  induction p generalizing s with
  | nil => simp [isPrefixLoop]
  | cons a p ih =>
    cases s with
    | nil => simp at h
    | cons b s =>
      rw [isPrefixLoop]
      constructor
      · intro hh
        split at hh
        · exact absurd hh (by simp)
        · rename_i hab
          intro i hi
          cases i with
          | zero =>
            simp only [List.getElem_cons_zero]
            by_cases ha : a = []
            · exact .inl ha
            · exact .inr (by simpa [ha] using hab)
          | succ i =>
            simpa using (ih s (by simpa using h)).mp hh i (by simpa using hi)
      · intro hh
        have h0 := hh 0 (by simp)
        simp only [List.getElem_cons_zero] at h0
        rw [if_neg (by rintro ⟨h1, h2⟩; exact h0.elim h1 h2)]
        apply (ih s (by simpa using h)).mpr
        intro i hi
        have := hh (i + 1) (by simpa using hi)
        simp only [List.getElem_cons_succ] at this
        exact this

theorem isPrefix_iff (p s : List Str) :
    isPrefix p s = true ↔ ∃ h : p.length ≤ s.length, ∀ i (hi : i < p.length), p[i] = [] ∨ p[i] = s[i] := by
  unfold isPrefix
  by_cases h : p.length ≤ s.length
  · rw [if_neg (by omega), isPrefixLoop_iff p s h]
    exact ⟨fun hh => ⟨h, hh⟩, fun hh => hh.2⟩
  · rw [if_pos (by omega)]
    constructor
    · intro hh; cases hh
    · rintro ⟨hh, -⟩; exact absurd hh h

theorem isPrefix_refl (p : List Str) : isPrefix p p = true := (isPrefix_iff p p).mpr ⟨Nat.le_refl _, fun _ _ => .inr rfl⟩

theorem isPrefix_trans {p q r : List Str} (h1 : isPrefix p q = true) (h2 : isPrefix q r = true) : isPrefix p r = true := by
  obtain ⟨l1, h1⟩ := (isPrefix_iff _ _).mp h1
  obtain ⟨l2, h2⟩ := (isPrefix_iff _ _).mp h2
  refine (isPrefix_iff _ _).mpr ⟨Nat.le_trans l1 l2, ?_⟩
  intro i hi
  by_cases hp : p[i] = []
  · exact .inl hp
  · have e := (h1 i hi).resolve_left hp
    rcases h2 i (by omega) with h | h
    · exact absurd (e.trans h) hp
    · exact .inr (e.trans h)

/-- The paths covered by what the loop leaves, together with the new prefix. -/
theorem addLoop_any (new : List Str) (l : List (List Str)) (path : List Str) :
    ((if (addLoop new l).2 then (addLoop new l).1 ++ [new] else (addLoop new l).1).any fun p => isPrefix p path) =
      ((l.any fun p => isPrefix p path) || isPrefix new path) := by
  induction l with
  | nil => simp [addLoop]
  | cons p r ih =>
    rw [addLoop]
    by_cases h1 : isPrefix p new = true
    · rw [if_pos h1]
      simp only [Bool.false_eq_true, if_false, List.any_cons]
      by_cases hn : isPrefix new path = true
      · rw [isPrefix_trans h1 hn]; simp
      · simp [hn]
    · rw [if_neg h1]
      by_cases h2 : isPrefix new p = true
      · rw [if_pos h2, ih, List.any_cons]
        by_cases hn : isPrefix p path = true
        · rw [isPrefix_trans h2 hn]; simp
        · simp [hn]
      · rw [if_neg h2]
        dsimp only
        rw [List.any_cons, Bool.or_assoc, ← ih]
        split <;> simp

theorem addLoop_sub (new : List Str) (l : List (List Str)) : ((addLoop new l).1).Sublist l := by
  induction l with
  | nil => exact List.Sublist.refl _
  | cons p r ih =>
    rw [addLoop]
    split
    · exact List.Sublist.refl _
    · split
      · exact ih.cons p
      · exact ih.cons_cons p

theorem addLoop_keep (new : List Str) (l : List (List Str)) (h : (addLoop new l).2 = true) :
    ∀ p ∈ (addLoop new l).1, isPrefix p new = false ∧ isPrefix new p = false := by
  induction l with
  | nil => intro p hp; simp [addLoop] at hp
  | cons a r ih =>
    rw [addLoop] at h ⊢
    by_cases h1 : isPrefix a new = true
    · rw [if_pos h1] at h; exact absurd h (by simp)
    · rw [if_neg h1] at h ⊢
      by_cases h2 : isPrefix new a = true
      · rw [if_pos h2] at h ⊢; exact ih h
      · rw [if_neg h2] at h ⊢
        intro p hp
        rcases List.mem_cons.mp hp with rfl | hp
        · exact ⟨by simpa using h1, by simpa using h2⟩
        · exact ih h p hp

theorem afterSuccesses_append (ss : List Str) (s : Str) :
    afterSuccesses (ss ++ [s]) = (afterSuccesses ss).bind fun l => addSuccessPath l s := by
  unfold afterSuccesses
  rw [List.foldlM_append]
  simp only [List.foldlM_cons, List.foldlM_nil, bind_pure]
  rfl

theorem addSuccessPath_eq {l : List (List Str)} {s : Str} {l' : List (List Str)} (h : addSuccessPath l s = some l') :
    ∃ new, newPrefix s = some new ∧
      l' = (if (addLoop new l).2 then (addLoop new l).1 ++ [new] else (addLoop new l).1) := by
  unfold addSuccessPath at h
  cases hn : newPrefix s with
  | none => rw [hn] at h; cases h
  | some new =>
    rw [hn] at h
    exact ⟨new, rfl, (Option.some.inj h).symm⟩

/-- The stored prefixes cover exactly what the prefixes of the single successes cover. -/
theorem afterSuccesses_any (ss : List Str) : ∀ l, afterSuccesses ss = some l → ∀ path,
    ((l.any fun p => isPrefix p path) = true ↔ ∃ s ∈ ss, ∃ n, newPrefix s = some n ∧ isPrefix n path = true) := by
  induction ss using List.reverseRecOn with
  | nil =>
    intro l h path
    cases h
    simp
  | append_singleton ss s ih =>
    intro l h path
    rw [afterSuccesses_append] at h
    cases ho : afterSuccesses ss with
    | none => rw [ho] at h; cases h
    | some l0 =>
      rw [ho] at h
      obtain ⟨new, hn, rfl⟩ := addSuccessPath_eq h
      rw [addLoop_any, Bool.or_eq_true, ih l0 ho path]
      constructor
      · rintro (⟨x, hx, n, h1, h2⟩ | h2)
        · exact ⟨x, by simp [hx], n, h1, h2⟩
        · exact ⟨s, by simp, new, hn, h2⟩
      · rintro ⟨x, hx, n, h1, h2⟩
        rcases List.mem_append.mp hx with hx | hx
        · exact .inl ⟨x, hx, n, h1, h2⟩
        · rw [List.mem_singleton] at hx
          subst hx
          rw [hn] at h1
          cases h1
          exact .inr h2

/-- The normal form of segments that end in an empty one ends in an empty one. -/
theorem walk_leaf (l : Uri.Location) (segs : List Str) : (l.walk (segs ++ [[]])).leaf = [] := by
  induction segs generalizing l with
  | nil => simp [Uri.Location.walk, Uri.dot, Uri.dotdot]
  | cons x r ih =>
    have : (x :: r) ++ [[]] = x :: (r ++ [[]]) := rfl
    rw [this]
    cases hr : r ++ [[]] with
    | nil => simp at hr
    | cons a t => rw [Uri.Location.walk, ← hr]; exact ih _; simp

theorem normalize_dir (segs : List Str) : normalizeSegments (segs ++ [[]]) = (normalizeSegments (segs ++ [[]])).dropLast ++ [[]] := by
  rw [Uri.C20_normalize _ (by simp)]
  have : (Uri.location (segs ++ [[]])).leaf = [] := walk_leaf _ _
  rw [Uri.Location.segments, this]
  simp

theorem isPrefix_dir (d path : List Str) (hd : ∀ x ∈ d, x ≠ []) (hp : path ≠ []) :
    isPrefix (d ++ [[]]) path = true ↔ d <+: path.dropLast := by
  rw [isPrefix_iff]
  constructor
  · rintro ⟨hl, h⟩
    rw [List.prefix_iff_eq_take]
    simp at hl
    apply List.ext_getElem
    · simp; omega
    · intro i h1 h2
      have := h i (by simp; omega)
      rw [List.getElem_append_left h1] at this
      simp only [List.getElem_take, List.getElem_dropLast]
      exact this.resolve_left (hd _ (List.getElem_mem h1))
  · intro h
    have hl := h.length_le
    have hne : path.length ≠ 0 := by simpa using hp
    simp at hl
    refine ⟨by simp; omega, ?_⟩
    intro i hi
    by_cases h1 : i < d.length
    · right
      rw [List.getElem_append_left h1]
      obtain ⟨t, ht⟩ := h
      have hi' : i < path.dropLast.length := by simp; omega
      have : path[i]'(by omega) = path.dropLast[i] := by rw [List.getElem_dropLast]
      rw [this]
      have : path.dropLast[i] = (d ++ t)[i]'(by rw [ht]; exact hi') := by simp only [ht]
      rw [this, List.getElem_append_left h1]
    · left
      simp at hi
      have : i = d.length := by omega
      subst this
      simp

theorem splitOn_slash (l : Str) (r : Str) : splitOn 47 (l ++ 47 :: r) = splitOn 47 l ++ splitOn 47 r := by
  induction l with
  | nil => simp [splitOn]
  | cons c l ih =>
    rw [List.cons_append, splitOn, splitOn]
    by_cases h : c = 47
    · rw [if_pos h, if_pos h, ih]; rfl
    · rw [if_neg h, if_neg h, ih]
      cases hs : splitOn 47 l with
      | nil =>
        exfalso
        cases l with
        | nil => simp [splitOn] at hs
        | cons a l => rw [splitOn] at hs; split at hs <;> (try split at hs) <;> cases hs
      | cons w ws => rfl

theorem splitOn_none (r : Str) (h : 47 ∉ r) : splitOn 47 r = [r] := by
  induction r with
  | nil => rfl
  | cons c r ih =>
    rw [splitOn, if_neg (by rintro rfl; simp at h), ih (by simp at h; exact h.2)]

/-- A path with a slash is what comes up to its last slash and a piece without slashes. -/
theorem upToSlash_spec (path : Str) (h : 47 ∈ path) : ∃ l r, path = l ++ 47 :: r ∧ 47 ∉ r ∧ upToSlash path = l ++ [47] := by
  induction path using List.reverseRecOn with
  | nil => simp at h
  | append_singleton path c ih =>
    by_cases hc : c = 47
    · subst hc
      exact ⟨path, [], by simp, by simp, by simp [upToSlash]⟩
    · obtain ⟨l, r, h1, h2, h3⟩ := ih (by simpa [eq_comm, hc] using h)
      refine ⟨l, r ++ [c], by rw [h1]; simp, by simp [h2, eq_comm, hc], ?_⟩
      rw [← h3]
      unfold upToSlash
      rw [List.reverse_append, List.reverse_singleton, List.singleton_append, List.dropWhile_cons_of_pos (by simpa using hc)]

theorem newPrefix_dir (s : Str) (hs : Absolute s) : newPrefix s = some (folders (upToSlash s) ++ [[]]) := by
  cases s with
  | nil => cases hs
  | cons c s =>
    have hc : c = 47 := by simpa [Absolute] using hs
    subst hc
    obtain ⟨l, r, h1, h2, h3⟩ := upToSlash_spec (47 :: s) (by simp)
    unfold newPrefix
    rw [if_neg (by simp), splitAbsPath, if_pos rfl]
    have e1 : splitOn 47 (47 :: s) = splitOn 47 l ++ [r] := by rw [h1, splitOn_slash, splitOn_none r h2]
    have e2 : splitOn 47 (upToSlash (47 :: s)) = splitOn 47 l ++ [[]] := by
      rw [h3, splitOn_slash]; simp [splitOn]
    obtain ⟨w, ws, e3⟩ : ∃ w ws, splitOn 47 l = w :: ws := by
      cases l with
      | nil => exact ⟨[], [], rfl⟩
      | cons a l =>
        rw [splitOn]
        split
        · exact ⟨_, _, rfl⟩
        · split <;> exact ⟨_, _, rfl⟩
    unfold folders
    rw [e2, e1, e3]
    simp only [List.cons_append, List.tail_cons]
    rw [← normalize_dir]
    show some _ = some _
    congr 2
    split
    · rename_i hl
      have : r = [] := by simpa using hl
      rw [this]
    · simp

/-! ### C81 -/

/-- **C81**: credentials that have been successful on the paths `ss` are offered for exactly the paths at or
below the folder of one of those documents.  Partial: for documents none of whose folders has an empty name, and
for paths that are not empty. -/
theorem C81_scope_partial (ss : List Str) (l : List (List Str)) (h : afterSuccesses ss = some l)
    (habs : ∀ s ∈ ss, Absolute s) (hplain : ∀ s ∈ ss, ∀ x ∈ folders (upToSlash s), x ≠ []) (p : Str) (hp : Absolute p) :
    testPath l p = some (decide (∃ s ∈ ss, AtOrBelow p s)) := by
  cases p with
  | nil => cases hp
  | cons c p =>
    have hc : c = 47 := by simpa [Absolute] using hp
    subst hc
    unfold testPath
    rw [splitAbsPath, if_pos rfl]
    show some _ = _
    congr 1
    rw [Bool.eq_iff_iff, afterSuccesses_any ss l h, decide_eq_true_iff]
    have hne : normalizeSegments (splitOn 47 (47 :: p)).tail ≠ [] := by
      have e : (splitOn 47 (47 :: p)).tail ≠ [] := by
        rw [splitOn, if_pos rfl]
        cases p with
        | nil => simp [splitOn]
        | cons a p => rw [splitOn]; split <;> (try split) <;> simp
      rw [Uri.C20_normalize _ e, Uri.Location.segments]
      simp
    constructor
    · rintro ⟨s, hs, n, h1, h2⟩
      rw [newPrefix_dir s (habs s hs)] at h1
      cases h1
      exact ⟨s, hs, (isPrefix_dir _ _ (hplain s hs) hne).mp h2⟩
    · rintro ⟨s, hs, h1⟩
      exact ⟨s, hs, _, newPrefix_dir s (habs s hs), (isPrefix_dir _ _ (hplain s hs) hne).mpr h1⟩

/-- **C81**: every success on an absolute path (and on the empty one) is recorded. -/
theorem C81_records (ss : List Str) (habs : ∀ s ∈ ss, s = [] ∨ Absolute s) : (afterSuccesses ss).isSome = true := by
  induction ss using List.reverseRecOn with
  | nil => rfl
  | append_singleton ss s ih =>
    rw [afterSuccesses_append]
    have := ih fun x hx => habs x (by simp [hx])
    cases ho : afterSuccesses ss with
    | none => rw [ho] at this; cases this
    | some l0 =>
      have hn : ∃ n, newPrefix s = some n := by
        rcases habs s (by simp) with rfl | h
        · exact ⟨_, rfl⟩
        · exact ⟨_, newPrefix_dir s h⟩
      obtain ⟨n, hn⟩ := hn
      simp [addSuccessPath, hn]

/-- **C81**: an empty path counts as the root: everything is in its folder. -/
theorem C81_empty_path_is_root (l : List (List Str)) : addSuccessPath l [] = addSuccessPath l [47] := rfl

/-- **C81**: only the most general prefixes are kept: none is covered by another. -/
theorem C81_most_general (ss : List Str) : ∀ l, afterSuccesses ss = some l →
    l.Pairwise fun a b => isPrefix a b = false ∧ isPrefix b a = false := by
  induction ss using List.reverseRecOn with
  | nil => intro l h; cases h; exact List.Pairwise.nil
  | append_singleton ss s ih =>
    intro l h
    rw [afterSuccesses_append] at h
    cases ho : afterSuccesses ss with
    | none => rw [ho] at h; cases h
    | some l0 =>
      rw [ho] at h
      obtain ⟨new, hn, rfl⟩ := addSuccessPath_eq h
      have hsub := (ih l0 ho).sublist (addLoop_sub new l0)
      split
      · rename_i hk
        rw [List.pairwise_append]
        refine ⟨hsub, List.pairwise_singleton _ _, ?_⟩
        intro a ha b hb
        rw [List.mem_singleton] at hb
        subst hb
        exact addLoop_keep _ l0 hk a ha
      · exact hsub

/-- **C81** fails for folders with empty names: an empty name matches any folder, so that after a success on
"/a//c" the credentials are offered for "/a/b/d", which is not below "/a//". -/
theorem C81_empty_folder_violation :
    ∃ l, afterSuccesses [[47, 97, 47, 47, 99]] = some l ∧ testPath l [47, 97, 47, 98, 47, 100] = some true ∧
      ¬ AtOrBelow [47, 97, 47, 98, 47, 100] [47, 97, 47, 47, 99] := by
  exact ⟨[[[97], [], []]], by decide +kernel, by decide +kernel, by decide +kernel⟩

/-- **C81** fails for the empty path, which names the root: credentials good for the whole server are not offered
for it. -/
theorem C81_empty_path_violation : ∃ l, afterSuccesses [[47]] = some l ∧ testPath l [47] = some true ∧
    testPath l [] = some false := ⟨[[[]]], by decide +kernel, by decide +kernel, by decide +kernel⟩

/-- The hypotheses of `C81_scope_partial` hold in a non-trivial case: "/w/d" replaces "/w/f/x", and "/v/./y" is kept. -/
example : afterSuccesses [[47, 119, 47, 102, 47, 120], [47, 118, 47, 46, 47, 121], [47, 119, 47, 100]] =
      some [[[118], []], [[119], []]] ∧
    (∀ s ∈ [[47, 119, 47, 102, 47, 120], [47, 118, 47, 46, 47, 121], [47, 119, 47, 100]], Absolute s ∧
      ∀ x ∈ folders (upToSlash s), x ≠ []) ∧
    AtOrBelow [47, 119, 47, 102, 47, 46, 46, 47, 103] [47, 119, 47, 100] ∧
    ¬ AtOrBelow [47, 119, 47, 46, 46, 47, 103] [47, 119, 47, 100] := by
  decide +kernel

end Verif.Auth

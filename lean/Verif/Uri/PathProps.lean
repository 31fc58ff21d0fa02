import Verif.Uri.Path
/-!
# Paths: C20 (`normalize_segments`) and C23 (`split_server`)
-/
namespace Verif.Uri

/-! ### Specification: what a list of segments denotes -/

/-- A location relative to a starting directory: so many levels up, then down through the named directories,
then the last segment (empty for a directory). -/
structure Location where
  ups : Nat
  names : List Str
  leaf : Str
deriving DecidableEq, Repr

/-- One step of a walk: '.' stays, '..' leaves the directory, anything else enters one. -/
def Location.step (l : Location) (x : Str) : Location :=
  if x = dot then l
  else if x = dotdot then
    if l.names = [] then { l with ups := l.ups + 1 } else { l with names := l.names.dropLast }
  else { l with names := l.names ++ [x] }

/-- The walk along the segments; the last one names a resource in the directory reached unless it is '.'
or '..', which name directories. -/
def Location.walk (l : Location) : List Str → Location
  | [] => l
  | [x] => if x = dot ∨ x = dotdot then { l.step x with leaf := [] } else { l with leaf := x }
  | x :: r => (l.step x).walk r

/-- Where the segments lead. -/
def location (segs : List Str) : Location := Location.walk ⟨0, [], []⟩ segs

/-- The shortest list of segments leading to a location. -/
def Location.segments (l : Location) : List Str := List.replicate l.ups dotdot ++ l.names ++ [l.leaf]

/-! ### Lemmas -/

/-- The loop as a zipper: the segments passed (last first) and the rest. -/
def normZ (pre : List Str) : List Str → List Str
  | [] => pre.reverse
  | x :: r =>
    if x = dot then if r = [] then ([] :: pre).reverse else normZ pre r
    else if x = dotdot ∧ pre ≠ [] ∧ pre.head? ≠ some dotdot then
      if r = [] then ([] :: pre.tail).reverse else normZ pre.tail r
    else normZ (x :: pre) r

theorem normalizeLoop_end (i : Nat) (segs : List Str) (h : segs.length ≤ i) : normalizeLoop i segs = segs := by
  rw [normalizeLoop, dif_neg (by omega)]

theorem normalizeLoop_zip (rest pre : List Str) :
    normalizeLoop pre.length (pre.reverse ++ rest) = normZ pre rest := by
  induction rest generalizing pre with
  | nil => rw [normalizeLoop_end _ _ (by simp)]; simp [normZ]
  | cons x r ih =>
    have hx : (pre.reverse ++ x :: r)[pre.length]? = some x := by
      rw [List.getElem?_append_right (by simp)]; simp
    have hprev : pre ≠ [] → (pre.reverse ++ x :: r)[pre.length - 1]? = pre.head? := by
      intro hp
      cases pre with
      | nil => exact absurd rfl hp
      | cons p ps =>
        rw [List.getElem?_append_left (by simp)]
        simp
    have hpos : pre ≠ [] ↔ pre.length > 0 := by cases pre <;> simp
    have hset : (pre.reverse ++ x :: r).set pre.length [] = pre.reverse ++ [] :: r := by
      rw [List.set_append_right _ _ (by simp)]; simp
    have herase : (pre.reverse ++ x :: r).eraseIdx pre.length = pre.reverse ++ r := by
      rw [List.eraseIdx_append_of_length_le (by simp)]; simp
    rw [normalizeLoop, dif_pos (by simp)]
    unfold normZ
    by_cases hd : x = dot
    · rw [dif_pos (by rw [hx, hd]), if_pos hd]
      by_cases hr : r = []
      · subst hr
        rw [if_pos (by simp), if_pos rfl, hset, normalizeLoop, dif_pos (by simp)]
        have h0 : (pre.reverse ++ [([] : Str)])[pre.length]? = some [] := by
          rw [List.getElem?_append_right (by simp)]; simp
        rw [dif_neg (by rw [h0]; decide), dif_neg (by rw [h0]; rintro ⟨h, -⟩; exact absurd h (by decide))]
        rw [normalizeLoop_end _ _ (by simp)]; simp
      · rw [if_neg (by cases r <;> simp at hr ⊢), if_neg hr, herase, ih]
    · rw [dif_neg (by rw [hx]; simpa using hd), if_neg hd]
      have hc : ((pre.reverse ++ x :: r)[pre.length]? = some dotdot ∧ pre.length > 0 ∧
          (pre.reverse ++ x :: r)[pre.length - 1]? ≠ some dotdot) ↔
          (x = dotdot ∧ pre ≠ [] ∧ pre.head? ≠ some dotdot) := by
        rw [hx, ← hpos]
        constructor
        · rintro ⟨a, b, c⟩; exact ⟨by simpa using a, b, by rwa [hprev b] at c⟩
        · rintro ⟨a, b, c⟩; exact ⟨by simpa using a, b, by rwa [hprev b]⟩
      by_cases hdd : x = dotdot ∧ pre ≠ [] ∧ pre.head? ≠ some dotdot
      · rw [dif_pos (hc.2 hdd), if_pos hdd]
        obtain ⟨-, hp, -⟩ := hdd
        cases pre with
        | nil => exact absurd rfl hp
        | cons p ps =>
          have l1 : (p :: ps).length - 1 = ps.length := by simp
          by_cases hr : r = []
          · subst hr
            rw [if_pos (by simp), if_pos rfl, hset]
            have : ((p :: ps).reverse ++ [([] : Str)]).eraseIdx ((p :: ps).length - 1) = ps.reverse ++ [[]] := by
              rw [l1, List.reverse_cons, List.append_assoc, List.eraseIdx_append_of_length_le (by simp)]; simp
            rw [this, normalizeLoop_end _ _ (by simp)]; simp
          · rw [if_neg (by cases r <;> simp at hr ⊢; omega), if_neg hr, herase]
            have : ((p :: ps).reverse ++ r).eraseIdx ((p :: ps).length - 1) = ps.reverse ++ r := by
              rw [l1, List.reverse_cons, List.append_assoc, List.eraseIdx_append_of_length_le (by simp)]; simp
            rw [this, l1, ih]; rfl
      · rw [dif_neg (fun h => hdd (hc.1 h)), if_neg hdd]
        have := ih (x :: pre)
        simp only [List.length_cons, List.reverse_cons, List.append_assoc, List.singleton_append] at this
        exact this

/-- The directories already passed, as `normalize_segments` keeps them. -/
def Plain (names : List Str) : Prop := ∀ x ∈ names, x ≠ dot ∧ x ≠ dotdot

/-- The call, from the zipper. -/
def finish (r : List Str) : List Str := if r.getLast? = some dotdot then r ++ [[]] else r

theorem nil_ne_dotdot : ([] : Str) ≠ dotdot := by decide
theorem dotdot_ne_nil : ¬ dotdot = [] := by decide
theorem replicate_reverse (n : Nat) (x : Str) : (List.replicate n x).reverse = List.replicate n x := by simp

theorem normZ_spec (rest : List Str) (hr : rest ≠ []) (n : Nat) (names : List Str) (lf : Str) (hp : Plain names) :
    finish (normZ (List.replicate n dotdot ++ names).reverse rest) =
      (Location.walk ⟨n, names, lf⟩ rest).segments := by
  induction rest generalizing n names lf with
  | nil => exact absurd rfl hr
  | cons x r ih =>
    have hne : ∀ (x : Str), x ∈ names → x ≠ dotdot := fun x hx => (hp x hx).2
    unfold normZ
    by_cases hd : x = dot
    · rw [if_pos hd]
      by_cases hr' : r = []
      · subst hr'
        rw [if_pos rfl]
        simp only [Location.walk, hd, true_or, if_true, Location.step, Location.segments, finish]
        simp [dotdot_ne_nil]
      · rw [if_neg hr', ih hr' n names lf hp]
        cases r with
        | nil => exact absurd rfl hr'
        | cons y ys => simp [Location.walk, Location.step, hd]
    · rw [if_neg hd]
      by_cases hdd : x = dotdot
      · by_cases hn : names = []
        · subst hn
          -- an extra level up
          have hcond : ¬ (x = dotdot ∧ (List.replicate n dotdot ++ []).reverse ≠ [] ∧
              (List.replicate n dotdot ++ []).reverse.head? ≠ some dotdot) := by
            rintro ⟨-, h1, h2⟩
            cases n with
            | zero => simp at h1
            | succ k => rw [List.append_nil, replicate_reverse, List.replicate_succ] at h2; exact h2 rfl
          rw [if_neg hcond]
          have e : x :: (List.replicate n dotdot ++ []).reverse = (List.replicate (n + 1) dotdot ++ []).reverse := by
            rw [hdd, List.append_nil, List.append_nil, replicate_reverse, replicate_reverse, List.replicate_succ]
          rw [e]
          by_cases hr' : r = []
          · subst hr'
            simp only [normZ, List.reverse_reverse, List.append_nil, Location.walk, hdd, or_true, if_true,
              Location.step, Location.segments, finish]
            have h0 : dotdot ≠ dot := by decide
            have hlast : (List.replicate (n + 1) dotdot).getLast? = some dotdot := by
              rw [List.getLast?_replicate]; simp
            simp [h0, hlast]
          · rw [ih hr' (n + 1) [] lf (by intro y hy; cases hy)]
            have h0 : dotdot ≠ dot := by decide
            cases r with
            | nil => exact absurd rfl hr'
            | cons y ys => simp [Location.walk, Location.step, hdd, h0]
        · -- the last name is removed
          obtain ⟨q, ns, rfl⟩ : ∃ q ns, names = ns ++ [q] := by
            rcases List.eq_nil_or_concat names with h | ⟨ns, q, h⟩
            · exact absurd h hn
            · exact ⟨q, ns, by simpa using h⟩
          have hrev : (List.replicate n dotdot ++ (ns ++ [q])).reverse = q :: (List.replicate n dotdot ++ ns).reverse := by
            simp
          rw [hrev]
          rw [if_pos ⟨hdd, by simp, by simpa using (hne q (by simp))⟩]
          have hp' : Plain ns := fun y hy => hp y (by simp [hy])
          have h0 : dotdot ≠ dot := by decide
          by_cases hr' : r = []
          · subst hr'
            rw [if_pos rfl]
            simp only [Location.walk, hdd, or_true, if_true, Location.step, Location.segments, finish]
            simp [dotdot_ne_nil, h0]
          · rw [if_neg hr']
            simp only [List.tail_cons]
            rw [ih hr' n ns lf hp']
            cases r with
            | nil => exact absurd rfl hr'
            | cons y ys => simp [Location.walk, Location.step, hdd, h0]
      · rw [if_neg (fun h => hdd h.1)]
        have e : x :: (List.replicate n dotdot ++ names).reverse = (List.replicate n dotdot ++ (names ++ [x])).reverse := by
          simp
        rw [e]
        by_cases hr' : r = []
        · subst hr'
          have hx : x ≠ dotdot := hdd
          simp only [normZ, List.reverse_reverse, Location.walk, hd, hdd, or_self, if_false, Location.segments, finish]
          rw [if_neg]
          · simp
          · simp [hx]
        · rw [ih hr' n (names ++ [x]) lf (by
            intro y hy
            rcases List.mem_append.1 hy with hy | hy
            · exact hp y hy
            · simp at hy; subst hy; exact ⟨hd, hdd⟩)]
          cases r with
          | nil => exact absurd rfl hr'
          | cons y ys => simp [Location.walk, Location.step, hd, hdd]

/-! ### C20 -/

/-- C20: `normalize_segments` turns every list of segments into the shortest list leading to the same
location. -/
theorem C20_normalize (segs : List Str) (h : segs ≠ []) : normalizeSegments segs = (location segs).segments := by
  have := normZ_spec segs h 0 [] [] (by intro x hx; cases hx)
  simp only [List.replicate_zero, List.append_nil, List.reverse_nil] at this
  have e := normalizeLoop_zip segs []
  simp only [List.length_nil, List.reverse_nil, List.nil_append] at e
  unfold normalizeSegments
  dsimp only
  rw [e]
  exact this

theorem C20_normalize_nil : normalizeSegments [] = [] := by
  unfold normalizeSegments
  rw [normalizeLoop_end _ _ (by simp)]
  simp

/-- The walk never collects '.' or '..' among the names. -/
theorem walk_plain (segs : List Str) (l : Location) (h : Plain l.names) (hl : l.leaf ≠ dot ∧ l.leaf ≠ dotdot) :
    Plain (l.walk segs).names ∧ (l.walk segs).leaf ≠ dot ∧ (l.walk segs).leaf ≠ dotdot := by
  have hs : ∀ (l : Location) x, Plain l.names → Plain (l.step x).names := by
    intro l x h
    unfold Location.step
    split
    · exact h
    · split
      · split
        · exact h
        · exact fun y hy => h y ((List.dropLast_sublist _).subset hy)
      · intro y hy
        rcases List.mem_append.1 hy with hy | hy
        · exact h y hy
        · simp at hy; subst hy; constructor <;> assumption
  have hleaf : ∀ (l : Location) x, (l.step x).leaf = l.leaf := by
    intro l x; unfold Location.step; split <;> (try split) <;> (try split) <;> rfl
  induction segs generalizing l with
  | nil => exact ⟨h, hl⟩
  | cons x r ih =>
    cases r with
    | nil =>
      simp only [Location.walk]
      split
      · exact ⟨hs l x h, (by decide : ([] : Str) ≠ dot), (by decide : ([] : Str) ≠ dotdot)⟩
      · rename_i hx
        exact ⟨h, fun e => hx (.inl e), fun e => hx (.inr e)⟩
    | cons y ys => exact ih (l.step x) (hs l x h) (by rw [hleaf]; exact hl)

/-- C20: the result has '..' only as a leading run and '.' nowhere. -/
theorem C20_normal_form (segs : List Str) (h : segs ≠ []) :
    ∃ n rest, normalizeSegments segs = List.replicate n dotdot ++ rest ∧ rest ≠ [] ∧
      ∀ x ∈ rest, x ≠ dot ∧ x ≠ dotdot := by
  rw [C20_normalize segs h]
  obtain ⟨h1, h2⟩ := walk_plain segs ⟨0, [], []⟩ (by intro x hx; cases hx) ⟨by decide, by decide⟩
  refine ⟨(location segs).ups, (location segs).names ++ [(location segs).leaf], by simp [Location.segments], by simp, ?_⟩
  intro x hx
  rcases List.mem_append.1 hx with hx | hx
  · exact h1 x hx
  · simp at hx; subst hx; exact h2

theorem walk_ups (n : Nat) (r : List Str) (hr : r ≠ []) (k : Nat) (lf : Str) :
    Location.walk ⟨k, [], lf⟩ (List.replicate n dotdot ++ r) = Location.walk ⟨k + n, [], lf⟩ r := by
  have h0 : dotdot ≠ dot := by decide
  induction n generalizing k with
  | zero => simp
  | succ n ih =>
    rw [List.replicate_succ, List.cons_append]
    obtain ⟨y, ys, e⟩ : ∃ y ys, List.replicate n dotdot ++ r = y :: ys := by
      cases h : List.replicate n dotdot ++ r with
      | nil => simp at h; exact absurd h.2 hr
      | cons y ys => exact ⟨y, ys, rfl⟩
    rw [e]
    simp only [Location.walk, Location.step, h0, if_true, if_false]
    rw [← e, ih]
    congr 2; omega

theorem walk_names (names : List Str) (h : Plain names) (leaf : Str) (hl : leaf ≠ dot ∧ leaf ≠ dotdot) (n : Nat)
    (pre : List Str) (lf : Str) :
    Location.walk ⟨n, pre, lf⟩ (names ++ [leaf]) = ⟨n, pre ++ names, leaf⟩ := by
  induction names generalizing pre with
  | nil => simp [Location.walk, hl.1, hl.2]
  | cons x xs ih =>
    have hx := h x (by simp)
    have ih := ih (fun y hy => h y (by simp [hy])) (pre ++ [x])
    obtain ⟨y, ys, e⟩ : ∃ y ys, xs ++ [leaf] = y :: ys := by cases xs <;> simp
    rw [List.cons_append, e]
    simp only [Location.walk, Location.step, hx.1, hx.2, if_false]
    rw [← e, ih]; simp

/-- C20: a location is where its own segments lead, so `normalize_segments` preserves the meaning of a path. -/
theorem C20_meaning (segs : List Str) (h : segs ≠ []) : location (normalizeSegments segs) = location segs := by
  obtain ⟨h1, h2⟩ := walk_plain segs ⟨0, [], []⟩ (by intro x hx; cases hx) ⟨by decide, by decide⟩
  rw [C20_normalize segs h]
  have h1 : Plain (location segs).names := h1
  have h2 : (location segs).leaf ≠ dot ∧ (location segs).leaf ≠ dotdot := h2
  generalize location segs = l at h1 h2
  rcases l with ⟨n, names, leaf⟩
  simp only [Location.segments, location]
  rw [List.append_assoc, walk_ups n _ (by simp), walk_names _ h1 _ h2]
  simp

/-- C20: normalizing again changes nothing. -/
theorem C20_idempotent (segs : List Str) : normalizeSegments (normalizeSegments segs) = normalizeSegments segs := by
  by_cases h : segs = []
  · subst h; rw [C20_normalize_nil, C20_normalize_nil]
  · have hn : normalizeSegments segs ≠ [] := by
      rw [C20_normalize segs h]; simp [Location.segments]
    rw [C20_normalize _ hn, C20_meaning segs h, C20_normalize segs h]

/-- Paths in normal form are left alone. -/
theorem normalize_plain (names : List Str) (h : Plain names) (hne : names ≠ []) : normalizeSegments names = names := by
  obtain ⟨leaf, ns, rfl⟩ : ∃ q ns, names = ns ++ [q] := by
    rcases List.eq_nil_or_concat names with h | ⟨ns, q, h⟩
    · exact absurd h hne
    · exact ⟨q, ns, by simpa using h⟩
  rw [C20_normalize _ (by simp), location, walk_names ns (fun x hx => h x (by simp [hx])) leaf (h leaf (by simp))]
  simp [Location.segments]

/-- a/./b/../../../c/.. becomes ../ -/
example : normalizeSegments [[97], dot, [98], dotdot, dotdot, dotdot, [99], dotdot] = [dotdot, []] := by
  rw [C20_normalize _ (by simp)]; decide

/-! ### C23 -/

theorem splitOn_some (c : Nat) (s : Str) (i : Nat) (h : s.findIdx? (· == c) = some i) :
    i < s.length ∧ s = s.take i ++ c :: s.drop (i + 1) ∧ c ∉ s.take i := by
  rw [List.findIdx?_eq_some_iff_getElem] at h
  obtain ⟨hi, h1, h2⟩ := h
  have hc : s[i] = c := by simpa using h1
  refine ⟨hi, ?_, ?_⟩
  · conv => lhs; rw [← List.take_append_drop i s, List.drop_eq_getElem_cons hi, hc]
  · intro hm
    obtain ⟨j, hj, e⟩ := List.mem_iff_getElem.1 hm
    have hj' : j < i := by simp at hj; omega
    have := h2 j hj'
    rw [List.getElem_take] at e
    simp [e] at this

theorem rfind_some (c : Nat) (s : Str) (i : Nat) (h : rfindIdx c s = some i) :
    i < s.length ∧ s = s.take i ++ c :: s.drop (i + 1) ∧ c ∉ s.drop (i + 1) := by
  unfold rfindIdx at h
  cases hf : s.reverse.findIdx? (· == c) with
  | none => rw [hf] at h; simp at h
  | some j =>
    rw [hf] at h
    simp only [Option.map_some, Option.some.injEq] at h
    obtain ⟨h1, h2, h3⟩ := splitOn_some c s.reverse j hf
    rw [List.length_reverse] at h1
    have e1 : s.take i = (s.reverse.drop (j + 1)).reverse := by
      rw [List.drop_reverse, List.reverse_reverse]; congr 1; omega
    have e2 : s.drop (i + 1) = (s.reverse.take j).reverse := by
      rw [List.take_reverse, List.reverse_reverse]; congr 1; omega
    refine ⟨by omega, ?_, ?_⟩
    · rw [e1, e2]
      have := congrArg List.reverse h2
      rw [List.reverse_reverse] at this
      exact this.trans (by simp)
    · rw [e2]; simpa using h3

theorem find_none (c : Nat) (s : Str) (h : s.findIdx? (· == c) = none) : c ∉ s := by
  rw [List.findIdx?_eq_none_iff] at h
  intro hm
  have := h c hm
  simp at this

/-- The text of userinfo, host and port. -/
def serverText (u : Option Str) (h : Str) (p : Option Str) : Str :=
  (match u with | none => [] | some u => u ++ [64]) ++ h ++ (match p with | none => [] | some p => 58 :: p)

/-- C23: reassembling what `split_server` returns gives the authority back; the port is digits only, the
userinfo has no '@'. -/
theorem C23_split_server (a : Str) :
    serverText (splitServer a).1 (splitServer a).2.1 (splitServer a).2.2 = a ∧
    (∀ p, (splitServer a).2.2 = some p → ∀ c ∈ p, isDigit c = true) ∧
    (∀ u, (splitServer a).1 = some u → 64 ∉ u) ∧
    ((splitServer a).1 = none → 64 ∉ a) := by
  unfold splitServer findIdx
  cases hu : a.findIdx? (· == 64) with
  | none =>
    have hno := find_none 64 a hu
    simp only [show ((-1 : Int) < 0) from by omega, if_true]
    cases hp : rfindIdx 58 a with
    | none => simp [serverText, hno]
    | some p =>
      obtain ⟨h1, h2, h3⟩ := rfind_some 58 a p hp
      simp only [show ¬ ((p : Int) < -1) from by omega, if_false, Int.toNat_natCast]
      by_cases hd : (a.drop (p + 1)).all isDigit = true
      · have hd' := List.all_eq_true.1 hd
        simp only [hd, not_true_eq_false, and_false, if_false, show ((p : Int) > -1) from by omega, if_true,
          Int.toNat_natCast, List.drop_zero]
        refine ⟨?_, ?_, by simp, fun _ => hno⟩
        · simp only [serverText, List.nil_append]; exact h2.symm
        · intro q hq; simp only [Option.some.injEq] at hq; subst hq; exact hd'
      · simp [hd, show ((p : Int) > -1) from by omega, serverText, hno]
  | some u =>
    obtain ⟨g1, g2, g3⟩ := splitOn_some 64 a u hu
    simp only [show ¬ ((u : Int) < 0) from by omega, if_false, Int.toNat_natCast]
    have e0 : a.take u ++ [64] ++ a.drop (u + 1) = a := by simp only [List.append_assoc, List.singleton_append]; exact g2.symm
    have none_case : serverText (some (a.take u)) (a.drop (u + 1)) none = a := by simp only [serverText, List.append_nil]; exact e0
    cases hp : rfindIdx 58 a with
    | none =>
      simp only [show ((-1 : Int) < u) from by omega, if_true, show ¬ ((-1 : Int) > -1) from by omega, false_and, if_false]
      exact ⟨none_case, by simp, by intro q hq; simp at hq; subst hq; exact g3, by simp⟩
    | some p =>
      obtain ⟨h1, h2, h3⟩ := rfind_some 58 a p hp
      by_cases hlt : (p : Int) < u
      · simp only [hlt, if_true, show ¬ ((-1 : Int) > -1) from by omega, false_and, if_false]
        exact ⟨none_case, by simp, by intro q hq; simp at hq; subst hq; exact g3, by simp⟩
      · simp only [hlt, if_false, Int.toNat_natCast]
        by_cases hd : (a.drop (p + 1)).all isDigit = true
        · have hd' := List.all_eq_true.1 hd
          simp only [hd, not_true_eq_false, and_false, if_false, show ((p : Int) > -1) from by omega, if_true,
            Int.toNat_natCast]
          refine ⟨?_, ?_, by intro q hq; simp at hq; subst hq; exact g3, by simp⟩
          · have hne : p ≠ u := by
              rintro rfl
              have a1 : a[p]? = some 64 := by rw [g2, List.getElem?_append_right (by simp; omega)]; simp [Nat.min_eq_left (Nat.le_of_lt g1)]
              have a2 : a[p]? = some 58 := by rw [h2, List.getElem?_append_right (by simp; omega)]; simp [Nat.min_eq_left (Nat.le_of_lt h1)]
              rw [a1] at a2; simp at a2
            have e3 : (a.take p).take u = a.take u := by rw [List.take_take]; congr 1; omega
            have e4 : a.take u ++ [64] ++ (a.take p).drop (u + 1) = a.take p := by
              have hu' : (a.take p)[u]? = some 64 := by
                rw [List.getElem?_take_of_lt (by omega)]
                rw [g2, List.getElem?_append_right (by simp; omega)]; simp [Nat.min_eq_left (Nat.le_of_lt g1)]
              obtain ⟨hlt', hget⟩ := List.getElem?_eq_some_iff.1 hu'
              conv => rhs; rw [← List.take_append_drop u (a.take p), List.drop_eq_getElem_cons hlt', hget, e3]
              simp
            simp only [serverText]
            rw [e4]; exact h2.symm
          · intro q hq; simp only [Option.some.injEq] at hq; subst hq; exact hd'
        · simp only [hd, Bool.false_eq_true, not_false_eq_true, show ((p : Int) > -1) from by omega, true_and, if_true,
            show ¬ ((-1 : Int) > -1) from by omega, if_false]
          exact ⟨none_case, by simp, by intro q hq; simp at hq; subst hq; exact g3, by simp⟩

/-- "u:p@h:80" -/
example : splitServer [117, 58, 112, 64, 104, 58, 56, 48] = (some [117, 58, 112], [104], some [56, 48]) := by decide +kernel
/-- "u:p@h": the colon belongs to the userinfo. -/
example : splitServer [117, 58, 112, 64, 104] = (some [117, 58, 112], [104], none) := by decide +kernel

/-- The host has no ':' with nothing but digits after it. -/
def HostClear (h : Str) : Prop := ∀ x y, h = x ++ 58 :: y → y.all isDigit = false

/-- C23: userinfo, host and port are found as they are; without a port the host must not look like host and port. -/
theorem C23_parts (u : Option Str) (h : Str) (p : Option Str) (hu : ∀ x, u = some x → 64 ∉ x) (hh : 64 ∉ h)
    (hc : p = none → HostClear h)
    (hp : ∀ x, p = some x → ∀ c ∈ x, isDigit c = true) :
    splitServer (serverText u h p) = (u, h, p) := by
  have hfind : ∀ (c : Nat) (x y : Str), c ∉ x → (x ++ c :: y).findIdx? (· == c) = some x.length := by
    intro c x y hx
    rw [List.findIdx?_append]
    have : x.findIdx? (· == c) = none := by
      rw [List.findIdx?_eq_none_iff]; intro z hz; simp; rintro rfl; exact hx hz
    rw [this]; simp [List.findIdx?_cons]
  have hfindn : ∀ (c : Nat) (x : Str), c ∉ x → x.findIdx? (· == c) = none := by
    intro c x hx
    rw [List.findIdx?_eq_none_iff]; intro z hz; simp; rintro rfl; exact hx hz
  have hrfind : ∀ (c : Nat) (x y : Str), c ∉ y → rfindIdx c (x ++ c :: y) = some x.length := by
    intro c x y hy
    unfold rfindIdx
    have : (x ++ c :: y).reverse = y.reverse ++ c :: x.reverse := by simp
    rw [this, hfind c y.reverse x.reverse (by simpa using hy)]
    simp
  have hrfindn : ∀ (c : Nat) (x : Str), c ∉ x → rfindIdx c x = none := by
    intro c x hx
    unfold rfindIdx
    rw [hfindn c x.reverse (by simpa using hx)]; rfl
  have hdig : ∀ x, p = some x → 64 ∉ x ∧ 58 ∉ x := by
    intro x hx
    constructor <;> intro hm <;> exact absurd (hp x hx _ hm) (by decide)
  have take_ : ∀ (x : Str) (y : Str), (x ++ y).take x.length = x := by intro x y; simp
  have drop_ : ∀ (x : Str) (c : Nat) (y : Str), (x ++ c :: y).drop (x.length + 1) = y := by intro x c y; simp
  cases u with
  | none =>
    cases p with
    | none =>
      have e : serverText none h none = h := by simp [serverText]
      unfold splitServer findIdx
      rw [e, hfindn 64 h hh]
      cases hr : rfindIdx 58 h with
      | none => simp
      | some q =>
        obtain ⟨h1, h2, h3⟩ := rfind_some 58 _ q hr
        have hd := hc rfl _ _ h2
        have c1 : ¬ ((q : Int) < -1) := by omega
        have c2 : (q : Int) > -1 := by omega
        simp [c1, c2, hd]
    | some p =>
      have h64 : 64 ∉ h ++ 58 :: p := by simp [hh, (hdig p rfl).1]
      have hall : p.all isDigit = true := List.all_eq_true.2 (hp p rfl)
      have e : serverText none h (some p) = h ++ 58 :: p := by simp [serverText]
      unfold splitServer findIdx
      rw [e, hfindn 64 _ h64, hrfind 58 h p (hdig p rfl).2]
      have c1 : ¬ ((h.length : Int) < -1) := by omega
      have c2 : (h.length : Int) > -1 := by omega
      simp only [if_neg c1, Int.toNat_natCast, drop_, hall, not_true_eq_false, and_false, if_false, c2, if_true,
        take_, show ((-1 : Int) < 0) from by omega, List.drop_zero]
  | some u =>
    have hu := hu u rfl
    have c0 : ¬ ((u.length : Int) < 0) := by omega
    cases p with
    | none =>
      have e : serverText (some u) h none = u ++ 64 :: h := by simp [serverText]
      unfold splitServer findIdx
      rw [e, hfind 64 u h hu]
      cases hr : rfindIdx 58 (u ++ 64 :: h) with
      | none =>
        simp only [c0, if_false, Int.toNat_natCast, take_, drop_, show ((-1 : Int) < u.length) from by omega, if_true,
          show ¬ ((-1 : Int) > -1) from by omega, false_and]
      | some q =>
        obtain ⟨h1, h2, h3⟩ := rfind_some 58 _ q hr
        rcases Nat.lt_or_ge q u.length with hq | hq
        · have hq' : (q : Int) < u.length := by omega
          simp only [c0, if_false, Int.toNat_natCast, take_, drop_, hq', if_true,
            show ¬ ((-1 : Int) > -1) from by omega, false_and]
        · have g : (u ++ 64 :: h)[q]? = some 58 := by
            rw [h2, List.getElem?_append_right (by simp; omega)]
            rw [List.length_take_of_le (Nat.le_of_lt h1)]; simp
          have hne : q ≠ u.length := by
            rintro rfl
            rw [List.getElem?_append_right (Nat.le_refl _), Nat.sub_self] at g
            simp at g
          have hdrop : (u ++ 64 :: h).drop (q + 1) = h.drop (q - u.length) := by
            rw [List.drop_append, List.drop_eq_nil_of_le (by omega), List.nil_append]
            rw [show q + 1 - u.length = (q - u.length) + 1 by omega, List.drop_succ_cons]
          have g2 : h[q - u.length - 1]? = some 58 := by
            rw [List.getElem?_append_right hq, show q - u.length = (q - u.length - 1) + 1 by omega,
              List.getElem?_cons_succ] at g
            exact g
          have hh2 : h = h.take (q - u.length - 1) ++ 58 :: h.drop (q - u.length) := by
            have hlt := (List.getElem?_eq_some_iff.1 g2)
            obtain ⟨hlt, hv⟩ := hlt
            conv => lhs; rw [← List.take_append_drop (q - u.length - 1) h, List.drop_eq_getElem_cons hlt, hv]
            rw [show q - u.length - 1 + 1 = q - u.length by omega]
          have hd := hc rfl _ _ hh2
          have c1 : ¬ ((q : Int) < u.length) := by omega
          have c2 : (q : Int) > -1 := by omega
          simp only [c0, c1, c2, if_false, Int.toNat_natCast, take_, drop_, hdrop, hd, if_true, true_and,
            Bool.false_eq_true, not_false_eq_true, show ¬ ((-1 : Int) > -1) from by omega]
    | some p =>
      have hall : p.all isDigit = true := List.all_eq_true.2 (hp p rfl)
      have e : serverText (some u) h (some p) = u ++ 64 :: (h ++ 58 :: p) := by simp [serverText]
      have e' : u ++ 64 :: (h ++ 58 :: p) = (u ++ 64 :: h) ++ 58 :: p := by simp
      have e1 : (u ++ 64 :: (h ++ 58 :: p)).findIdx? (· == 64) = some u.length := hfind 64 u _ hu
      have e2 : rfindIdx 58 (u ++ 64 :: (h ++ 58 :: p)) = some (u ++ 64 :: h).length := by
        rw [e']; exact hrfind 58 (u ++ 64 :: h) p (hdig p rfl).2
      unfold splitServer findIdx
      rw [e, e1, e2]
      have l : ((u ++ 64 :: h).length : Int) = u.length + 1 + h.length := by simp; omega
      have c1 : ¬ (((u ++ 64 :: h).length : Int) < u.length) := by omega
      have c2 : (((u ++ 64 :: h).length : Nat) : Int) > -1 := by omega
      have d1 : (u ++ 64 :: (h ++ 58 :: p)).drop ((u ++ 64 :: h).length + 1) = p := by rw [e']; exact drop_ _ _ _
      have d2 : (u ++ 64 :: (h ++ 58 :: p)).take (u ++ 64 :: h).length = u ++ 64 :: h := by rw [e']; exact take_ _ _
      simp only [c0, if_neg c1, if_false, Int.toNat_natCast, d1, d2, hall, not_true_eq_false, and_false, c2, if_true,
        take_, drop_]

end Verif.Uri

import Verif.CharClass.Spec
/-! # Lemmas about the range list operations -/
namespace Verif.CharClass

theorem mem_nil (c : Nat) : Mem [] c ↔ False := by simp [Mem]
theorem mem_cons (r : Range) (rs : List Range) (c : Nat) :
    Mem (r :: rs) c ↔ (r.1 ≤ c ∧ c ≤ r.2) ∨ Mem rs c := by simp [Mem]
theorem mem_append (A B : List Range) (c : Nat) : Mem (A ++ B) c ↔ Mem A c ∨ Mem B c := by
  simp only [Mem, List.mem_append]
  constructor
  · rintro ⟨r, h | h, h'⟩
    · exact Or.inl ⟨r, h, h'⟩
    · exact Or.inr ⟨r, h, h'⟩
  · rintro (⟨r, h, h'⟩ | ⟨r, h, h'⟩)
    · exact ⟨r, Or.inl h, h'⟩
    · exact ⟨r, Or.inr h, h'⟩

theorem canon_nil : Canon [] := by simp [Canon]
theorem canon_cons (r : Range) (rs : List Range) :
    Canon (r :: rs) ↔ r.1 ≤ r.2 ∧ (∀ s ∈ rs, r.2 + 1 < s.1) ∧ Canon rs := by
  simp only [Canon, List.mem_cons, forall_eq_or_imp, List.pairwise_cons]
  grind
theorem canon_append (A B : List Range) :
    Canon (A ++ B) ↔ Canon A ∧ Canon B ∧ ∀ a ∈ A, ∀ b ∈ B, a.2 + 1 < b.1 := by
  simp only [Canon, List.mem_append, List.pairwise_append]
  grind

theorem rget_append_right (A B : List Range) (i : Nat) :
    rget (A ++ B) (A.length + i) = rget B i := by
  simp [rget, List.getD_eq_getElem?_getD, List.getElem?_append_right]

theorem rget_length (A : List Range) (r : Range) (B : List Range) :
    rget (A ++ r :: B) A.length = r := by
  simp [rget]

/-- What the search result means. -/
structure Found (rs : List Range) (c : Nat) (m : Bool) (i : Nat) : Prop where
  le : i ≤ rs.length
  below : ∀ x ∈ rs.take i, x.2 < c
  hit : m = true → ∃ r B, rs.drop i = r :: B ∧ r.1 ≤ c ∧ c ≤ r.2
  miss : m = false → ∀ x ∈ rs.drop i, c < x.1

theorem canon_lt {rs : List Range} (h : Canon rs) {i j : Nat} (hij : i < j)
    (hj : j < rs.length) : (rget rs i).2 + 1 < (rget rs j).1 := by
  have := List.pairwise_iff_getElem.1 h.2 i j (by omega) hj hij
  simpa [rget, List.getD_eq_getElem?_getD, hj, show i < rs.length by omega] using this

theorem canon_le {rs : List Range} (h : Canon rs) {i : Nat} (hi : i < rs.length) :
    (rget rs i).1 ≤ (rget rs i).2 := by
  have := h.1 rs[i] (List.getElem_mem hi)
  simpa [rget, List.getD_eq_getElem?_getD, hi] using this

theorem bisect_spec {rs : List Range} (h : Canon rs) (c rmin rmax : Nat) :
    rmin ≤ rmax → rmax < rs.length →
    (∀ j, j < rmin → (rget rs j).2 < c) →
    (∀ j, rmax < j → j < rs.length → c < (rget rs j).1) →
    (bisect rs c rmin rmax).2 ≤ rs.length ∧
    (∀ j, j < (bisect rs c rmin rmax).2 → (rget rs j).2 < c) ∧
    ((bisect rs c rmin rmax).1 = true → (bisect rs c rmin rmax).2 < rs.length ∧
      (rget rs (bisect rs c rmin rmax).2).1 ≤ c ∧ c ≤ (rget rs (bisect rs c rmin rmax).2).2) ∧
    ((bisect rs c rmin rmax).1 = false →
      ∀ j, (bisect rs c rmin rmax).2 ≤ j → j < rs.length → c < (rget rs j).1) := by
  fun_induction bisect rs c rmin rmax with
  | case1 rmin rmax h1 h2 =>
    intro hle hlt hlo hhi
    have : rmin = rmax := by omega
    subst this
    refine ⟨by omega, ?_, by simp, ?_⟩
    · intro j hj
      rcases Nat.lt_succ_iff_lt_or_eq.1 hj with hj | rfl
      · exact hlo j hj
      · exact h2
    · intro _ j hj hj'; exact hhi j hj hj'
  | case2 rmin rmax h1 h2 h3 =>
    intro hle hlt hlo hhi
    have : rmin = rmax := by omega
    subst this
    refine ⟨by simp; omega, hlo, by simp, ?_⟩
    intro _ j hj hj'
    rcases Nat.eq_or_lt_of_le hj with rfl | hj
    · exact h3
    · exact hhi j hj hj'
  | case3 rmin rmax h1 h2 h3 =>
    intro hle hlt hlo hhi
    have : rmin = rmax := by omega
    subst this
    refine ⟨by simp; omega, hlo, ?_, by simp⟩
    intro _; exact ⟨hlt, by simp; omega, by simp; omega⟩
  | case4 rmin rmax h1 rtry h2 ih =>
    intro hle hlt hlo hhi
    apply ih (by omega) (by omega) hlo
    intro j hj hj'
    have := canon_lt h hj hj'
    omega
  | case5 rmin rmax h1 rtry h2 ih =>
    intro hle hlt hlo hhi
    apply ih (by omega) hlt ?_ hhi
    intro j hj
    rcases Nat.lt_succ_iff_lt_or_eq.1 hj with hj | rfl
    · have h1 := canon_lt h hj (by omega)
      have h2 := canon_le h (i := rtry) (by omega)
      omega
    · omega

theorem search_found {rs : List Range} (h : Canon rs) (hne : rs ≠ []) (c : Nat) :
    Found rs c (search rs c).1 (search rs c).2 := by
  have hl : 0 < rs.length := List.length_pos_iff.2 hne
  obtain ⟨h1, h2, h3, h4⟩ := bisect_spec h c 0 (rs.length - 1) (by omega) (by omega)
    (by intro j hj; omega) (by intro j hj hj'; omega)
  refine ⟨h1, ?_, ?_, ?_⟩
  · intro x hx
    obtain ⟨j, hj, rfl⟩ := List.getElem_of_mem hx
    simp only [List.length_take] at hj
    have := h2 j (by unfold search at hj; omega)
    simpa [rget, List.getD_eq_getElem?_getD, show j < rs.length by omega] using this
  · intro hm
    obtain ⟨h5, h6, h7⟩ := h3 hm
    refine ⟨_, _, List.drop_eq_getElem_cons h5, ?_⟩
    simpa [rget, List.getD_eq_getElem?_getD, h5] using And.intro h6 h7
  · intro hm x hx
    obtain ⟨j, hj, rfl⟩ := List.getElem_of_mem hx
    simp only [List.length_drop] at hj
    have := h4 hm ((search rs c).2 + j) (by unfold search; omega) (by omega)
    simpa [rget, List.getD_eq_getElem?_getD, show (search rs c).2 + j < rs.length by omega]
      using this

/-- The search finds a range exactly when the character is a member. -/
theorem found_mem {rs : List Range} {c : Nat} {m : Bool} {i : Nat}
    (f : Found rs c m i) : m = true ↔ Mem rs c := by
  constructor
  · intro hm
    obtain ⟨r, B, hd, hr⟩ := f.hit hm
    refine ⟨r, ?_, hr⟩
    have : r ∈ rs.drop i := by rw [hd]; simp
    exact List.mem_of_mem_drop this
  · rintro ⟨r, hr, h1, h2⟩
    cases m with
    | true => rfl
    | false =>
      rw [← List.take_append_drop i rs, List.mem_append] at hr
      rcases hr with hr | hr
      · have := f.below r hr; omega
      · have := f.miss rfl r hr; omega

/-- Splitting a canonical list around a found index. -/
theorem found_split {rs : List Range} {c : Nat} {m : Bool} {i : Nat} (f : Found rs c m i) :
    ∃ A B, rs = A ++ B ∧ A.length = i ∧ (∀ x ∈ A, x.2 < c) ∧
      (m = true → ∃ r B', B = r :: B' ∧ r.1 ≤ c ∧ c ≤ r.2) ∧
      (m = false → ∀ x ∈ B, c < x.1) :=
  ⟨rs.take i, rs.drop i, (List.take_append_drop i rs).symm, by simp [f.le], f.below, f.hit, f.miss⟩

theorem sliceSet_append (A M B xs : List Range) (i j : Nat) (hi : A.length = i)
    (hj : (A ++ M).length = j) : sliceSet (A ++ M ++ B) i j xs = A ++ xs ++ B := by
  subst hi hj
  simp [sliceSet, List.drop_append]

theorem insertAt_append (A B : List Range) (r : Range) (i : Nat) (hi : A.length = i) :
    insertAt (A ++ B) i r = A ++ r :: B := by
  subst hi; simp [insertAt]

theorem modify_append_length (A B : List Range) (r : Range) (f : Range → Range) :
    (A ++ r :: B).modify A.length f = A ++ f r :: B := by
  induction A with
  | nil => rfl
  | cons a A ih => simpa using ih

theorem setLo_append (A B : List Range) (r : Range) (i v : Nat) (hi : A.length = i) :
    setLo (A ++ r :: B) i v = A ++ (v, r.2) :: B := by
  subst hi; exact modify_append_length A B r _

theorem setHi_append (A B : List Range) (r : Range) (i v : Nat) (hi : A.length = i) :
    setHi (A ++ r :: B) i v = A ++ (r.1, v) :: B := by
  subst hi; exact modify_append_length A B r _

theorem merge_eq (rs : List Range) (i ia iz : Nat)
    (ha : (if i > 0 ∧ (rget rs (i - 1)).2 + 1 ≥ (rget rs i).1 then i - 1 else i) = ia)
    (hz : (if i < rs.length - 1 ∧ (rget rs (i + 1)).1 ≤ (rget rs i).2 + 1
      then i + 1 else i) = iz) :
    merge rs i = if ia ≠ iz then
      sliceSet rs ia (iz + 1) [((rget rs ia).1, (rget rs iz).2)] else rs := by
  unfold merge
  simp only [ha, hz]

/-- `_merge` restores canonicity around a range that may touch its neighbours. -/
theorem merge_spec (A B : List Range) (lo hi : Nat) (hA : Canon A) (hB : Canon B)
    (hle : lo ≤ hi) (hAl : ∀ x ∈ A, x.2 < lo) (hBh : ∀ x ∈ B, hi < x.1) (i : Nat)
    (hi' : A.length = i) :
    Canon (merge (A ++ (lo, hi) :: B) i) ∧
    ∀ c, Mem (merge (A ++ (lo, hi) :: B) i) c ↔ Mem A c ∨ (lo ≤ c ∧ c ≤ hi) ∨ Mem B c := by
  subst hi'
  have hget : rget (A ++ (lo, hi) :: B) A.length = (lo, hi) := rget_length A _ B
  -- the left neighbour
  rcases List.eq_nil_or_concat A with rfl | ⟨A', p, rfl⟩
  · -- no left neighbour
    rcases B with _ | ⟨q, B'⟩
    · simp [merge, rget, canon_cons, canon_nil, mem_cons, mem_nil, hle]
    · rw [canon_cons] at hB
      have hq := hBh q (by simp)
      by_cases hm : q.1 ≤ hi + 1
      · have : merge ([] ++ (lo, hi) :: q :: B') 0 = (lo, q.2) :: B' := by
          simp [merge, rget, sliceSet, hm]
        simp only [List.length_nil, this]
        refine ⟨?_, ?_⟩
        · rw [canon_cons]; exact ⟨by simp; omega, hB.2.1, hB.2.2⟩
        · intro c; simp only [mem_cons, mem_nil]
          constructor
          · rintro (⟨h1, h2⟩ | h)
            · by_cases c ≤ hi
              · exact Or.inr (Or.inl ⟨h1, by assumption⟩)
              · exact Or.inr (Or.inr (Or.inl ⟨by omega, h2⟩))
            · exact Or.inr (Or.inr (Or.inr h))
          · rintro (h | ⟨h1, h2⟩ | ⟨h1, h2⟩ | h)
            · exact h.elim
            · exact Or.inl ⟨h1, by omega⟩
            · exact Or.inl ⟨by omega, h2⟩
            · exact Or.inr h
      · have : merge ([] ++ (lo, hi) :: q :: B') 0 = (lo, hi) :: q :: B' := by
          simp [merge, rget, hm]
        simp only [List.length_nil, this]
        refine ⟨?_, ?_⟩
        · rw [canon_cons, canon_cons]
          refine ⟨hle, ?_, hB⟩
          intro s hs
          simp only [List.mem_cons] at hs
          rcases hs with rfl | hs
          · simp; omega
          · have := hB.2.1 s hs; simp; omega
        · intro c; simp only [mem_cons, mem_nil]; simp
  · rw [List.concat_eq_append] at *
    have hA' := (canon_append A' [p]).1 hA
    have hp := hAl p (by simp)
    have hpc : p.1 ≤ p.2 := hA.1 p (by simp)
    have hgp : rget (A' ++ [p] ++ (lo, hi) :: B) ((A' ++ [p]).length - 1) = p := by
      simpa using rget_length A' p ((lo, hi) :: B)
    have hgq : ∀ q B', B = q :: B' → rget (A' ++ [p] ++ (lo, hi) :: B) ((A' ++ [p]).length + 1) = q := by
      intro q B' hq
      subst hq
      have := rget_length (A' ++ [p] ++ [(lo, hi)]) q B'
      simpa using this
    have hAsep : ∀ x ∈ A', x.2 + 1 < p.1 := fun x hx => hA'.2.2 x hx p (by simp)
    have hne : ∀ k, ¬ (A'.length = A'.length + 1 + k + 1 ) := by intro k; omega
    have hA'B : ∀ x ∈ A', ∀ y ∈ B, x.2 + 1 < y.1 := by
      intro x hx y hy
      have h1 := hAsep x hx
      have h2 := hBh y hy
      omega
    rcases B with _ | ⟨q, B'⟩
    · by_cases hm : p.2 + 1 ≥ lo
      · have : merge (A' ++ [p] ++ (lo, hi) :: []) (A' ++ [p]).length = A' ++ (p.1, hi) :: [] := by
          rw [merge_eq _ _ (A'.length) (A'.length + 1)]
          · rw [if_pos (by omega)]
            simp only [List.length_append, List.length_cons, List.length_nil, Nat.zero_add, Nat.add_sub_cancel] at hget hgp hgq
            rw [hgp, hget]
            have := sliceSet_append A' [p, (lo, hi)] [] [(p.1, hi)] A'.length (A'.length + 2) rfl (by simp)
            simpa using this
          · rw [hget, hgp]; simp; omega
          · simp
        rw [this]
        refine ⟨?_, ?_⟩
        · rw [canon_append]
          refine ⟨hA'.1, by simp [canon_cons, canon_nil]; omega, ?_⟩
          intro a ha b hb
          simp only [List.mem_singleton] at hb
          subst hb; exact hAsep a ha
        · intro c; simp only [mem_append, mem_cons, mem_nil]
          grind
      · have : merge (A' ++ [p] ++ (lo, hi) :: []) (A' ++ [p]).length = A' ++ [p] ++ (lo, hi) :: [] := by
          rw [merge_eq _ _ (A'.length + 1) (A'.length + 1)]
          · simp
          · rw [hget, hgp]; simp; omega
          · simp
        rw [this]
        refine ⟨?_, ?_⟩
        · rw [canon_append]
          refine ⟨hA, by simp [canon_cons, canon_nil]; omega, ?_⟩
          intro a ha b hb
          simp only [List.mem_singleton] at hb
          subst hb
          simp only [List.mem_append, List.mem_singleton] at ha
          rcases ha with ha | rfl
          · have := hAsep a ha; simp; omega
          · simp; omega
        · intro c; simp only [mem_append, mem_cons, mem_nil]
    · rw [canon_cons] at hB
      have hq := hBh q (by simp)
      have hgq' := hgq q B' rfl
      by_cases hm : p.2 + 1 ≥ lo <;> by_cases hm2 : q.1 ≤ hi + 1
      · have : merge (A' ++ [p] ++ (lo, hi) :: q :: B') (A' ++ [p]).length = A' ++ (p.1, q.2) :: B' := by
          rw [merge_eq _ _ (A'.length) (A'.length + 2)]
          · rw [if_pos (by omega)]
            simp only [List.length_append, List.length_cons, List.length_nil, Nat.zero_add, Nat.add_sub_cancel] at hget hgp hgq'
            rw [hgp, hgq']
            have := sliceSet_append A' [p, (lo, hi), q] B' [(p.1, q.2)] A'.length (A'.length + 3) rfl (by simp)
            simpa using this
          · rw [hget, hgp]; simp; omega
          · rw [hget, hgq']; simp; omega
        rw [this]
        refine ⟨?_, ?_⟩
        · rw [canon_append, canon_cons]
          refine ⟨hA'.1, ⟨by simp; omega, hB.2.1, hB.2.2⟩, ?_⟩
          intro a ha b hb
          simp only [List.mem_cons] at hb
          rcases hb with rfl | hb
          · exact hAsep a ha
          · exact hA'B a ha b (by simp [hb])
        · intro c; simp only [mem_append, mem_cons, mem_nil]
          grind
      · have : merge (A' ++ [p] ++ (lo, hi) :: q :: B') (A' ++ [p]).length
            = A' ++ (p.1, hi) :: q :: B' := by
          rw [merge_eq _ _ (A'.length) (A'.length + 1)]
          · rw [if_pos (by omega)]
            simp only [List.length_append, List.length_cons, List.length_nil, Nat.zero_add, Nat.add_sub_cancel] at hget hgp hgq
            rw [hgp, hget]
            have := sliceSet_append A' [p, (lo, hi)] (q :: B') [(p.1, hi)] A'.length (A'.length + 2) rfl (by simp)
            simpa using this
          · rw [hget, hgp]; simp; omega
          · rw [hget, hgq']; simp; omega
        rw [this]
        refine ⟨?_, ?_⟩
        · rw [canon_append, canon_cons, canon_cons]
          refine ⟨hA'.1, ⟨by simp; omega, ?_, hB⟩, ?_⟩
          · intro s hs
            simp only [List.mem_cons] at hs
            rcases hs with rfl | hs
            · simp; omega
            · have := hB.2.1 s hs; simp; omega
          intro a ha b hb
          simp only [List.mem_cons] at hb
          rcases hb with rfl | rfl | hb
          · exact hAsep a ha
          · exact hA'B a ha b (by simp)
          · exact hA'B a ha b (by simp [hb])
        · intro c; simp only [mem_append, mem_cons, mem_nil]
          grind
      · have : merge (A' ++ [p] ++ (lo, hi) :: q :: B') (A' ++ [p]).length
            = A' ++ [p] ++ (lo, q.2) :: B' := by
          rw [merge_eq _ _ (A'.length + 1) (A'.length + 2)]
          · rw [if_pos (by omega)]
            simp only [List.length_append, List.length_cons, List.length_nil, Nat.zero_add, Nat.add_sub_cancel] at hget hgp hgq'
            rw [hget, hgq']
            have := sliceSet_append (A' ++ [p]) [(lo, hi), q] B' [(lo, q.2)] (A'.length + 1) (A'.length + 3) (by simp) (by simp)
            simpa using this
          · rw [hget, hgp]; simp; omega
          · rw [hget, hgq']; simp; omega
        rw [this]
        refine ⟨?_, ?_⟩
        · rw [canon_append, canon_cons]
          refine ⟨hA, ⟨by simp; omega, hB.2.1, hB.2.2⟩, ?_⟩
          intro a ha b hb
          simp only [List.mem_cons] at hb
          simp only [List.mem_append, List.mem_singleton] at ha
          rcases ha with ha | rfl <;> rcases hb with rfl | hb
          · have := hAsep a ha; simp; omega
          · exact hA'B a ha b (by simp [hb])
          · simp; omega
          · have := hB.2.1 b hb; omega
        · intro c; simp only [mem_append, mem_cons, mem_nil]
          grind
      · have : merge (A' ++ [p] ++ (lo, hi) :: q :: B') (A' ++ [p]).length
            = A' ++ [p] ++ (lo, hi) :: q :: B' := by
          rw [merge_eq _ _ (A'.length + 1) (A'.length + 1)]
          · simp
          · rw [hget, hgp]; simp; omega
          · rw [hget, hgq']; simp; omega
        rw [this]
        refine ⟨?_, ?_⟩
        · rw [canon_append, canon_cons, canon_cons]
          refine ⟨hA, ⟨hle, ?_, hB⟩, ?_⟩
          · intro s hs
            simp only [List.mem_cons] at hs
            rcases hs with rfl | hs
            · simp; omega
            · have := hB.2.1 s hs; simp; omega
          intro a ha b hb
          simp only [List.mem_cons] at hb
          simp only [List.mem_append, List.mem_singleton] at ha
          rcases ha with ha | rfl <;> rcases hb with rfl | rfl | hb
          · have := hAsep a ha; simp; omega
          · exact hA'B a ha b (by simp)
          · exact hA'B a ha b (by simp [hb])
          · simp; omega
          · omega
          · have := hB.2.1 b hb; omega
        · intro c; simp only [mem_append, mem_cons, mem_nil]

/-- Two searches, for `a ≤ z`, split the list in three. -/
theorem two_found {rs : List Range} (h : Canon rs) {a z : Nat} (haz : a ≤ z) {ma mz : Bool}
    {ia iz : Nat} (fa : Found rs a ma ia) (fz : Found rs z mz iz) :
    ∃ A M B, rs = A ++ M ++ B ∧ A.length = ia ∧ (A ++ M).length = iz ∧
      (∀ x ∈ A, x.2 < a) ∧ (∀ x ∈ M, x.2 < z) ∧
      (ma = true → ∃ r T, M ++ B = r :: T ∧ r.1 ≤ a ∧ a ≤ r.2) ∧
      (ma = false → ∀ x ∈ M ++ B, a < x.1) ∧
      (mz = true → ∃ r T, B = r :: T ∧ r.1 ≤ z ∧ z ≤ r.2) ∧
      (mz = false → ∀ x ∈ B, z < x.1) := by
  have hle : ia ≤ iz := by
    apply Classical.byContradiction
    intro hc
    have hlt : iz < ia := by omega
    have hlen : iz < rs.length := by have := fa.le; omega
    have hmem : rs[iz] ∈ rs.take ia := by
      rw [List.mem_take_iff_getElem]
      exact ⟨iz, by omega, rfl⟩
    have h1 := fa.below _ hmem
    have hd := List.drop_eq_getElem_cons hlen
    have hc := h.1 rs[iz] (List.getElem_mem hlen)
    cases hz : mz with
    | true =>
      obtain ⟨r, T, hr, h2, h3⟩ := fz.hit hz
      rw [hd] at hr
      injection hr with hr _
      rw [← hr] at h3; omega
    | false =>
      have := fz.miss hz rs[iz] (by rw [List.mem_drop_iff_getElem]; exact ⟨0, by omega, by simp⟩)
      omega
  refine ⟨rs.take ia, (rs.drop ia).take (iz - ia), rs.drop iz, ?_, ?_, ?_, fa.below, ?_, ?_, ?_,
    fz.hit, fz.miss⟩
  · have h1 : (rs.drop ia).drop (iz - ia) = rs.drop iz := by
      rw [List.drop_drop]; congr 1; omega
    rw [List.append_assoc, ← h1, List.take_append_drop, List.take_append_drop]
  · simp [fa.le]
  · have := fz.le; simp; omega
  · intro x hx
    apply fz.below
    obtain ⟨j, hj, rfl⟩ := List.getElem_of_mem hx
    simp only [List.length_take, List.length_drop] at hj
    rw [List.mem_take_iff_getElem]
    exact ⟨ia + j, by omega, by simp⟩
  all_goals
    have h1 : (rs.drop ia).take (iz - ia) ++ rs.drop iz = rs.drop ia := by
      have h1 : (rs.drop ia).drop (iz - ia) = rs.drop iz := by
        rw [List.drop_drop]; congr 1; omega
      rw [← h1, List.take_append_drop]
    rw [h1]
  · exact fa.hit
  · exact fa.miss

theorem between_iff (a0 z0 c : Nat) :
    Between a0 z0 c ↔ (if z0 < a0 then z0 else a0) ≤ c ∧ c ≤ (if z0 < a0 then a0 else z0) := by
  unfold Between; split <;> omega

theorem addRange_spec {rs : List Range} (h : Canon rs) (a0 z0 : Nat) :
    Canon (addRange rs a0 z0) ∧ ∀ c, Mem (addRange rs a0 z0) c ↔ Mem rs c ∨ Between a0 z0 c := by
  simp only [between_iff]
  unfold addRange
  dsimp only
  generalize ha : (if z0 < a0 then z0 else a0) = a
  generalize hz : (if z0 < a0 then a0 else z0) = z
  have haz : a ≤ z := by subst ha hz; split <;> omega
  clear ha hz
  by_cases he : rs = []
  · subst he
    simp [canon_cons, canon_nil, mem_cons, mem_nil, haz]
  have he' : rs.isEmpty = false := by simp [he]
  have fa := search_found h he a
  have fz := search_found h he z
  revert fa fz
  generalize (search rs a).1 = ma
  generalize (search rs a).2 = ia
  generalize (search rs z).1 = mz
  generalize (search rs z).2 = iz
  intro fa fz
  obtain ⟨A, M, B, hrs, hA, hAM, hAa, hMz, ha1, ha2, hz1, hz2⟩ := two_found h haz fa fz
  simp only [he', Bool.false_eq_true, if_false]
  have hc := h
  rw [hrs, canon_append, canon_append] at hc
  obtain ⟨⟨cA, cM, sAM⟩, cB, sAMB⟩ := hc
  cases ma with
  | true =>
    obtain ⟨r, T, hr, hra, hra'⟩ := ha1 rfl
    have hgr : rget rs ia = r := by
      rw [hrs, List.append_assoc, hr, ← hA]; exact rget_length A r T
    have hAr : ∀ x ∈ A, x.2 + 1 < r.1 := by
      intro x hx
      rcases M with _ | ⟨m, M'⟩
      · simp only [List.nil_append] at hr; subst hr
        exact sAMB x (by simp [hx]) r (by simp)
      · simp only [List.cons_append, List.cons.injEq] at hr
        obtain ⟨rfl, _⟩ := hr
        exact sAM x hx m (by simp)
    cases mz with
    | true =>
      obtain ⟨q, B', hq, hqz, hqz'⟩ := hz1 rfl
      subst hq
      have hgq : rget rs iz = q := by
        rw [hrs, ← hAM]; exact rget_length (A ++ M) q B'
      simp only [if_true, hgr, hgq]
      by_cases hii : ia = iz
      · rw [if_pos hii]
        refine ⟨h, fun c => ⟨Or.inl, ?_⟩⟩
        rintro (hc | ⟨h1, h2⟩)
        · exact hc
        · have hM : M = [] := by
            have : M.length = 0 := by simp at hAM; omega
            exact List.length_eq_zero_iff.1 this
          subst hM
          simp only [List.nil_append, List.cons.injEq] at hr
          obtain ⟨rfl, _⟩ := hr
          exact ⟨q, by rw [hrs]; simp, by omega, by omega⟩
      · rw [if_neg hii]
        rw [canon_cons] at cB
        have hM : ∃ M', M = r :: M' := by
          rcases M with _ | ⟨m, M'⟩
          · simp at hAM; omega
          · simp only [List.cons_append, List.cons.injEq] at hr
            exact ⟨M', by rw [hr.1]⟩
        obtain ⟨M', rfl⟩ := hM
        have hss : sliceSet rs ia (iz + 1) [(r.1, q.2)] = A ++ (r.1, q.2) :: B' := by
          have := sliceSet_append A (r :: M' ++ [q]) B' [(r.1, q.2)] ia (iz + 1) hA (by
            simp at hAM ⊢; omega)
          rw [hrs]; simpa using this
        rw [hss]
        obtain ⟨m1, m2⟩ := merge_spec A B' r.1 q.2 cA cB.2.2 (by omega)
          (fun x hx => by have := hAr x hx; omega)
          (fun x hx => by have := cB.2.1 x hx; omega) ia hA
        have hrq := sAMB r (by simp) q (by simp)
        refine ⟨m1, fun c => ?_⟩
        rw [m2, hrs]
        simp only [mem_append, mem_cons]
        constructor
        · rintro (hc | hc | hc)
          · simp [hc]
          · by_cases c < a
            · left; left; right; left; omega
            · by_cases c ≤ z
              · right; omega
              · left; right; left; omega
          · simp [hc]
        · rintro (((hc | hc | hc) | hc | hc) | hc)
          · simp [hc]
          · right; left
            omega
          · obtain ⟨x, hx, hx1, hx2⟩ := hc
            have := hMz x (by simp [hx])
            have := (canon_cons _ _).1 cM
            have := this.2.1 x hx
            right; left; omega
          · right; left; omega
          · simp [hc]
          · right; left; omega
    | false =>
      have hM : ∃ M', M = r :: M' := by
        rcases M with _ | ⟨m, M'⟩
        · simp only [List.nil_append] at hr
          have := hz2 rfl r (by rw [hr]; simp)
          omega
        · simp only [List.cons_append, List.cons.injEq] at hr
          exact ⟨M', by rw [hr.1]⟩
      obtain ⟨M', rfl⟩ := hM
      simp only [if_true, Bool.false_eq_true, if_false, hgr]
      have hss : sliceSet rs ia iz [(r.1, z)] = A ++ (r.1, z) :: B := by
        have := sliceSet_append A (r :: M') B [(r.1, z)] ia iz hA hAM
        rw [hrs]; simpa using this
      rw [hss]
      obtain ⟨m1, m2⟩ := merge_spec A B r.1 z cA cB (by omega)
          (fun x hx => by have := hAr x hx; omega) (hz2 rfl) ia hA
      refine ⟨m1, fun c => ?_⟩
      rw [m2, hrs]
      simp only [mem_append, mem_cons]
      constructor
      · rintro (hc | hc | hc)
        · simp [hc]
        · by_cases c < a
          · left; left; right; left; omega
          · right; omega
        · simp [hc]
      · rintro (((hc | hc | hc) | hc) | hc)
        · simp [hc]
        · have := hMz r (by simp)
          right; left; omega
        · obtain ⟨x, hx, hx1, hx2⟩ := hc
          have := hMz x (by simp [hx])
          have := (canon_cons _ _).1 cM
          have := this.2.1 x hx
          right; left; omega
        · simp [hc]
        · right; left; omega
  | false =>
    have hMa := ha2 rfl
    cases mz with
    | true =>
      obtain ⟨q, B', hq, hqz, hqz'⟩ := hz1 rfl
      subst hq
      have hgq : rget rs iz = q := by
        rw [hrs, ← hAM]; exact rget_length (A ++ M) q B'
      simp only [if_true, Bool.false_eq_true, if_false, hgq]
      rw [canon_cons] at cB
      have hss : sliceSet rs ia (iz + 1) [(a, q.2)] = A ++ (a, q.2) :: B' := by
        have := sliceSet_append A (M ++ [q]) B' [(a, q.2)] ia (iz + 1) hA (by
            simp at hAM ⊢; omega)
        rw [hrs]; simpa using this
      rw [hss]
      obtain ⟨m1, m2⟩ := merge_spec A B' a q.2 cA cB.2.2 (by omega)
          hAa (fun x hx => by have := cB.2.1 x hx; omega) ia hA
      refine ⟨m1, fun c => ?_⟩
      rw [m2, hrs]
      simp only [mem_append, mem_cons]
      have hqa := hMa q (by simp)
      constructor
      · rintro (hc | hc | hc)
        · simp [hc]
        · by_cases c ≤ z
          · right; omega
          · left; right; left; omega
        · simp [hc]
      · rintro (((hc | hc) | hc | hc) | hc)
        · simp [hc]
        · obtain ⟨x, hx, hx1, hx2⟩ := hc
          have := hMz x hx
          have := hMa x (by simp [hx])
          right; left; omega
        · right; left; omega
        · simp [hc]
        · right; left; omega
    | false =>
      simp only [Bool.false_eq_true, if_false]
      have hss : sliceSet rs ia iz [(a, z)] = A ++ (a, z) :: B := by
        have := sliceSet_append A M B [(a, z)] ia iz hA hAM
        rw [hrs]; simpa using this
      rw [hss]
      obtain ⟨m1, m2⟩ := merge_spec A B a z cA cB haz hAa (hz2 rfl) ia hA
      refine ⟨m1, fun c => ?_⟩
      rw [m2, hrs]
      simp only [mem_append]
      constructor
      · rintro (hc | hc | hc) <;> simp [hc]
      · rintro (((hc | hc) | hc) | hc)
        · simp [hc]
        · obtain ⟨x, hx, hx1, hx2⟩ := hc
          have := hMz x hx
          have := hMa x (by simp [hx])
          right; left; omega
        · simp [hc]
        · simp [hc]

theorem addChar_spec {rs : List Range} (h : Canon rs) (x : Nat) :
    Canon (addChar rs x) ∧ ∀ c, Mem (addChar rs x) c ↔ Mem rs c ∨ c = x := by
  unfold addChar
  by_cases he : rs = []
  · subst he
    simp [canon_cons, canon_nil, mem_cons, mem_nil]; omega
  have he' : rs.isEmpty = false := by simp [he]
  have f := search_found h he x
  have fm := found_mem f
  revert f fm
  generalize (search rs x).1 = m
  generalize (search rs x).2 = i
  intro f fm
  simp only [he', Bool.false_eq_true, if_false]
  cases m with
  | true =>
    simp only [if_true]
    refine ⟨h, fun c => ⟨Or.inl, ?_⟩⟩
    rintro (hc | rfl)
    · exact hc
    · exact fm.1 rfl
  | false =>
    obtain ⟨A, B, hrs, hA, hAx, _, hB⟩ := found_split f
    simp only [Bool.false_eq_true, if_false]
    have hc := h
    rw [hrs, canon_append] at hc
    rw [hrs, insertAt_append A B (x, x) i hA]
    obtain ⟨m1, m2⟩ := merge_spec A B x x hc.1 hc.2.1 (Nat.le_refl _) hAx (hB rfl) i hA
    refine ⟨m1, fun c => ?_⟩
    rw [m2, mem_append]
    have : x ≤ c ∧ c ≤ x ↔ c = x := by omega
    rw [this]
    constructor
    · rintro (h | h | h) <;> simp [h]
    · rintro ((h | h) | h) <;> simp [h]

end Verif.CharClass

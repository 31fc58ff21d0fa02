import Verif.CharClass.Lemmas
/-! # Lemmas about the subtracting operations -/
namespace Verif.CharClass

/-- The part of `r` below `a`. -/
def lrem (r : Range) (a : Nat) : List Range := if r.1 < a then [(r.1, a - 1)] else []
/-- The part of `q` above `z`. -/
def rrem (q : Range) (z : Nat) : List Range := if z < q.2 then [(z + 1, q.2)] else []

structure LeftOf (N L : List Range) (a : Nat) : Prop where
  mem : ∀ c, Mem L c ↔ Mem N c ∧ c < a
  canon : Canon L
  bound : ∀ x ∈ L, x.2 < a ∧ ∃ n ∈ N, n.1 ≤ x.1

structure RightOf (N R : List Range) (z : Nat) : Prop where
  mem : ∀ c, Mem R c ↔ Mem N c ∧ z < c
  canon : Canon R
  bound : ∀ x ∈ R, z < x.1 ∧ ∃ n ∈ N, x.2 ≤ n.2

theorem leftOf_nil {N : List Range} {a : Nat} (h : ∀ n ∈ N, a < n.1) : LeftOf N [] a := by
  refine ⟨fun c => ?_, canon_nil, by simp⟩
  rw [mem_nil]
  constructor
  · exact False.elim
  · rintro ⟨⟨n, hn, h1, h2⟩, hc⟩
    have := h n hn; omega

theorem rightOf_nil {N : List Range} {z : Nat} (h : ∀ n ∈ N, n.2 < z) : RightOf N [] z := by
  refine ⟨fun c => ?_, canon_nil, by simp⟩
  rw [mem_nil]
  constructor
  · exact False.elim
  · rintro ⟨⟨n, hn, h1, h2⟩, hc⟩
    have := h n hn; omega

theorem leftOf_lrem {r : Range} {N : List Range} {a : Nat} (hc : Canon (r :: N)) (h1 : r.1 ≤ a)
    (h2 : a ≤ r.2) : LeftOf (r :: N) (lrem r a) a := by
  rw [canon_cons] at hc
  refine ⟨fun c => ?_, ?_, ?_⟩
  · rw [mem_cons]
    have : Mem N c → ¬ c < a := by
      rintro ⟨n, hn, h3, h4⟩
      have := hc.2.1 n hn; omega
    unfold lrem; split
    · simp only [mem_cons, mem_nil]; grind
    · simp only [mem_nil]; grind
  · unfold lrem; split
    · simp [canon_cons, canon_nil]; omega
    · exact canon_nil
  · unfold lrem; split
    · simp; omega
    · simp

theorem rightOf_rrem {q : Range} {M : List Range} {z : Nat} (hM : ∀ m ∈ M, m.2 < z)
    (h1 : q.1 ≤ z) (_h2 : z ≤ q.2) : RightOf (M ++ [q]) (rrem q z) z := by
  refine ⟨fun c => ?_, ?_, ?_⟩
  · rw [mem_append, mem_cons]
    have : Mem M c → ¬ z < c := by
      rintro ⟨n, hn, h3, h4⟩
      have := hM n hn; omega
    unfold rrem; split
    · simp only [mem_cons, mem_nil]; grind
    · simp only [mem_nil]; grind
  · unfold rrem; split
    · simp [canon_cons, canon_nil]; omega
    · exact canon_nil
  · unfold rrem; split
    · simp only [List.mem_singleton, forall_eq, List.mem_append]
      exact ⟨by omega, q, by simp, by simp⟩
    · simp

theorem cut_spec {A N C L R : List Range} {a z : Nat} (haz : a ≤ z) (hc : Canon (A ++ N ++ C))
    (hA : ∀ x ∈ A, x.2 < a) (hC : ∀ x ∈ C, z < x.1) (hL : LeftOf N L a) (hR : RightOf N R z) :
    Canon (A ++ L ++ R ++ C) ∧
      ∀ c, Mem (A ++ L ++ R ++ C) c ↔ Mem (A ++ N ++ C) c ∧ ¬ (a ≤ c ∧ c ≤ z) := by
  rw [canon_append, canon_append] at hc
  obtain ⟨⟨cA, cN, sAN⟩, cC, sANC⟩ := hc
  constructor
  · simp only [canon_append]
    refine ⟨⟨⟨cA, hL.canon, ?_⟩, hR.canon, ?_⟩, cC, ?_⟩
    · intro x hx y hy
      obtain ⟨_, n, hn, hny⟩ := hL.bound y hy
      have := sAN x hx n hn; omega
    · intro x hx y hy
      have h1 := (hR.bound y hy).1
      rcases List.mem_append.1 hx with hx | hx
      · have := hA x hx; omega
      · have := (hL.bound x hx).1; omega
    · intro x hx y hy
      have h1 := hC y hy
      rcases List.mem_append.1 hx with hx | hx
      · rcases List.mem_append.1 hx with hx | hx
        · have := hA x hx; omega
        · have := (hL.bound x hx).1; omega
      · obtain ⟨_, n, hn, hny⟩ := hR.bound x hx
        have := sANC n (by simp [hn]) y hy; omega
  · intro c
    simp only [mem_append, hL.mem, hR.mem]
    have h1 : Mem A c → c < a := by
      rintro ⟨x, hx, _, _⟩; have := hA x hx; omega
    have h2 : Mem C c → z < c := by
      rintro ⟨x, hx, _, _⟩; have := hC x hx; omega
    constructor
    · rintro (((h | h) | h) | h)
      · have := h1 h; exact ⟨Or.inl (Or.inl h), by omega⟩
      · exact ⟨Or.inl (Or.inr h.1), by omega⟩
      · exact ⟨Or.inl (Or.inr h.1), by omega⟩
      · have := h2 h; exact ⟨Or.inr h, by omega⟩
    · rintro ⟨(h | h) | h, hn⟩
      · simp [h]
      · by_cases c < a
        · left; left; right; exact ⟨h, by omega⟩
        · left; right; exact ⟨h, by omega⟩
      · simp [h]

theorem subtractRange_spec {rs : List Range} (h : Canon rs) (a0 z0 : Nat) :
    Canon (subtractRange rs a0 z0) ∧
      ∀ c, Mem (subtractRange rs a0 z0) c ↔ Mem rs c ∧ ¬ Between a0 z0 c := by
  simp only [between_iff]
  unfold subtractRange
  dsimp only
  generalize ha : (if z0 < a0 then z0 else a0) = a
  generalize hz : (if z0 < a0 then a0 else z0) = z
  have haz : a ≤ z := by subst ha hz; split <;> omega
  clear ha hz
  by_cases he : rs = []
  · subst he
    simp [canon_nil, mem_nil]
  have he' : rs.isEmpty = false := by simp [he]
  have fa := search_found h he a
  have fz := search_found h he z
  revert fa fz
  generalize (search rs a).1 = ma
  generalize (search rs a).2 = ia
  generalize (search rs z).1 = mz
  generalize (search rs z).2 = iz
  intro fa fz
  obtain ⟨A, M, B, hrs, hA, hAM, hAa, hMz, ha1, ha2, hz1, hz2⟩ := two_found h haz fa fz
  simp only [he', Bool.false_eq_true, if_false]
  have hc := h
  rw [hrs, canon_append, canon_append] at hc
  obtain ⟨⟨cA, cM, sAM⟩, cB, sAMB⟩ := hc
  -- it is enough to show that the result has the right shape
  suffices hs : ∀ (res : List Range), (∃ N C L R, rs = A ++ N ++ C ∧ res = A ++ L ++ R ++ C ∧
      (∀ x ∈ C, z < x.1) ∧ LeftOf N L a ∧ RightOf N R z) →
      Canon res ∧ ∀ c, Mem res c ↔ Mem rs c ∧ ¬ (a ≤ c ∧ c ≤ z) by
    apply hs
    clear hs
    cases ma with
    | true =>
      obtain ⟨r, T, hr, hra, hra'⟩ := ha1 rfl
      have hgr : rget rs ia = r := by
        rw [hrs, List.append_assoc, hr, ← hA]; exact rget_length A r T
      cases mz with
      | true =>
        obtain ⟨q, B', hq, hqz, hqz'⟩ := hz1 rfl
        subst hq
        have hgq : rget rs iz = q := by
          rw [hrs, ← hAM]; exact rget_length (A ++ M) q B'
        rw [canon_cons] at cB
        simp only [if_true, hgr]
        by_cases hii : ia = iz
        · rw [if_pos hii]
          have hM : M = [] := by
            have : M.length = 0 := by simp at hAM; omega
            exact List.length_eq_zero_iff.1 this
          subst hM
          simp only [List.nil_append, List.cons.injEq] at hr
          obtain ⟨rfl, _⟩ := hr
          have hrs' : rs = A ++ [q] ++ B' := by rw [hrs]; simp
          have hrs2 : rs = A ++ q :: B' := by rw [hrs]; simp
          refine ⟨[q], B', lrem q a, rrem q z, hrs', ?_,
            fun x hx => by have := cB.2.1 x hx; omega,
            leftOf_lrem (by simp [canon_cons, canon_nil, cB.1]) hra hra',
            by have := rightOf_rrem (M := []) (by simp) hqz hqz'; simpa using this⟩
          split
          · rename_i hcond
            have e1 : lrem q a = [] := by unfold lrem; rw [if_neg]; omega
            have e2 : rrem q z = [] := by unfold rrem; rw [if_neg]; omega
            rw [e1, e2, hrs', sliceSet_append A [q] B' [] ia (ia + 1) hA (by simp [hA])]; simp
          · split
            · rename_i hcond hlo
              have e1 : lrem q a = [] := by unfold lrem; rw [if_neg]; omega
              have e2 : rrem q z = [(z + 1, q.2)] := by unfold rrem; rw [if_pos]; omega
              rw [e1, e2, hrs2, setLo_append A B' q ia _ hA]; simp
            · split
              · rename_i hcond hlo hhi
                have e1 : lrem q a = [(q.1, a - 1)] := by unfold lrem; rw [if_pos]; omega
                have e2 : rrem q z = [] := by unfold rrem; rw [if_neg]; omega
                rw [e1, e2, hrs2, setHi_append A B' q ia _ hA]; simp
              · rename_i hcond hlo hhi
                have e1 : lrem q a = [(q.1, a - 1)] := by unfold lrem; rw [if_pos]; omega
                have e2 : rrem q z = [(z + 1, q.2)] := by unfold rrem; rw [if_pos]; omega
                rw [e1, e2, hrs2, setHi_append A B' q ia _ hA]
                have := insertAt_append (A ++ [(q.1, a - 1)]) B' (z + 1, q.2) (ia + 1)
                  (by simp [hA])
                simpa using this
        · rw [if_neg hii]
          have hM : ∃ M', M = r :: M' := by
            rcases M with _ | ⟨m, M'⟩
            · simp at hAM; omega
            · simp only [List.cons_append, List.cons.injEq] at hr
              exact ⟨M', by rw [hr.1]⟩
          obtain ⟨M', rfl⟩ := hM
          have hrq := sAMB r (by simp) q (by simp)
          have hAM2 : A.length + M'.length + 1 = iz := by simp at hAM; omega
          have cM' := (canon_cons _ _).1 cM
          refine ⟨r :: M' ++ [q], B', lrem r a, rrem q z, by rw [hrs]; simp, ?_,
            fun x hx => by have := cB.2.1 x hx; omega, ?_, rightOf_rrem hMz hqz hqz'⟩
          · -- compute
            have hrs2 : rs = A ++ r :: (M' ++ q :: B') := by rw [hrs]; simp
            by_cases hda : r.1 = r.2 ∨ a = r.1
            · have e1 : lrem r a = [] := by unfold lrem; rw [if_neg]; omega
              simp only [hda, decide_true, if_true, hgq]
              by_cases hdz : q.1 = q.2 ∨ z = q.2
              · have e2 : rrem q z = [] := by unfold rrem; rw [if_neg]; omega
                simp only [hdz, decide_true, if_true]
                rw [if_pos (by omega), e1, e2]
                have := sliceSet_append A (r :: M' ++ [q]) B' [] ia (iz + 1) hA
                  (by simp; omega)
                rw [hrs]; simpa using this
              · have e2 : rrem q z = [(z + 1, q.2)] := by unfold rrem; rw [if_pos]; omega
                simp only [hdz, decide_false, if_false, Bool.false_eq_true]
                rw [if_pos (by omega), e1, e2, hrs,
                  setLo_append (A ++ r :: M') B' q iz _ hAM]
                have := sliceSet_append A (r :: M') ((z + 1, q.2) :: B') [] ia iz hA
                  (by simp; omega)
                simpa using this
            · have e1 : lrem r a = [(r.1, a - 1)] := by unfold lrem; rw [if_pos]; omega
              have hs : setHi rs ia (a - 1) = A ++ (r.1, a - 1) :: M' ++ q :: B' := by
                rw [hrs2, setHi_append A _ r ia _ hA]; simp
              have hg2 : rget (A ++ (r.1, a - 1) :: M' ++ q :: B') iz = q := by
                have := rget_length (A ++ (r.1, a - 1) :: M') q B'
                rwa [show (A ++ (r.1, a - 1) :: M').length = iz by simp; omega] at this
              simp only [hda, decide_false, if_false, Bool.false_eq_true, hs, hg2]
              by_cases hdz : q.1 = q.2 ∨ z = q.2
              · have e2 : rrem q z = [] := by unfold rrem; rw [if_neg]; omega
                simp only [hdz, decide_true, if_true]
                rw [if_pos (by omega), e1, e2]
                have := sliceSet_append (A ++ [(r.1, a - 1)]) (M' ++ [q]) B' [] (ia + 1) (iz + 1)
                  (by simp [hA]) (by simp; omega)
                simpa using this
              · have e2 : rrem q z = [(z + 1, q.2)] := by unfold rrem; rw [if_pos]; omega
                simp only [hdz, decide_false, if_false, Bool.false_eq_true]
                rw [if_pos (by omega), e1, e2,
                  setLo_append (A ++ (r.1, a - 1) :: M') B' q iz _ (by simp; omega)]
                have := sliceSet_append (A ++ [(r.1, a - 1)]) M' ((z + 1, q.2) :: B') []
                  (ia + 1) iz (by simp [hA]) (by simp; omega)
                simpa using this
          · apply leftOf_lrem (N := M' ++ [q]) _ hra hra'
            rw [show r :: (M' ++ [q]) = r :: M' ++ [q] by simp, canon_append]
            refine ⟨cM, by simp [canon_cons, canon_nil, cB.1], ?_⟩
            intro x hx y hy
            simp only [List.mem_singleton] at hy; subst hy
            exact sAMB x (by simp at hx ⊢; right; exact hx) y (by simp)
      | false =>
        have hM : ∃ M', M = r :: M' := by
          rcases M with _ | ⟨m, M'⟩
          · simp only [List.nil_append] at hr
            have := hz2 rfl r (by rw [hr]; simp)
            omega
          · simp only [List.cons_append, List.cons.injEq] at hr
            exact ⟨M', by rw [hr.1]⟩
        obtain ⟨M', rfl⟩ := hM
        simp only [if_true, Bool.false_eq_true, if_false, hgr]
        refine ⟨r :: M', B, lrem r a, [], hrs, ?_, hz2 rfl, leftOf_lrem cM hra hra',
          rightOf_nil hMz⟩
        have cM' := (canon_cons _ _).1 cM
        have hAM2 : A.length + M'.length + 1 = iz := by simp at hAM; omega
        split
        · have e1 : lrem r a = [] := by unfold lrem; rw [if_neg]; omega
          rw [e1, hrs, sliceSet_append A (r :: M') B [] ia iz hA hAM]; simp
        · have e1 : lrem r a = [(r.1, a - 1)] := by unfold lrem; rw [if_pos]; omega
          rw [e1, hrs, show A ++ r :: M' ++ B = A ++ r :: (M' ++ B) by simp,
            setHi_append A _ r ia _ hA]
          have := sliceSet_append (A ++ [(r.1, a - 1)]) M' B []
                  (ia + 1) iz (by simp [hA]) (by simp; omega)
          simpa using this
    | false =>
      have hMa := ha2 rfl
      cases mz with
      | true =>
        obtain ⟨q, B', hq, hqz, hqz'⟩ := hz1 rfl
        subst hq
        have hgq : rget rs iz = q := by
          rw [hrs, ← hAM]; exact rget_length (A ++ M) q B'
        simp only [if_true, Bool.false_eq_true, if_false, hgq]
        rw [canon_cons] at cB
        refine ⟨M ++ [q], B', [], rrem q z, by rw [hrs]; simp, ?_,
          fun x hx => by have := cB.2.1 x hx; omega,
          leftOf_nil (fun n hn => hMa n (by simp at hn ⊢; rcases hn with h | h <;> simp [h])),
          rightOf_rrem hMz hqz hqz'⟩
        have hAM2 : A.length + M.length = iz := by simp at hAM; omega
        split
        · have e2 : rrem q z = [] := by unfold rrem; rw [if_neg]; omega
          rw [e2, hrs, show A ++ M ++ q :: B' = A ++ (M ++ [q]) ++ B' by simp,
            sliceSet_append A (M ++ [q]) B' [] ia (iz + 1) hA (by simp; omega)]; simp
        · have e2 : rrem q z = [(z + 1, q.2)] := by unfold rrem; rw [if_pos]; omega
          rw [e2, hrs, setLo_append (A ++ M) B' q iz _ hAM,
            sliceSet_append A M ((z + 1, q.2) :: B') [] ia iz hA hAM]; simp
      | false =>
        simp only [Bool.false_eq_true, if_false]
        refine ⟨M, B, [], [], hrs, ?_, hz2 rfl,
          leftOf_nil (fun n hn => hMa n (by simp [hn])), rightOf_nil hMz⟩
        rw [hrs, sliceSet_append A M B [] ia iz hA hAM]; simp
  rintro res ⟨N, C, L, R, h1, rfl, h3, h4, h5⟩
  rw [h1] at h ⊢
  exact cut_spec haz h hAa h3 h4 h5

theorem subtractChar_spec {rs : List Range} (h : Canon rs) (x : Nat) :
    Canon (subtractChar rs x) ∧ ∀ c, Mem (subtractChar rs x) c ↔ Mem rs c ∧ c ≠ x := by
  unfold subtractChar
  by_cases he : rs = []
  · subst he
    simp [canon_nil, mem_nil]
  have he' : rs.isEmpty = false := by simp [he]
  have f := search_found h he x
  have fm := found_mem f
  revert f fm
  dsimp only
  generalize (search rs x).1 = m
  generalize (search rs x).2 = i
  intro f fm
  simp only [he', Bool.false_eq_true, if_false]
  cases m with
  | true =>
    simp only [if_true]
    obtain ⟨A, B, hrs, hA, hAx, hB, _⟩ := found_split f
    obtain ⟨q, B', rfl, h1, h2⟩ := hB rfl
    have hgq : rget rs i = q := by rw [hrs, ← hA]; exact rget_length A q B'
    have hc := h
    rw [hrs, canon_append, canon_cons] at hc
    rw [hgq]
    have hrs' : rs = A ++ [q] ++ B' := by rw [hrs]; simp
    have key := cut_spec (a := x) (z := x) (Nat.le_refl _) (hrs' ▸ h) hAx
      (fun y hy => by have := hc.2.1.2.1 y hy; omega)
      (leftOf_lrem (by simp [canon_cons, canon_nil, hc.2.1.1]) h1 h2)
      (by have := rightOf_rrem (M := []) (z := x) (by simp) h1 h2; simpa using this)
    rw [← hrs'] at key
    have hx : ∀ c, (x ≤ c ∧ c ≤ x) ↔ c = x := by intro c; omega
    simp only [hx] at key
    have hshape : (if q.1 = q.2 then sliceSet rs i (i + 1) [] else if q.1 = x then
        setLo rs i (q.1 + 1) else if q.2 = x then setHi rs i (q.2 - 1)
        else insertAt (setHi rs i (x - 1)) (i + 1) (x + 1, q.2)) =
        A ++ lrem q x ++ rrem q x ++ B' := by
      split
      · rename_i hcond
        have e1 : lrem q x = [] := by unfold lrem; rw [if_neg]; omega
        have e2 : rrem q x = [] := by unfold rrem; rw [if_neg]; omega
        rw [e1, e2, hrs', sliceSet_append A [q] B' [] i (i + 1) hA (by simp [hA])]; simp
      · split
        · rename_i hcond hlo
          have e1 : lrem q x = [] := by unfold lrem; rw [if_neg]; omega
          have e2 : rrem q x = [(x + 1, q.2)] := by unfold rrem; rw [if_pos]; omega
          rw [e1, e2, hrs, setLo_append A B' q i _ hA, hlo]; simp
        · split
          · rename_i hcond hlo hhi
            have e1 : lrem q x = [(q.1, x - 1)] := by unfold lrem; rw [if_pos]; omega
            have e2 : rrem q x = [] := by unfold rrem; rw [if_neg]; omega
            rw [e1, e2, hrs, setHi_append A B' q i _ hA, hhi]; simp
          · rename_i hcond hlo hhi
            have e1 : lrem q x = [(q.1, x - 1)] := by unfold lrem; rw [if_pos]; omega
            have e2 : rrem q x = [(x + 1, q.2)] := by unfold rrem; rw [if_pos]; omega
            rw [e1, e2, hrs, setHi_append A B' q i _ hA]
            have := insertAt_append (A ++ [(q.1, x - 1)]) B' (x + 1, q.2) (i + 1)
              (by simp [hA])
            simpa using this
    rw [hshape]
    exact key
  | false =>
    simp only [Bool.false_eq_true, if_false]
    refine ⟨h, fun c => ⟨fun hc => ⟨hc, ?_⟩, And.left⟩⟩
    rintro rfl
    have := fm.2 hc
    simp at this

end Verif.CharClass

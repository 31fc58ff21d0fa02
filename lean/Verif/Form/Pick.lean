import Verif.Form.Spec

/-! Steps 1 to 3 of the selection: the picked children. -/

namespace Verif.Form

theorem insertNat_perm (x : Nat) (l : List Nat) : (insertNat x l).Perm (x :: l) := by
  induction l with
  | nil => exact .refl _
  | cons y l ih =>
    unfold insertNat
    split
    · exact .refl _
    · exact (List.Perm.cons y ih).trans (.swap x y l)

theorem sortNat_perm (l : List Nat) : (sortNat l).Perm l := by
  induction l with
  | nil => exact .refl _
  | cons x l ih => exact (insertNat_perm x _).trans (.cons x ih)

theorem insertNat_sorted (x : Nat) (l : List Nat) (h : l.Pairwise (· ≤ ·)) :
    (insertNat x l).Pairwise (· ≤ ·) := by
  induction l with
  | nil => simp [insertNat]
  | cons y l ih =>
    unfold insertNat
    rw [List.pairwise_cons] at h
    split
    · rename_i hxy
      refine List.pairwise_cons.2 ⟨?_, List.pairwise_cons.2 h⟩
      intro z hz
      rcases List.mem_cons.1 hz with e | e
      · omega
      · have := h.1 z e; omega
    · rename_i hxy
      refine List.pairwise_cons.2 ⟨?_, ih h.2⟩
      intro z hz
      rcases List.mem_cons.1 ((insertNat_perm x l).subset hz) with e | e
      · omega
      · exact h.1 z e

theorem sortNat_sorted (l : List Nat) : (sortNat l).Pairwise (· ≤ ·) := by
  induction l with
  | nil => simp [sortNat]
  | cons x l ih => exact insertNat_sorted x _ ih

theorem getD_mem {l : List Nat} {n : Nat} (h : n < l.length) : l.getD n 0 ∈ l := by
  rw [List.getD_eq_getElem?_getD, List.getElem?_eq_getElem h]
  exact List.getElem_mem h

theorem draw_lt {n : Nat} (h : 0 < n) (s : Src) : draw n s < n := Nat.mod_lt _ h

/-- The top up appends picks from the bag. -/
theorem topUp_spec (repl : Bool) : ∀ k bg sel s picks s',
    topUp repl k bg sel s = .ok (picks, s') →
    ∃ more, picks = sel ++ more ∧ more.length = k ∧ (∀ i ∈ more, i ∈ bg) ∧
      (repl = false → bg.Nodup → more.Nodup) := by
  intro k
  induction k with
  | zero =>
    intro bg sel s picks s' h
    simp only [topUp, Except.ok.injEq, Prod.mk.injEq] at h
    exact ⟨[], by simp [h.1], rfl, by simp, fun _ _ => .nil⟩
  | succ k ih =>
    intro bg sel s picks s' h
    unfold topUp at h
    split at h
    · cases h
    · rename_i hb
      dsimp only at h
      have hlt : draw bg.length s < bg.length := draw_lt (List.length_pos_iff.2 hb) s
      have hmem := getD_mem hlt
      generalize bg.getD (draw bg.length s) 0 = i at h hmem
      obtain ⟨more, e1, e2, e3, e4⟩ := ih _ _ _ _ _ h
      refine ⟨i :: more, by simp [e1], by simp [e2], ?_, ?_⟩
      · intro j hj
        rcases List.mem_cons.1 hj with e | e
        · exact e ▸ hmem
        · have := e3 j e
          split at this
          · exact this
          · exact List.mem_of_mem_erase this
      · intro hr hn
        subst hr
        simp only [Bool.false_eq_true, if_false] at e3 e4
        refine List.nodup_cons.2 ⟨?_, e4 trivial (hn.erase i)⟩
        intro hi
        have := e3 i hi
        exact absurd this (hn.not_mem_erase)

/-- The top up succeeds when the bag is large enough. -/
theorem topUp_ok (repl : Bool) : ∀ k bg sel s,
    (repl = false → k ≤ bg.length) → (k = 0 ∨ bg ≠ []) →
    ∃ r, topUp repl k bg sel s = .ok r := by
  intro k
  induction k with
  | zero => intro bg sel s _ _; exact ⟨_, rfl⟩
  | succ k ih =>
    intro bg sel s h1 h2
    have hb : bg ≠ [] := by rcases h2 with h | h; cases h; exact h
    unfold topUp
    rw [if_neg hb]
    dsimp only
    have hmem := getD_mem (draw_lt (List.length_pos_iff.2 hb) s)
    generalize bg.getD (draw bg.length s) 0 = i at hmem
    cases repl with
    | true => exact ih _ _ _ (by simp) (Or.inr hb)
    | false =>
      have := h1 rfl
      have hl := List.length_erase_of_mem hmem
      apply ih
      · intro _; simp only [Bool.false_eq_true, if_false]; omega
      · simp only [Bool.false_eq_true, if_false]
        by_cases hk : k = 0
        · exact Or.inl hk
        · right; intro he; rw [he] at hl; simp at hl; omega

/-- The top up fails when the bag runs out. -/
theorem topUp_fail (k : Nat) : ∀ bg sel s, bg.length < k →
    topUp false k bg sel s = .error .selection := by
  induction k with
  | zero => intro bg sel s h; omega
  | succ k ih =>
    intro bg sel s h
    unfold topUp
    split
    · rfl
    · rename_i hb
      dsimp only
      have hmem := getD_mem (draw_lt (List.length_pos_iff.2 hb) s)
      generalize bg.getD (draw bg.length s) 0 = i at hmem
      have hl := List.length_erase_of_mem hmem
      simp only [Bool.false_eq_true, if_false]
      apply ih
      have := List.length_pos_iff.2 hb
      omega

/-- A child is required. -/
def req (infos : List Info) (i : Nat) : Bool := (infos[i]?.map Info.required).getD false

theorem requiredIdx_eq (infos : List Info) :
    requiredIdx infos = (List.range infos.length).filter (req infos) := rfl

theorem mem_requiredIdx {infos : List Info} {i : Nat} :
    i ∈ requiredIdx infos ↔ ∃ c, infos[i]? = some c ∧ c.required = true := by
  rw [requiredIdx_eq, List.mem_filter, List.mem_range]
  unfold req
  constructor
  · rintro ⟨h, h'⟩
    rw [List.getElem?_eq_getElem h] at h' ⊢
    exact ⟨_, rfl, h'⟩
  · rintro ⟨c, h, h'⟩
    have : i < infos.length := by
      rcases Nat.lt_or_ge i infos.length with g | g
      · exact g
      · rw [List.getElem?_eq_none g] at h; cases h
    rw [h]; exact ⟨this, h'⟩

theorem bag_lt {infos : List Info} {repl : Bool} {i : Nat} (h : i ∈ bag infos repl) :
    i < infos.length := by
  unfold bag at h
  split at h
  · exact List.mem_range.1 h
  · exact List.mem_range.1 (List.mem_filter.1 h).1

theorem bag_nodup (infos : List Info) (repl : Bool) : (bag infos repl).Nodup := by
  unfold bag; split
  · exact List.nodup_range
  · exact List.nodup_range.filter _

theorem filter_length_add (p : Nat → Bool) (l : List Nat) :
    (l.filter p).length + (l.filter (fun i => !p i)).length = l.length := by
  induction l with
  | nil => rfl
  | cons x l ih => cases h : p x <;> simp [h] <;> omega

theorem req_add_bag (infos : List Info) :
    (requiredIdx infos).length + (bag infos false).length = infos.length := by
  have := filter_length_add (req infos) (List.range infos.length)
  rw [List.length_range] at this
  exact this

theorem map_range_get {α β} (f : Option α → β) (l : List α) :
    (List.range l.length).map (fun i => f (l[i]?)) = l.map (fun x => f (some x)) := by
  apply List.ext_getElem?
  intro i
  rw [List.getElem?_map, List.getElem?_map]
  rcases Nat.lt_or_ge i l.length with h | h
  · rw [List.getElem?_range h, List.getElem?_eq_getElem h]
    simp [List.getElem?_eq_getElem h]
  · rw [List.getElem?_eq_none (by simpa using h), List.getElem?_eq_none h]; rfl

theorem requiredIdx_length (infos : List Info) :
    (requiredIdx infos).length = infos.countP Info.required := by
  rw [requiredIdx_eq, ← List.countP_eq_length_filter]
  have : List.countP (req infos) (List.range infos.length) =
      List.countP id ((List.range infos.length).map (req infos)) := by
    rw [List.countP_map]; rfl
  rw [this]
  have h2 : (List.range infos.length).map (req infos) = infos.map Info.required := by
    have := map_range_get (fun o : Option Info => (o.map Info.required).getD false) infos
    exact this
  rw [h2, List.countP_map]
  rfl

theorem sorted_nodup_range : ∀ (n : Nat) (p : List Nat), p.Pairwise (· ≤ ·) → p.Nodup →
    (∀ i ∈ p, i < n) → p.length = n → p = List.range n := by
  intro n
  induction n with
  | zero => intro p _ _ _ h; simpa using h
  | succ n ih =>
    intro p hs hn hl hlen
    rcases List.eq_nil_or_concat p with e | ⟨q, x, e⟩
    · subst e; simp at hlen
    · subst e
      rw [List.concat_eq_append] at *
      rw [List.pairwise_append] at hs
      rw [List.nodup_append] at hn
      simp only [List.length_append, List.length_cons, List.length_nil] at hlen
      have hq : ∀ i ∈ q, i < n := by
        intro i hi
        have h1 := hs.2.2 i hi x (by simp)
        have h2 := hn.2.2 i hi x (by simp)
        have h3 := hl x (by simp)
        omega
      have := ih q hs.1 hn.1 hq (by omega)
      rw [this, List.range_succ]
      congr 1
      have h3 := hl x (by simp)
      have h4 : x ∉ q := fun h => hn.2.2 x h x (by simp) rfl
      rw [this, List.mem_range] at h4
      simp; omega

/-- Steps 1 to 3 give a legal choice. -/
theorem picks_ok {sel : Option Sel} {infos : List Info} {t : Int} {repl : Bool} {picks : List Nat}
    {s s' : Src} (ht : target sel infos.length = (some t, repl))
    (h1 : ¬ ((requiredIdx infos).length : Int) > t)
    (h2 : topUp repl (t - (requiredIdx infos).length).toNat (bag infos repl)
      (requiredIdx infos) s = .ok (picks, s')) :
    Picks sel infos (sortNat picks) := by
  obtain ⟨more, e1, e2, e3, e4⟩ := topUp_spec _ _ _ _ _ _ _ h2
  have hp := sortNat_perm picks
  have hlt : ∀ i ∈ sortNat picks, i < infos.length := by
    intro i hi
    have := hp.subset hi
    rw [e1, List.mem_append] at this
    rcases this with h | h
    · rw [requiredIdx_eq] at h; exact List.mem_range.1 (List.mem_filter.1 h).1
    · exact bag_lt (e3 i h)
  have hlen : ((sortNat picks).length : Int) = t := by
    rw [hp.length_eq, e1, List.length_append, e2]
    omega
  have hnd : repl = false → (sortNat picks).Nodup := by
    intro hr
    refine hp.symm.nodup ?_
    rw [e1, List.nodup_append]
    refine ⟨by rw [requiredIdx_eq]; exact List.nodup_range.filter _, e4 hr (bag_nodup _ _), ?_⟩
    intro a ha b hb
    have hb' := e3 b hb
    subst hr
    unfold bag at hb'
    simp only [Bool.false_eq_true, if_false, List.mem_filter] at hb'
    rw [requiredIdx_eq, List.mem_filter] at ha
    intro e; subst e
    have h1 := ha.2; have h2 := hb'.2
    unfold req at h1
    rw [h1] at h2
    cases h2
  refine ⟨sortNat_sorted _, hlt, ?_, ?_⟩
  · intro i c hc hr
    apply hp.symm.subset
    rw [e1]
    exact List.mem_append_left _ (mem_requiredIdx.2 ⟨c, hc, hr⟩)
  · unfold target at ht
    cases sel with
    | none =>
      simp only [Prod.mk.injEq, Option.some.injEq] at ht ⊢
      exact sorted_nodup_range _ _ (sortNat_sorted _) (hnd ht.2.symm) hlt (by omega)
    | some x =>
      simp only [Prod.mk.injEq] at ht ⊢
      exact ⟨by rw [ht.1, hlen], fun h => hnd (by rw [← ht.2, h])⟩

end Verif.Form

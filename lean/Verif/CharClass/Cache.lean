import Verif.CharClass.Subtract
/-! # Whole-class operations, histories and the block cache -/
namespace Verif.CharClass

theorem between_self {r : Range} (h : r.1 ≤ r.2) (c : Nat) : Between r.1 r.2 c ↔ r.1 ≤ c ∧ c ≤ r.2 := by
  unfold Between; omega

theorem foldl_addRange_spec (cs : List Range) (hcs : ∀ r ∈ cs, r.1 ≤ r.2) {rs : List Range}
    (h : Canon rs) : Canon (cs.foldl (fun acc r => addRange acc r.1 r.2) rs) ∧
      ∀ c, Mem (cs.foldl (fun acc r => addRange acc r.1 r.2) rs) c ↔ Mem rs c ∨ Mem cs c := by
  induction cs generalizing rs with
  | nil => simp [h, mem_nil]
  | cons r cs ih =>
    obtain ⟨h1, h2⟩ := addRange_spec h r.1 r.2
    obtain ⟨h3, h4⟩ := ih (fun r hr => hcs r (by simp [hr])) h1
    refine ⟨h3, fun c => ?_⟩
    simp only [List.foldl_cons]
    rw [h4, h2, mem_cons, between_self (hcs r (by simp)), or_assoc]

theorem subtractClass_spec (cs : List Range) (hcs : ∀ r ∈ cs, r.1 ≤ r.2) {rs : List Range}
    (h : Canon rs) : Canon (subtractClass rs cs) ∧
      ∀ c, Mem (subtractClass rs cs) c ↔ Mem rs c ∧ ¬ Mem cs c := by
  unfold subtractClass
  induction cs generalizing rs with
  | nil => simp [h, mem_nil]
  | cons r cs ih =>
    obtain ⟨h1, h2⟩ := subtractRange_spec h r.1 r.2
    obtain ⟨h3, h4⟩ := ih (fun r hr => hcs r (by simp [hr])) h1
    refine ⟨h3, fun c => ?_⟩
    simp only [List.foldl_cons]
    rw [h4, h2, mem_cons, between_self (hcs r (by simp))]
    grind

theorem addClass_spec {rs cs : List Range} (h : Canon rs) (hc : Canon cs) :
    Canon (addClass rs cs) ∧ ∀ c, Mem (addClass rs cs) c ↔ Mem rs c ∨ Mem cs c := by
  unfold addClass
  by_cases he : rs = []
  · subst he; simp [hc, mem_nil]
  · have he' : rs.isEmpty = false := by simp [he]
    simp only [he', Bool.false_eq_true, if_false]
    exact foldl_addRange_spec cs hc.1 h

theorem negate_spec {rs : List Range} (h : Canon rs) :
    Canon (negate rs) ∧ ∀ c, Mem (negate rs) c ↔ c ≤ maxunicode ∧ ¬ Mem rs c := by
  unfold negate
  obtain ⟨h1, h2⟩ := addRange_spec canon_nil 0 maxunicode
  obtain ⟨h3, h4⟩ := subtractClass_spec rs h.1 h1
  refine ⟨h3, fun c => ?_⟩
  rw [h4, h2, mem_nil, false_or]
  have : Between 0 maxunicode c ↔ c ≤ maxunicode := by unfold Between maxunicode; omega
  rw [this]

theorem hist_spec (h : Hist) : Canon h.ranges ∧ ∀ c, Mem h.ranges c ↔ h.set c := by
  induction h with
  | new => simp [Hist.ranges, Hist.set, canon_nil, mem_nil]
  | addChar h c ih =>
    obtain ⟨h1, h2⟩ := addChar_spec ih.1 c
    exact ⟨h1, fun c => by simp only [Hist.ranges, applyOp, Hist.set, h2, ih.2]⟩
  | addRange h a z ih =>
    obtain ⟨h1, h2⟩ := addRange_spec ih.1 a z
    exact ⟨h1, fun c => by simp only [Hist.ranges, applyOp, Hist.set, h2, ih.2]⟩
  | addClass h k ih ihk =>
    obtain ⟨h1, h2⟩ := addClass_spec ih.1 ihk.1
    exact ⟨h1, fun c => by simp only [Hist.ranges, applyOp, Hist.set, h2, ih.2, ihk.2]⟩
  | subtractChar h c ih =>
    obtain ⟨h1, h2⟩ := subtractChar_spec ih.1 c
    exact ⟨h1, fun c => by simp only [Hist.ranges, applyOp, Hist.set, h2, ih.2]⟩
  | subtractRange h a z ih =>
    obtain ⟨h1, h2⟩ := subtractRange_spec ih.1 a z
    exact ⟨h1, fun c => by simp only [Hist.ranges, applyOp, Hist.set, h2, ih.2]⟩
  | subtractClass h k ih ihk =>
    obtain ⟨h1, h2⟩ := subtractClass_spec k.ranges ihk.1.1 ih.1
    exact ⟨h1, fun c => by simp only [Hist.ranges, applyOp, Hist.set, h2, ih.2, ihk.2]⟩
  | negate h ih =>
    obtain ⟨h1, h2⟩ := negate_spec ih.1
    exact ⟨h1, fun c => by simp only [Hist.ranges, applyOp, Hist.set, h2, ih.2]⟩

theorem testSlow_iff {rs : List Range} (h : Canon rs) (c : Nat) : testSlow rs c = true ↔ Mem rs c := by
  unfold testSlow
  by_cases he : rs = []
  · subst he; simp [mem_nil]
  · have he' : rs.isEmpty = false := by simp [he]
    simp only [he', Bool.false_eq_true, if_false]
    exact found_mem (search_found h he c)

/-- Canonical lists with the same members are equal. -/
theorem canon_unique {xs ys : List Range} (hx : Canon xs) (hy : Canon ys)
    (hm : ∀ c, Mem xs c ↔ Mem ys c) : xs = ys := by
  induction xs generalizing ys with
  | nil =>
    cases ys with
    | nil => rfl
    | cons y ys =>
      rw [canon_cons] at hy
      have := (hm y.1).2 ((mem_cons _ _ _).2 (Or.inl ⟨by omega, hy.1⟩))
      simp [mem_nil] at this
  | cons x xs ih =>
    cases ys with
    | nil =>
      rw [canon_cons] at hx
      have := (hm x.1).1 ((mem_cons _ _ _).2 (Or.inl ⟨by omega, hx.1⟩))
      simp [mem_nil] at this
    | cons y ys =>
      rw [canon_cons] at hx hy
      have hxs : ∀ c, Mem xs c → x.2 + 1 < c := by
        rintro c ⟨n, hn, h1, _⟩; have := hx.2.1 n hn; omega
      have hys : ∀ c, Mem ys c → y.2 + 1 < c := by
        rintro c ⟨n, hn, h1, _⟩; have := hy.2.1 n hn; omega
      have hm' : ∀ c, ((x.1 ≤ c ∧ c ≤ x.2) ∨ Mem xs c) ↔ ((y.1 ≤ c ∧ c ≤ y.2) ∨ Mem ys c) := by
        intro c; rw [← mem_cons, ← mem_cons]; exact hm c
      have h1 : x.1 = y.1 := by
        apply Nat.le_antisymm
        · rcases (hm' y.1).2 (Or.inl ⟨by omega, hy.1⟩) with h | h
          · exact h.1
          · have := hxs _ h; omega
        · rcases (hm' x.1).1 (Or.inl ⟨by omega, hx.1⟩) with h | h
          · exact h.1
          · have := hys _ h; omega
      have h2 : x.2 = y.2 := by
        apply Nat.le_antisymm
        · apply Classical.byContradiction; intro hc
          rcases (hm' (y.2 + 1)).1 (Or.inl ⟨by omega, by omega⟩) with h | h
          · omega
          · have := hys _ h; omega
        · apply Classical.byContradiction; intro hc
          rcases (hm' (x.2 + 1)).2 (Or.inl ⟨by omega, by omega⟩) with h | h
          · omega
          · have := hxs _ h; omega
      have hxy : x = y := Prod.ext h1 h2
      subst hxy
      congr 1
      apply ih hx.2.2 hy.2.2
      intro c
      constructor
      · intro h
        rcases (hm' c).1 (Or.inr h) with h' | h'
        · have := hxs _ h; omega
        · exact h'
      · intro h
        rcases (hm' c).2 (Or.inr h) with h' | h'
        · have := hys _ h; omega
        · exact h'

/-! ## The block cache -/

/-- Loop invariant of the block filling loop: the loop variables describe the last character. -/
structure FillInv (rs : List Range) (c : Nat) (s : Fill) : Prop where
  below : ∀ x ∈ rs.take s.index, x.2 < c
  rm : s.rmatch = rs[s.index]?
  hit : s.isMatch = true → ∃ r, rs[s.index]? = some r ∧ r.1 ≤ c ∧ c ≤ r.2
  miss : s.isMatch = false → ∀ x ∈ rs.drop s.index, c < x.1

theorem found_fillInv {rs : List Range} {c : Nat} {m : Bool} {i : Nat} (f : Found rs c m i) :
    FillInv rs c { isMatch := m, index := i, rmatch := rangeAt rs i } := by
  refine ⟨f.below, rfl, ?_, f.miss⟩
  intro hm
  obtain ⟨r, B, hd, h⟩ := f.hit hm
  refine ⟨r, ?_, h⟩
  have := congrArg (·[0]?) hd
  simpa using this

theorem drop_of_get {rs : List Range} {i : Nat} {r : Range} (h : rs[i]? = some r) :
    rs.drop i = r :: rs.drop (i + 1) := by
  obtain ⟨hi, rfl⟩ := List.getElem?_eq_some_iff.1 h
  exact List.drop_eq_getElem_cons hi

theorem fillInv_mem {rs : List Range} {c : Nat} {s : Fill} (f : FillInv rs c s) :
    s.isMatch = true ↔ Mem rs c := by
  constructor
  · intro hm
    obtain ⟨r, hr, h⟩ := f.hit hm
    exact ⟨r, List.mem_of_getElem? hr, h⟩
  · rintro ⟨r, hr, h1, h2⟩
    cases hm : s.isMatch with
    | true => rfl
    | false =>
      rw [← List.take_append_drop s.index rs, List.mem_append] at hr
      rcases hr with hr | hr
      · have := f.below r hr; omega
      · have := f.miss hm r hr; omega

theorem fillStep_spec {rs : List Range} (hc : Canon rs) {c : Nat} {s : Fill} (f : FillInv rs c s) :
    FillInv rs (c + 1) (fillStep rs (c + 1) s).1 ∧
      ((fillStep rs (c + 1) s).2 = (fillStep rs (c + 1) s).1.isMatch) := by
  have enter : ∀ t : Fill, t.isMatch = false → (∀ x ∈ rs.take t.index, x.2 < c + 1) →
      t.rmatch = rs[t.index]? → (∀ x ∈ rs.drop t.index, c < x.1) →
      FillInv rs (c + 1) ((match t.rmatch with
        | some r => if c + 1 ≥ r.1 then ({ t with isMatch := true }, true) else (t, false)
        | none => (t, false)) : Fill × Bool).1 ∧
      ((match t.rmatch with
        | some r => if c + 1 ≥ r.1 then ({ t with isMatch := true }, true) else (t, false)
        | none => (t, false)) : Fill × Bool).2 = ((match t.rmatch with
        | some r => if c + 1 ≥ r.1 then ({ t with isMatch := true }, true) else (t, false)
        | none => (t, false)) : Fill × Bool).1.isMatch := by
    intro t htm hbelow hrm hmiss
    cases hr : t.rmatch with
    | none =>
      simp only
      refine ⟨⟨hbelow, hrm, by simp [htm], ?_⟩, by simp [htm]⟩
      intro _ x hx
      rw [hrm] at hr
      rw [List.getElem?_eq_none_iff] at hr
      rw [List.drop_of_length_le hr] at hx
      simp at hx
    | some r =>
      rw [hrm] at hr
      have hd := drop_of_get hr
      have hr1 := hmiss r (by rw [hd]; simp)
      have hr2 := hc.1 r (List.mem_of_getElem? hr)
      simp only
      split
      · rename_i hge
        refine ⟨⟨hbelow, hr.symm, fun _ => ⟨r, hr, hge, by omega⟩, by simp⟩, rfl⟩
      · rename_i hge
        refine ⟨⟨hbelow, hrm, by simp [htm], ?_⟩, by simp [htm]⟩
        intro _ x hx
        rw [hd] at hx
        rcases List.mem_cons.1 hx with rfl | hx
        · omega
        · have h1 : Canon (rs.drop t.index) := by
            have := hc
            rw [← List.take_append_drop t.index rs, canon_append] at this
            exact this.2.1
          rw [hd, canon_cons] at h1
          have := h1.2.1 x hx; omega
  unfold fillStep
  dsimp only
  cases hm : s.isMatch with
  | false =>
    simp only [Bool.false_eq_true, if_false]
    exact enter s hm (fun x hx => by have := f.below x hx; omega) f.rm (f.miss hm)
  | true =>
    simp only [if_true]
    obtain ⟨r, hr, h1, h2⟩ := f.hit hm
    have hrm : s.rmatch = some r := by rw [f.rm, hr]
    have hd := drop_of_get hr
    have hcd : Canon (rs.drop s.index) := by
      have := hc
      rw [← List.take_append_drop s.index rs, canon_append] at this
      exact this.2.1
    rw [hd, canon_cons] at hcd
    simp only [hrm]
    split
    · rename_i hgt
      apply enter { isMatch := false, index := s.index + 1, rmatch := rangeAt rs (s.index + 1) } rfl
      · intro x hx
        rw [List.take_succ_eq_append_getElem (List.getElem?_eq_some_iff.1 hr).1] at hx
        rcases List.mem_append.1 hx with hx | hx
        · have := f.below x hx; omega
        · have := (List.getElem?_eq_some_iff.1 hr).2
          simp only [List.mem_singleton] at hx
          rw [hx, this]; omega
      · rfl
      · intro x hx
        have := hcd.2.1 x hx; omega
    · rename_i hgt
      refine ⟨⟨fun x hx => by have := f.below x hx; omega, f.rm, fun _ => ⟨r, hr, by omega, by omega⟩,
        by simp [hm]⟩, by simp [hm]⟩

theorem fillLoop_spec {rs : List Range} (hc : Canon rs) (n : Nat) : ∀ (c : Nat) (s : Fill),
    FillInv rs c s → ∀ k, k < n → ((fillLoop rs n c s).getD k false = true ↔ Mem rs (c + 1 + k)) := by
  induction n with
  | zero => intro c s f k hk; omega
  | succ n ih =>
    intro c s f k hk
    obtain ⟨h1, h2⟩ := fillStep_spec hc f
    cases k with
    | zero =>
      simp only [fillLoop, List.getD_cons_zero, Nat.add_zero]
      rw [h2]; exact fillInv_mem h1
    | succ k =>
      simp only [fillLoop, List.getD_cons_succ]
      rw [ih _ _ h1 k (by omega)]
      rw [show c + 1 + 1 + k = c + 1 + (k + 1) by omega]

theorem buildBlock_spec {rs : List Range} (hc : Canon rs) (hne : rs ≠ []) (b k : Nat) (hk : k < 256) :
    (buildBlock rs b).getD k false = true ↔ Mem rs (b * 256 + k) := by
  have f := found_fillInv (search_found hc hne (b * 256))
  unfold buildBlock
  cases k with
  | zero => simp only [List.getD_cons_zero, Nat.add_zero]; exact fillInv_mem f
  | succ k =>
    simp only [List.getD_cons_succ]
    rw [fillLoop_spec hc 255 _ _ f k (by omega)]
    rw [show b * 256 + 1 + k = b * 256 + (k + 1) by omega]

/-- Every cached block is the block of the current ranges. -/
def Coherent (o : Obj) : Prop :=
  Canon o.ranges ∧ o.cache.length = 256 ∧
    ∀ b block, o.cache[b]? = some (some block) →
      ∀ k, k < 256 → (block.getD k false = true ↔ Mem o.ranges (b * 256 + k))

theorem coherent_empty {rs : List Range} (h : Canon rs) : Coherent ⟨rs, emptyCache⟩ := by
  refine ⟨h, List.length_replicate, ?_⟩
  intro b block hb
  rw [emptyCache, List.getElem?_replicate] at hb
  split at hb <;> simp at hb

theorem test_spec {o : Obj} (h : Coherent o) (c : Nat) :
    Coherent (o.test c).1 ∧ (o.test c).1.ranges = o.ranges ∧ ((o.test c).2 = true ↔ Mem o.ranges c) := by
  obtain ⟨hc, hl, hb⟩ := h
  unfold Obj.test
  by_cases he : o.ranges = []
  · simp only [he, List.isEmpty_nil, if_true]
    refine ⟨⟨hc, hl, hb⟩, trivial, ?_⟩
    simp [mem_nil]
  have he' : o.ranges.isEmpty = false := by simp [he]
  simp only [he', Bool.false_eq_true, if_false]
  have hmod : c / 256 * 256 + c % 256 = c := by omega
  split
  · exact ⟨⟨hc, hl, hb⟩, rfl, found_mem (search_found hc he c)⟩
  · rename_i hcell
    refine ⟨⟨hc, by simp [hl], ?_⟩, rfl, ?_⟩
    · intro b block hblk k hk
      simp only at hblk
      rw [List.getElem?_set] at hblk
      split at hblk
      · rename_i heq
        subst heq
        split at hblk
        · simp only [Option.some.injEq] at hblk
          subst hblk
          exact buildBlock_spec hc he _ k hk
        · simp at hblk
      · exact hb b block hblk k hk
    · rw [buildBlock_spec hc he _ _ (by omega), hmod]
  · rename_i block hcell
    refine ⟨⟨hc, hl, hb⟩, rfl, ?_⟩
    rw [hb _ _ hcell _ (by omega), hmod]

theorem applyOp_canon {rs : List Range} (h : Canon rs) (op : Op) (hop : op.Legal) :
    Canon (applyOp rs op) := by
  cases op with
  | addChar c => exact (addChar_spec h c).1
  | addRange a z => exact (addRange_spec h a z).1
  | addClass cs => obtain ⟨k, rfl⟩ := hop; exact (addClass_spec h (hist_spec k).1).1
  | subtractChar c => exact (subtractChar_spec h c).1
  | subtractRange a z => exact (subtractRange_spec h a z).1
  | subtractClass cs => obtain ⟨k, rfl⟩ := hop; exact (subtractClass_spec _ (hist_spec k).1.1 h).1
  | negate => exact (negate_spec h).1

/-- When the cache is not cleared nothing changed. -/
theorem not_clears {rs : List Range} {op : Op} (h : clearsCache rs op = false) : applyOp rs op = rs := by
  cases op with
  | addRange a z =>
    simp only [clearsCache, decide_eq_false_iff_not, Classical.not_not, Bool.and_eq_true,
      Bool.not_eq_true', beq_iff_eq] at h
    obtain ⟨⟨⟨h1, h2⟩, h3⟩, h4⟩ := h
    simp only [applyOp, addRange]
    rw [h1, h2, h3, if_pos h4]; simp
  | _ => simp [clearsCache] at h

theorem step_coherent {o : Obj} (h : Coherent o) (e : Event) (he : e.Legal) : Coherent (o.step e) := by
  cases e with
  | tst c => exact (test_spec h c).1
  | mutate op =>
    have hcan := applyOp_canon h.1 op he
    simp only [Obj.step, Obj.apply]
    cases hcl : clearsCache o.ranges op with
    | true => simpa using coherent_empty hcan
    | false => simp only [Bool.false_eq_true, if_false]; rw [not_clears hcl]; exact h

theorem foldl_coherent (evs : List Event) (hl : ∀ e ∈ evs, e.Legal) : ∀ o, Coherent o →
    Coherent (evs.foldl Obj.step o) := by
  induction evs with
  | nil => intro o h; exact h
  | cons e evs ih =>
    intro o h
    exact ih (fun e he => hl e (by simp [he])) _ (step_coherent h e (hl e (by simp)))

theorem run_coherent (evs : List Event) (hl : ∀ e ∈ evs, e.Legal) : Coherent (Obj.run evs) :=
  foldl_coherent evs hl _ (coherent_empty canon_nil)

end Verif.CharClass

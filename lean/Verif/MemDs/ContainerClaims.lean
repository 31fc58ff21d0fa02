import Verif.MemDs.ContainerProps

/-!
# Histories of a container (C72) and deletion (C73)
-/
namespace Verif.MemDs

variable {K V : Type} [DecidableEq K]

theorem loopM_ind {S X : Type} (f : S → X → S × Res) (P : S → Prop) : ∀ (xs : List X) (s : S), P s →
    (∀ s x, x ∈ xs → P s → P (f s x).1) → P (loopM f s xs).1
  | [], s, h, _ => h
  | x :: xs, s, h, hf => by
    have h1 := hf s x (by simp) h
    unfold loopM
    split
    · rename_i s' heq
      rw [heq] at h1
      exact loopM_ind f P xs s' h1 (fun s y hy => hf s y (by simp [hy]))
    · exact h1

/-! ## Inserting and updating -/

omit [DecidableEq K] in
theorem SameData.exists_iff {s s' : St K V} (h : SameData s s') (n : Nat) (k : K) :
    Exists s' n k ↔ Exists s n k := by unfold Exists; rw [h.1]

omit [DecidableEq K] in
theorem SameData.trans {s s' s'' : St K V} (h : SameData s s') (h' : SameData s' s'') :
    SameData s s'' := ⟨h'.1.trans h.1, h'.2.1.trans h.2.1, h'.2.2.trans h.2.2⟩

/-- A binding of a navigation property of `set`, to a collection or from an end that is not
"zero or one". -/
def GoodBinding (sch : Schema) (set : Nat) (b : Binding K) : Prop :=
  ∀ a, sch[b.aid]? = some a → a.srcSet b.reverse = set ∧
    (a.tgtMult b.reverse = .many ∨ a.srcMult b.reverse ≠ .zeroToOne)

theorem bindOne_spec {sch : Schema} {s : St K V} (hi : Inv sch s) (set : Nat) (self : K)
    (b : Binding K) (hb : GoodBinding sch set b) (hs : Exists s set self) (key : K) :
    Inv sch (bindOne sch self b s key).1 ∧ SameData s (bindOne sch self b s key).1 := by
  unfold bindOne
  cases ha : sch[b.aid]? with
  | none => exact ⟨hi, rfl, rfl, rfl⟩
  | some a =>
    dsimp only
    have hg := hb a ha
    have hs' : Exists s (a.srcSet b.reverse) self := by rw [hg.1]; exact hs
    split
    · exact ⟨hi, rfl, rfl, rfl⟩
    · rename_i hx
      have ht : Exists s (a.tgtSet b.reverse) key := by
        unfold Exists
        cases hd : s.data (a.tgtSet b.reverse) key with
        | none => rw [hd] at hx; simp at hx
        | some v => rfl
      split
      · exact navSet_spec hi ha b.reverse self key hs'
      · rename_i hm
        refine navReplace_spec hi ha b.reverse self key hs' ht ?_
        intro hz
        rcases hg.2 with h | h
        · exact absurd h hm
        · exact absurd hz h

theorem updateBindings_spec {sch : Schema} {s : St K V} (hi : Inv sch s) (set : Nat) (self : K)
    (bs : List (Binding K)) (hb : ∀ b ∈ bs, GoodBinding sch set b) (hs : Exists s set self) :
    Inv sch (updateBindings sch self bs s).1 ∧ SameData s (updateBindings sch self bs s).1 := by
  unfold updateBindings
  apply loopM_ind (bindAll sch self) (fun s' => Inv sch s' ∧ SameData s s') bs s ⟨hi, rfl, rfl, rfl⟩
  intro s1 b hbm h1
  unfold bindAll
  apply loopM_ind (bindOne sch self b) (fun s' => Inv sch s' ∧ SameData s s') b.keys s1 h1
  intro s2 key _ h2
  have := bindOne_spec h2.1 set self b (hb b hbm) ((h2.2.exists_iff set self).2 hs) key
  exact ⟨this.1, h2.2.trans this.2⟩

theorem putData_exists (s : St K V) (set : Nat) (key : K) (v : V) (n : Nat) (k : K) :
    Exists (s.putData set key v) n k ↔ (n = set ∧ k = key) ∨ Exists s n k := by
  unfold Exists St.putData put
  dsimp only
  by_cases hn : n = set
  · rw [if_pos hn]
    by_cases hk : k = key
    · simp [hn, hk]
    · simp [hk]
  · rw [if_neg hn]; simp [hn]

theorem inv_putData {sch : Schema} {s : St K V} (hi : Inv sch s) (set : Nat) (key : K) (v : V) :
    Inv sch (s.putData set key v) where
  ok := hi.ok
  ends n a ha x y h := by
    have := hi.ends n a ha x y h
    exact ⟨(putData_exists ..).2 (Or.inr this.1), (putData_exists ..).2 (Or.inr this.2)⟩
  to1 := hi.to1
  from1 := hi.from1
  streams n k h := (putData_exists ..).2 (Or.inr (hi.streams n k h))

theorem insert_spec {sch : Schema} {s : St K V} (hi : Inv sch s) (set : Nat) (key : K) (v : V)
    (bs : List (Binding K)) (hb : ∀ b ∈ bs, GoodBinding sch set b) (ig : Option (Nat × Bool)) :
    Inv sch (insertEntity sch s set key v bs ig).1 ∧
      (insertEntity sch s set key v bs ig).1.deleting = s.deleting ∧
      (∀ n k, Exists s n k → Exists (insertEntity sch s set key v bs ig).1 n k) := by
  unfold insertEntity
  split
  · split
    · exact ⟨hi, rfl, fun _ _ h => h⟩
    · have h := updateBindings_spec (inv_putData hi set key v) set key bs hb
        ((putData_exists ..).2 (Or.inl ⟨rfl, rfl⟩))
      exact ⟨h.1, h.2.2.2, fun n k hk => (h.2.exists_iff n k).2 ((putData_exists ..).2 (Or.inr hk))⟩
  · exact ⟨hi, rfl, fun _ _ h => h⟩

/-! ## Deletion -/

/-- Deleting the first entity requires deleting the second: they are linked in an association whose
end at the first is required. -/
def Casc (sch : Schema) (s : St K V) (p q : Nat × K) : Prop :=
  ∃ (aid : Nat) (a : Assoc) (isTo : Bool), sch[aid]? = some a ∧ a.endSet isTo = p.1 ∧
    a.endMult isTo = .one ∧
    q.1 = a.tgtSet (decide (a.fromSet ≠ p.1)) ∧ Lk s aid (decide (a.fromSet ≠ p.1)) p.2 q.2

/-- Everything a deletion can reach. -/
def Reach (sch : Schema) (s : St K V) : Nat × K → Nat × K → Prop := Relation.ReflTransGen (Casc sch s)

omit [DecidableEq K] in
theorem Lk_mono {s s' : St K V} (h : ∀ n x y, L s' n x y → L s n x y) {n : Nat} {rev : Bool}
    {x y : K} (hl : Lk s' n rev x y) : Lk s n rev x y := by
  unfold Lk at *
  cases rev with
  | false => exact h _ _ _ hl
  | true => exact h _ _ _ hl

omit [DecidableEq K] in
theorem reach_mono {sch : Schema} {s s' : St K V} (h : ∀ n x y, L s' n x y → L s n x y)
    {p q : Nat × K} (hr : Reach sch s' p q) : Reach sch s p q := by
  refine Relation.ReflTransGen.mono ?_ _ _ hr
  rintro a b ⟨aid, as, isTo, h1, h2, h3, h4, h5⟩
  exact ⟨aid, as, isTo, h1, h2, h3, h4, Lk_mono h h5⟩

/-- What a deletion started at `root` may have done on the way from `s0` to `s`. -/
structure Del (sch : Schema) (root : Nat × K) (s0 s : St K V) : Prop where
  inv : Inv sch s
  links : ∀ n x y, L s n x y → L s0 n x y
  data : ∀ n k, s.data n k = s0.data n k ∨ (s.data n k = none ∧ Reach sch s0 root (n, k))
  streams : ∀ n k, s.streams n k = s0.streams n k ∨ (s.data n k = none ∧ s.streams n k = none)
  deleting : s.deleting = s0.deleting
  keep : ∀ n k, (n, k) ∈ s0.deleting → s.data n k = s0.data n k

theorem mem_linkEnds {sch : Schema} {set : Nat} {e : Nat × Bool × Assoc}
    (h : e ∈ linkEnds sch set) :
    sch[e.1]? = some e.2.2 ∧ e.2.2.endSet e.2.1 = set := by
  unfold linkEnds at h
  rw [List.mem_flatMap] at h
  obtain ⟨⟨a, aid⟩, hm, he⟩ := h
  have hget : sch[aid]? = some a := by
    rw [List.mem_iff_getElem?] at hm
    obtain ⟨i, hi⟩ := hm
    rw [List.getElem?_zipIdx] at hi
    cases hs : sch[i]? with
    | none => rw [hs] at hi; cases hi
    | some b =>
      rw [hs] at hi
      simp at hi
      obtain ⟨rfl, rfl⟩ := hi
      exact hs
  dsimp only at he
  rw [List.mem_append] at he
  rcases he with he | he
  · split at he
    · rename_i hf; simp at he; subst he; exact ⟨hget, hf⟩
    · simp at he
  · split at he
    · rename_i hf; simp at he; subst he; exact ⟨hget, hf⟩
    · simp at he

theorem hooks_spec (a : Assoc) (set : Nat) (key : K) (i : Index K K) (h : i.Ok) :
    (hooks a set key i).Ok ∧ ∀ x y, y ∈ (hooks a set key i).linksFrom x ↔
      ¬ (a.fromSet = set ∧ x = key) ∧ ¬ (a.toSet = set ∧ y = key) ∧ y ∈ i.linksFrom x := by
  unfold hooks
  dsimp only
  by_cases hf : a.fromSet = set
  · have h1 := deleteHook_spec i h key
    rw [if_pos hf]
    by_cases ht : a.toSet = set
    · rw [if_pos ht]
      have h2 := rdeleteHook_spec (i.deleteHook key) h1.2 key
      refine ⟨h2.2, fun x y => ?_⟩
      rw [h2.1, h1.1]; simp [hf, ht]; tauto
    · rw [if_neg ht]
      refine ⟨h1.2, fun x y => ?_⟩
      rw [h1.1]; simp [hf, ht]
  · rw [if_neg hf]
    by_cases ht : a.toSet = set
    · rw [if_pos ht]
      have h2 := rdeleteHook_spec i h key
      refine ⟨h2.2, fun x y => ?_⟩
      rw [h2.1]; simp [hf, ht]
    · rw [if_neg ht]
      exact ⟨h, fun x y => by simp [hf, ht]⟩

theorem deleteEntity_data (sch : Schema) (s : St K V) (set : Nat) (key : K) (n : Nat) (k : K) :
    (deleteEntity sch s set key).data n k = if n = set ∧ k = key then none else s.data n k := by
  unfold deleteEntity del
  dsimp only
  by_cases hn : n = set
  · rw [if_pos hn]; by_cases hk : k = key <;> simp [hn, hk]
  · rw [if_neg hn]; simp [hn]

theorem deleteEntity_streams (sch : Schema) (s : St K V) (set : Nat) (key : K) (n : Nat) (k : K) :
    (deleteEntity sch s set key).streams n k = if n = set ∧ k = key then none else s.streams n k := by
  unfold deleteEntity del
  dsimp only
  by_cases hn : n = set
  · rw [if_pos hn]; by_cases hk : k = key <;> simp [hn, hk]
  · rw [if_neg hn]; simp [hn]

theorem deleteEntity_L {sch : Schema} {s : St K V} (hok : ∀ n, (s.idx n).Ok) (set : Nat) (key : K)
    (n : Nat) (x y : K) (h : L (deleteEntity sch s set key) n x y) :
    L s n x y ∧ ∀ a, sch[n]? = some a →
      ¬ (a.fromSet = set ∧ x = key) ∧ ¬ (a.toSet = set ∧ y = key) := by
  unfold L deleteEntity at h
  dsimp only at h
  cases ha : sch[n]? with
  | none =>
    rw [ha] at h
    exact ⟨h, fun a hc => by cases hc⟩
  | some a =>
    rw [ha] at h
    dsimp only at h
    rw [(hooks_spec a set key _ (hok n)).2] at h
    exact ⟨h.2.2, fun b hb => by injection hb with hb; subst hb; exact ⟨h.1, h.2.1⟩⟩

theorem inv_deleteEntity {sch : Schema} {s : St K V} (hi : Inv sch s) (set : Nat) (key : K) :
    Inv sch (deleteEntity sch s set key) where
  ok n := by
    unfold deleteEntity
    dsimp only
    split
    · exact hi.ok n
    · exact (hooks_spec _ set key _ (hi.ok n)).1
  ends n a ha x y h := by
    have hl := deleteEntity_L hi.ok set key n x y h
    have he := hi.ends n a ha x y hl.1
    have hne := hl.2 a ha
    unfold Exists at *
    rw [deleteEntity_data, deleteEntity_data, if_neg hne.1, if_neg hne.2]
    exact he
  to1 n a ha hm x y y' h1 h2 :=
    hi.to1 n a ha hm x y y' (deleteEntity_L hi.ok set key n x y h1).1
      (deleteEntity_L hi.ok set key n x y' h2).1
  from1 n a ha hm x x' y h1 h2 :=
    hi.from1 n a ha hm x x' y (deleteEntity_L hi.ok set key n x y h1).1
      (deleteEntity_L hi.ok set key n x' y h2).1
  streams n k h := by
    rw [deleteEntity_streams] at h
    unfold Exists
    rw [deleteEntity_data]
    split
    · rename_i hc; rw [if_pos hc] at h; cases h
    · rename_i hc; rw [if_neg hc] at h; exact hi.streams n k h

omit [DecidableEq K] in
theorem del_refl {sch : Schema} {s : St K V} (hi : Inv sch s) (root : Nat × K) : Del sch root s s :=
  ⟨hi, fun _ _ _ h => h, fun _ _ => Or.inl rfl, fun _ _ => Or.inl rfl, rfl, fun _ _ _ => rfl⟩

omit [DecidableEq K] in
theorem inv_deleting {sch : Schema} {s : St K V} (hi : Inv sch s) (d : List (Nat × K)) :
    Inv sch { s with deleting := d } := ⟨hi.ok, hi.ends, hi.to1, hi.from1, hi.streams⟩

theorem delItem_spec (sch : Schema) : ∀ (fuel : Nat) (s : St K V) (set : Nat) (key : K),
    Inv sch s → Del sch (set, key) s (delItem sch fuel s set key).1 ∧
      ((delItem sch fuel s set key).2 = .ok → (set, key) ∈ s.deleting ∨
        (delItem sch fuel s set key).1.data set key = none)
  | 0, s, set, key, hi => ⟨del_refl hi _, fun h => by cases h⟩
  | fuel + 1, s, set, key, hi => by
    unfold delItem
    by_cases hd : (set, key) ∈ s.deleting
    · rw [if_pos hd]; exact ⟨del_refl hi _, fun _ => Or.inl hd⟩
    · rw [if_neg hd]
      by_cases hx : (s.data set key).isNone = true
      · rw [if_pos hx]; exact ⟨del_refl hi _, fun h => by cases h⟩
      · rw [if_neg hx]
        dsimp only
        have hloop : Del sch (set, key) { s with deleting := (set, key) :: s.deleting }
            (loopM (cascadeEnd (delItem sch fuel) set key)
              { s with deleting := (set, key) :: s.deleting } (linkEnds sch set)).1 := by
          apply loopM_ind (cascadeEnd (delItem sch fuel) set key)
            (Del sch (set, key) { s with deleting := (set, key) :: s.deleting })
          · exact del_refl (inv_deleting hi _) _
          · intro s1 e he h1
            have hle := mem_linkEnds he
            unfold cascadeEnd
            split
            · exact h1
            · rename_i hone
              rw [ne_eq, Decidable.not_not] at hone
              apply loopM_ind (cascadeOne (delItem sch fuel) e.2.2 e.1
                (e.2.2.endNav e.2.1)
                (decide (e.2.2.fromSet ≠ set)) key)
                (Del sch (set, key) { s with deleting := (set, key) :: s.deleting })
              · exact h1
              · intro s2 other ho h2
                rw [mem_lookup (h1.inv.ok e.1)] at ho
                have hcasc : Casc sch { s with deleting := (set, key) :: s.deleting } (set, key)
                    (e.2.2.tgtSet (decide (e.2.2.fromSet ≠ set)), other) :=
                  ⟨e.1, e.2.2, e.2.1, hle.1, hle.2, hone, rfl, Lk_mono h1.links ho⟩
                unfold cascadeOne
                split
                · exact h2
                · have hu : Inv sch (s2.unlink e.1 (decide (e.2.2.fromSet ≠ set)) key other) :=
                    inv_fewer h2.inv (unlink_ok h2.inv.ok _ _ _ _)
                      (fun _ _ _ h => unlink_sub h2.inv.ok h) rfl rfl
                  have ih := (delItem_spec sch fuel
                    (s2.unlink e.1 (decide (e.2.2.fromSet ≠ set)) key other)
                    (e.2.2.tgtSet (decide (e.2.2.fromSet ≠ set))) other hu).1
                  have hlinks : ∀ n x y,
                      L (s2.unlink e.1 (decide (e.2.2.fromSet ≠ set)) key other) n x y →
                      L { s with deleting := (set, key) :: s.deleting } n x y :=
                    fun n x y h => h2.links n x y (unlink_sub h2.inv.ok h)
                  refine ⟨ih.inv, fun n x y h => hlinks n x y (ih.links n x y h), ?_, ?_, ?_, ?_⟩
                  · intro n k
                    rcases ih.data n k with h | ⟨h, hr⟩
                    · rw [h]; exact h2.data n k
                    · exact Or.inr ⟨h, Relation.ReflTransGen.head hcasc (reach_mono hlinks hr)⟩
                  · intro n k
                    rcases ih.streams n k with h | h
                    · rw [h]
                      rcases h2.streams n k with h' | h'
                      · exact Or.inl h'
                      · rcases ih.data n k with g | g
                        · exact Or.inr ⟨by rw [g]; exact h'.1, h'.2⟩
                        · exact Or.inr ⟨g.1, h'.2⟩
                    · exact Or.inr h
                  · rw [ih.deleting]; exact h2.deleting
                  · intro n k hk
                    have hk2 : (n, k) ∈ (s2.unlink e.1 (decide (e.2.2.fromSet ≠ set)) key
                        other).deleting := by
                      show (n, k) ∈ s2.deleting
                      rw [h2.deleting]; exact hk
                    rw [ih.keep n k hk2]
                    exact h2.keep n k hk
        generalize loopM (cascadeEnd (delItem sch fuel) set key)
          { s with deleting := (set, key) :: s.deleting } (linkEnds sch set) = r at hloop ⊢
        have hdel : r.1.deleting = (set, key) :: s.deleting := hloop.deleting
        have hreach : ∀ {p q}, Reach sch { s with deleting := (set, key) :: s.deleting } p q →
            Reach sch s p q := fun h => reach_mono (fun _ _ _ h => h) h
        by_cases hr : r.2 = .ok
        · rw [if_pos hr]
          refine ⟨⟨inv_deleting (inv_deleteEntity hloop.inv set key) _, ?_, ?_, ?_, ?_, ?_⟩, ?_⟩
          · intro n x y h
            exact hloop.links n x y (deleteEntity_L hloop.inv.ok set key n x y h).1
          · intro n k
            show (deleteEntity sch r.1 set key).data n k = _ ∨ ((deleteEntity sch r.1 set key).data n k = none ∧ _)
            rw [deleteEntity_data]
            by_cases hc : n = set ∧ k = key
            · rw [if_pos hc]
              right
              refine ⟨rfl, ?_⟩
              rw [hc.1, hc.2]
              exact Relation.ReflTransGen.refl
            · rw [if_neg hc]
              rcases hloop.data n k with h | h
              · exact Or.inl h
              · exact Or.inr ⟨h.1, hreach h.2⟩
          · intro n k
            show (deleteEntity sch r.1 set key).streams n k = _ ∨
              ((deleteEntity sch r.1 set key).data n k = none ∧ (deleteEntity sch r.1 set key).streams n k = none)
            rw [deleteEntity_data, deleteEntity_streams]
            by_cases hc : n = set ∧ k = key
            · rw [if_pos hc, if_pos hc]; exact Or.inr ⟨rfl, rfl⟩
            · rw [if_neg hc, if_neg hc]; exact hloop.streams n k
          · show r.1.deleting.erase (set, key) = s.deleting
            rw [hdel]; simp
          · intro n k hk
            show (deleteEntity sch r.1 set key).data n k = _
            rw [deleteEntity_data]
            rw [if_neg (by rintro ⟨rfl, rfl⟩; exact hd hk)]
            exact hloop.keep n k (by simp [hk])
          · intro _
            right
            show (deleteEntity sch r.1 set key).data set key = none
            rw [deleteEntity_data]; simp
        · rw [if_neg hr]
          refine ⟨⟨inv_deleting hloop.inv _, hloop.links, ?_, hloop.streams, ?_, ?_⟩,
            fun h => absurd h hr⟩
          · intro n k
            rcases hloop.data n k with h | h
            · exact Or.inl h
            · exact Or.inr ⟨h.1, hreach h.2⟩
          · show r.1.deleting.erase (set, key) = s.deleting
            rw [hdel]; simp
          · intro n k hk
            exact hloop.keep n k (by simp [hk])

/-! ## Histories -/

/-- What a caller has to respect for integrity: the entity navigated from exists, a replacement
names an existing entity and does not take it from another source when it may have only one, and
bindings belong to the entity's own navigation properties. -/
def Fresh (sch : Schema) (s : St K V) : Op K V → Prop
  | .insert set _ _ bs => ∀ b ∈ bs, GoodBinding sch set b
  | .update set _ _ bs => ∀ b ∈ bs, GoodBinding sch set b
  | .navInsert aid rev self _ _ bs => ∀ a, sch[aid]? = some a →
      Exists s (a.srcSet rev) self ∧ ∀ b ∈ bs, GoodBinding sch (a.tgtSet rev) b
  | .navSet aid rev self _ => ∀ a, sch[aid]? = some a → Exists s (a.srcSet rev) self
  | .navReplace aid rev self key => ∀ a, sch[aid]? = some a →
      Exists s (a.srcSet rev) self ∧ Exists s (a.tgtSet rev) key ∧ NoSteal a aid rev s self key
  | .navDel _ _ _ _ => True
  | .stream _ _ _ => True
  | .delete _ _ => True

/-- C72, one call: integrity is kept, whether the call succeeds or fails. -/
theorem step_inv {sch : Schema} {s : St K V} (hi : Inv sch s) (depth : Nat) (op : Op K V)
    (hf : Fresh sch s op) :
    Inv sch (step sch depth s op).1 ∧ (step sch depth s op).1.deleting = s.deleting := by
  cases op with
  | insert set key v bs =>
    have := insert_spec hi set key v bs hf none
    exact ⟨this.1, this.2.1⟩
  | update set key f bs =>
    show Inv sch (updateEntity sch s set key f bs).1 ∧ (updateEntity sch s set key f bs).1.deleting = _
    unfold updateEntity
    cases hd : s.data set key with
    | none => exact ⟨hi, rfl⟩
    | some v =>
      dsimp only
      have h := updateBindings_spec (inv_putData hi set key (f v)) set key bs hf
        ((putData_exists ..).2 (Or.inl ⟨rfl, rfl⟩))
      exact ⟨h.1, h.2.2.2⟩
  | stream set key d =>
    show Inv sch (writeStream s set key d).1 ∧ (writeStream s set key d).1.deleting = _
    unfold writeStream
    split
    · exact ⟨hi, rfl⟩
    · rename_i hx
      refine ⟨⟨hi.ok, hi.ends, hi.to1, hi.from1, ?_⟩, rfl⟩
      intro n k h
      show Exists s n k
      dsimp only at h
      by_cases hn : n = set
      · rw [if_pos hn] at h
        unfold put at h
        by_cases hk : k = key
        · subst hn; subst hk
          unfold Exists
          cases hd : s.data n k with
          | none => rw [hd] at hx; simp at hx
          | some v => rfl
        · rw [if_neg hk] at h; exact hi.streams n k h
      · rw [if_neg hn] at h; exact hi.streams n k h
  | navInsert aid rev self key v bs =>
    show Inv sch (withAssoc sch s aid _).1 ∧ (withAssoc sch s aid _).1.deleting = _
    unfold withAssoc
    cases ha : sch[aid]? with
    | none => exact ⟨hi, rfl⟩
    | some a =>
      dsimp only
      obtain ⟨h1, h2⟩ := hf a ha
      have h := insert_spec hi (a.tgtSet rev) key v bs h2 (some (aid, !rev))
      unfold navInsert
      split
      · rename_i s' heq
        rw [heq] at h
        have h3 := navSet_spec h.1 ha rev self key (h.2.2 _ _ h1)
        exact ⟨h3.1, h3.2.2.2.trans h.2.1⟩
      · exact ⟨h.1, h.2.1⟩
  | navSet aid rev self key =>
    show Inv sch (withAssoc sch s aid _).1 ∧ (withAssoc sch s aid _).1.deleting = _
    unfold withAssoc
    cases ha : sch[aid]? with
    | none => exact ⟨hi, rfl⟩
    | some a =>
      have := navSet_spec hi ha rev self key (hf a ha)
      exact ⟨this.1, this.2.2.2⟩
  | navDel aid rev self key =>
    show Inv sch (withAssoc sch s aid _).1 ∧ (withAssoc sch s aid _).1.deleting = _
    unfold withAssoc
    cases ha : sch[aid]? with
    | none => exact ⟨hi, rfl⟩
    | some a =>
      have := navDel_spec hi (aid := aid) (a := a) rev self key
      exact ⟨this.1, this.2.2.2⟩
  | navReplace aid rev self key =>
    show Inv sch (withAssoc sch s aid _).1 ∧ (withAssoc sch s aid _).1.deleting = _
    unfold withAssoc
    cases ha : sch[aid]? with
    | none => exact ⟨hi, rfl⟩
    | some a =>
      obtain ⟨h1, h2, h3⟩ := hf a ha
      have := navReplace_spec hi ha rev self key h1 h2 h3
      exact ⟨this.1, this.2.2.2⟩
  | delete set key =>
    have := (delItem_spec sch depth s set key hi).1
    exact ⟨this.inv, this.deleting⟩

/-- The container after a history of calls, whatever their results. -/
def runOps (sch : Schema) (depth : Nat) : List (Op K V) → St K V → St K V
  | [], s => s
  | op :: ops, s => runOps sch depth ops (step sch depth s op).1

/-- Every call of the history respects `Fresh`. -/
def FreshAll (sch : Schema) (depth : Nat) : List (Op K V) → St K V → Prop
  | [], _ => True
  | op :: ops, s => Fresh sch s op ∧ FreshAll sch depth ops (step sch depth s op).1

omit [DecidableEq K] in
theorem inv_empty (sch : Schema) : Inv sch (St.empty : St K V) where
  ok _ := empty_ok
  ends n a _ x y h := by simp [L, St.empty, Index.empty, Index.linksFrom] at h
  to1 n a _ _ x y y' h := by simp [L, St.empty, Index.empty, Index.linksFrom] at h
  from1 n a _ _ x x' y h := by simp [L, St.empty, Index.empty, Index.linksFrom] at h
  streams n k h := by simp [St.empty] at h

theorem runOps_inv (sch : Schema) (depth : Nat) : ∀ (ops : List (Op K V)) (s : St K V),
    Inv sch s → FreshAll sch depth ops s → Inv sch (runOps sch depth ops s)
  | [], _, hi, _ => hi
  | op :: ops, s, hi, hf => runOps_inv sch depth ops _ (step_inv hi depth op hf.1).1 hf.2

/-- C72: after any history of inserts, updates, links, unlinks, replacements and deletions, failed
calls included, every link joins two existing entities and is seen from both of its ends, and only
existing entities have streams. -/
theorem C72_links_partial (sch : Schema) (depth : Nat) (ops : List (Op K V))
    (hf : FreshAll sch depth ops St.empty) (n : Nat) (a : Assoc) (ha : sch[n]? = some a) (x y : K) :
    (y ∈ (runOps sch depth ops St.empty).lookup n false x ↔
      x ∈ (runOps sch depth ops St.empty).lookup n true y) ∧
    (y ∈ (runOps sch depth ops St.empty).lookup n false x →
      ((runOps sch depth ops St.empty).data a.fromSet x).isSome = true ∧
      ((runOps sch depth ops St.empty).data a.toSet y).isSome = true) := by
  have hi := runOps_inv sch depth ops St.empty (inv_empty sch) hf
  exact ⟨(hi.ok n).mirror x y, fun h => hi.ends n a ha x y h⟩

/-- C72: an entity is never linked to more than one entity through an end that allows one. -/
theorem C72_multiplicity_partial (sch : Schema) (depth : Nat) (ops : List (Op K V))
    (hf : FreshAll sch depth ops St.empty) (n : Nat) (a : Assoc) (ha : sch[n]? = some a) (rev : Bool)
    (hm : a.tgtMult rev ≠ .many) (x : K) :
    ((runOps sch depth ops St.empty).lookup n rev x).length ≤ 1 := by
  have hi := runOps_inv sch depth ops St.empty (inv_empty sch) hf
  have one : ∀ l : List K, l.Nodup → (∀ y ∈ l, ∀ y' ∈ l, y = y') → l.length ≤ 1 := by
    intro l hn h
    rcases l with _ | ⟨y, _ | ⟨y', l⟩⟩
    · simp
    · simp
    · exfalso
      have := h y (by simp) y' (by simp)
      rw [List.nodup_cons] at hn
      apply hn.1; rw [this]; simp
  cases rev with
  | false =>
    exact one _ ((hi.ok n).nodupF x) (fun y h y' h' => hi.to1 n a ha hm x y y' h h')
  | true =>
    refine one _ ((hi.ok n).nodupR x) (fun y h y' h' => ?_)
    exact hi.from1 n a ha hm y y' x (((hi.ok n).mirror y x).2 h) (((hi.ok n).mirror y' x).2 h')

theorem C72_streams_partial (sch : Schema) (depth : Nat) (ops : List (Op K V))
    (hf : FreshAll sch depth ops St.empty) (n : Nat) (k : K)
    (h : ((runOps sch depth ops St.empty).streams n k).isSome = true) :
    ((runOps sch depth ops St.empty).data n k).isSome = true :=
  (runOps_inv sch depth ops St.empty (inv_empty sch) hf).streams n k h

/-- C72, violated: a navigation collection opened on an entity that has since been deleted still adds
links: the link then has no source entity. -/
theorem C72_violation_stale_source :
    ∃ (sch : Schema) (ops : List (Op Nat Nat)) (n : Nat) (a : Assoc) (x y : Nat),
      sch[n]? = some a ∧ y ∈ (runOps sch 100 ops St.empty).lookup n false x ∧
      (runOps sch 100 ops St.empty).data a.fromSet x = none :=
  ⟨[⟨0, 1, .many, .many, true, true⟩],
    [.insert 0 1 0 [], .insert 1 2 0 [], .delete 0 1, .navSet 0 false 1 2], 0,
    ⟨0, 1, .many, .many, true, true⟩, 1, 2, rfl, by decide +kernel, by decide +kernel⟩

/-- C72, violated: `replace` does not look at the target: it links to an entity that does not
exist. -/
theorem C72_violation_replace_missing :
    ∃ (sch : Schema) (ops : List (Op Nat Nat)) (n : Nat) (a : Assoc) (x y : Nat),
      sch[n]? = some a ∧ y ∈ (runOps sch 100 ops St.empty).lookup n false x ∧
      (runOps sch 100 ops St.empty).data a.toSet y = none :=
  ⟨[⟨0, 1, .many, .zeroToOne, true, true⟩],
    [.insert 0 1 0 [], .navReplace 0 false 1 2], 0,
    ⟨0, 1, .many, .zeroToOne, true, true⟩, 1, 2, rfl, by decide +kernel, by decide +kernel⟩

/-- C72, violated: `replace` gives a target that may have one partner a second one (a 0..1 to 0..1
association, two sources, one target). -/
theorem C72_violation_replace_steals :
    ∃ (sch : Schema) (ops : List (Op Nat Nat)) (n : Nat) (a : Assoc) (y : Nat),
      sch[n]? = some a ∧ a.fromMult = .zeroToOne ∧
      ((runOps sch 100 ops St.empty).lookup n true y).length = 2 :=
  ⟨[⟨0, 1, .zeroToOne, .zeroToOne, true, true⟩],
    [.insert 0 1 0 [], .insert 0 2 0 [], .insert 1 9 0 [], .navReplace 0 false 1 9,
      .navReplace 0 false 2 9], 0,
    ⟨0, 1, .zeroToOne, .zeroToOne, true, true⟩, 9, rfl, rfl, by decide +kernel⟩

/-- C72, violated: an insert that fails while binding leaves the new entity behind. -/
theorem C72_violation_failed_insert :
    ∃ (sch : Schema) (op : Op Nat Nat), (step sch 100 (St.empty : St Nat Nat) op).2 = .keyErr ∧
      (step sch 100 (St.empty : St Nat Nat) op).1.data 0 1 = some 7 :=
  ⟨[⟨0, 1, .many, .many, true, true⟩], .insert 0 1 7 [⟨0, false, [2]⟩], by decide +kernel,
    by decide +kernel⟩

/-! ## C73: deleting an entity -/

/-- C73: a successful deletion removes the entity, its stream and every link it had. -/
theorem inv_deleted {sch : Schema} {s : St K V} (hi : Inv sch s) (hd : s.deleting = [])
    (depth set : Nat) (key : K) (h : (step sch depth s (.delete set key)).2 = .ok) :
    (step sch depth s (.delete set key)).1.data set key = none ∧
    (step sch depth s (.delete set key)).1.streams set key = none ∧
    (∀ n a, sch[n]? = some a → ∀ k,
      (a.fromSet = set → ¬ L (step sch depth s (.delete set key)).1 n key k) ∧
      (a.toSet = set → ¬ L (step sch depth s (.delete set key)).1 n k key)) := by
  have hsp := delItem_spec sch depth s set key hi
  have hnone : (step sch depth s (.delete set key)).1.data set key = none := by
    rcases hsp.2 h with h1 | h1
    · rw [hd] at h1; simp at h1
    · exact h1
  have hinv : Inv sch (step sch depth s (.delete set key)).1 := hsp.1.inv
  refine ⟨hnone, ?_, ?_⟩
  · cases hst : (step sch depth s (.delete set key)).1.streams set key with
    | none => rfl
    | some d =>
      have := hinv.streams set key (by rw [hst]; rfl)
      unfold Exists at this
      rw [hnone] at this; cases this
  · intro n a ha k
    constructor
    · intro hs hl
      have := (hinv.ends n a ha key k hl).1
      unfold Exists at this
      rw [hs, hnone] at this; cases this
    · intro hs hl
      have := (hinv.ends n a ha k key hl).2
      unfold Exists at this
      rw [hs, hnone] at this; cases this

/-- C73: whatever its outcome, a deletion only removes things: entities and links that stay are
unchanged, none are added. -/
theorem inv_only_removes {sch : Schema} {s : St K V} (hi : Inv sch s)
    (depth set : Nat) (key : K) (n : Nat) (k k' : K) :
    ((step sch depth s (.delete set key)).1.data n k = s.data n k ∨
      (step sch depth s (.delete set key)).1.data n k = none) ∧
    (L (step sch depth s (.delete set key)).1 n k k' → L s n k k') := by
  have hsp := (delItem_spec sch depth s set key hi).1
  refine ⟨?_, hsp.links n k k'⟩
  rcases hsp.data n k with h | h
  · exact Or.inl h
  · exact Or.inr h.1

/-- Specification: entity `q` needs entity `p`: they are linked in an association in which `p` is at
an end that is required (multiplicity one). -/
def Needs (sch : Schema) (s : St K V) (p q : Nat × K) : Prop :=
  ∃ (aid : Nat) (a : Assoc), sch[aid]? = some a ∧
    ((a.fromMult = .one ∧ p.1 = a.fromSet ∧ q.1 = a.toSet ∧ L s aid p.2 q.2) ∨
     (a.toMult = .one ∧ p.1 = a.toSet ∧ q.1 = a.fromSet ∧ L s aid q.2 p.2))

omit [DecidableEq K] in
theorem casc_iff_needs {sch : Schema} (s : St K V)
    (hns : ∀ (n : Nat) (a : Assoc), sch[n]? = some a → a.fromSet ≠ a.toSet) (p q : Nat × K) :
    Casc sch s p q ↔ Needs sch s p q := by
  constructor
  · rintro ⟨aid, a, isTo, h1, h2, h3, h4, h5⟩
    have hne := hns aid a h1
    refine ⟨aid, a, h1, ?_⟩
    cases isTo with
    | false =>
      simp only [Assoc.endSet, Assoc.endMult, Bool.false_eq_true, if_false] at h2 h3
      simp only [h2, ne_eq, not_true_eq_false, decide_false, Assoc.tgtSet, Bool.false_eq_true,
        if_false, Lk] at h4 h5
      exact Or.inl ⟨h3, h2.symm, h4, h5⟩
    | true =>
      simp only [Assoc.endSet, Assoc.endMult, if_true] at h2 h3
      have : a.fromSet ≠ p.1 := by rw [← h2]; exact hne
      simp only [this, ne_eq, not_false_eq_true, decide_true, Assoc.tgtSet, if_true, Lk] at h4 h5
      exact Or.inr ⟨h3, h2.symm, h4, h5⟩
  · rintro ⟨aid, a, h1, ⟨h2, h3, h4, h5⟩ | ⟨h2, h3, h4, h5⟩⟩
    · refine ⟨aid, a, false, h1, ?_, ?_, ?_, ?_⟩
      · simp [Assoc.endSet, h3]
      · simp [Assoc.endMult, h2]
      · simp [h3, Assoc.tgtSet, h4]
      · simp [h3, Lk, h5]
    · have hne := hns aid a h1
      refine ⟨aid, a, true, h1, ?_, ?_, ?_, ?_⟩
      · simp [Assoc.endSet, h3]
      · simp [Assoc.endMult, h2]
      · simp [h3, hne, Assoc.tgtSet, h4]
      · simp [h3, hne, Lk, h5]

/-- C73: and, when no association joins an entity set with itself, only entities that need the
deleted one, directly or through others. -/
theorem inv_only_dependents {sch : Schema} {s : St K V} (hi : Inv sch s)
    (hns : ∀ (n : Nat) (a : Assoc), sch[n]? = some a → a.fromSet ≠ a.toSet)
    (depth set : Nat) (key : K) (n : Nat) (k : K) (hx : Exists s n k)
    (h : (step sch depth s (.delete set key)).1.data n k = none) :
    Relation.ReflTransGen (Needs sch s) (set, key) (n, k) := by
  have hsp := (delItem_spec sch depth s set key hi).1
  rcases hsp.data n k with h1 | h1
  · unfold Exists at hx
    have h2 : (step sch depth s (.delete set key)).1.data n k = s.data n k := h1
    rw [← h2, h] at hx; cases hx
  · exact Relation.ReflTransGen.mono (fun p q hc => (casc_iff_needs s hns p q).1 hc) _ _ h1.2

/-- An entity the cascade does not leave. -/
def Leaf (sch : Schema) (s : St K V) (p : Nat × K) : Prop := ∀ q, ¬ Casc sch s p q

theorem loopM_skip {S X : Type} (f : S → X → S × Res) (s : S) : ∀ xs : List X,
    (∀ x ∈ xs, f s x = (s, .ok)) → loopM f s xs = (s, .ok)
  | [], _ => rfl
  | x :: xs, h => by
    unfold loopM
    rw [h x (by simp)]
    dsimp only
    exact loopM_skip f s xs (fun y hy => h y (by simp [hy]))

theorem leaf_deletes {sch : Schema} {s : St K V} (hi : Inv sch s) (hd : s.deleting = [])
    (depth set : Nat) (key : K) (hx : Exists s set key) (hl : Leaf sch s (set, key)) :
    (step sch (depth + 1) s (.delete set key)).2 = .ok ∧
      ∀ n k, (n, k) ≠ (set, key) →
        (step sch (depth + 1) s (.delete set key)).1.data n k = s.data n k := by
  constructor
  · show (delItem sch (depth + 1) s set key).2 = .ok
    unfold delItem
    rw [if_neg (by rw [hd]; simp)]
    rw [if_neg (by unfold Exists at hx; cases h : s.data set key <;> simp_all)]
    dsimp only
    rw [loopM_skip]
    intro e he
    have hle := mem_linkEnds he
    unfold cascadeEnd
    split
    · rfl
    · rename_i hone
      rw [ne_eq, Decidable.not_not] at hone
      have hnil : St.lookup { s with deleting := (set, key) :: s.deleting } e.1
          (decide (e.2.2.fromSet ≠ set)) key = [] := by
        rw [List.eq_nil_iff_forall_not_mem]
        intro o ho
        have ho' : o ∈ s.lookup e.1 (decide (e.2.2.fromSet ≠ set)) key := ho
        rw [mem_lookup (hi.ok e.1)] at ho'
        exact hl (e.2.2.tgtSet (decide (e.2.2.fromSet ≠ set)), o)
          ⟨e.1, e.2.2, e.2.1, hle.1, hle.2, hone, rfl, ho'⟩
      rw [hnil]
      rfl
  · intro n k hne
    have hsp := (delItem_spec sch (depth + 1) s set key hi).1
    rcases hsp.data n k with h | h
    · exact h
    · exfalso
      rcases Relation.ReflTransGen.cases_head h.2 with h1 | ⟨q, h1, _⟩
      · exact hne h1.symm
      · exact hl q h1

/-- C73: an existing entity that no other needs can be deleted, and no other entity goes with it. -/
theorem inv_leaf_deletes {sch : Schema} {s : St K V} (hi : Inv sch s) (hd : s.deleting = [])
    (hns : ∀ (n : Nat) (a : Assoc), sch[n]? = some a → a.fromSet ≠ a.toSet)
    (depth set : Nat) (key : K) (hx : Exists s set key) (hl : ∀ q, ¬ Needs sch s (set, key) q) :
    (step sch (depth + 1) s (.delete set key)).2 = .ok ∧
      ∀ n k, (n, k) ≠ (set, key) →
        (step sch (depth + 1) s (.delete set key)).1.data n k = s.data n k :=
  leaf_deletes hi hd depth set key hx fun q hq => hl q ((casc_iff_needs s hns _ q).1 hq)

/-- C73, violated: a deletion that fails half way has already deleted some of the dependents (here an
entity shared by two dependents is deleted twice: the second time is a KeyError). -/
theorem C73_violation_half_deleted :
    ∃ (sch : Schema) (ops : List (Op Nat Nat)) (op : Op Nat Nat),
      (step sch 100 (runOps sch 100 ops St.empty) op).2 = .keyErr ∧
      (runOps sch 100 ops St.empty).data 1 10 = some 0 ∧
      (step sch 100 (runOps sch 100 ops St.empty) op).1.data 1 10 = none ∧
      (step sch 100 (runOps sch 100 ops St.empty) op).1.data 0 1 = some 0 :=
  -- association 0: 0 to 1, required at 0; association 1: 1 to 1, required at its "from" end
  ⟨[⟨0, 1, .one, .many, true, true⟩, ⟨1, 1, .one, .many, true, true⟩],
    [.insert 0 1 0 [], .navInsert 0 false 1 11 0 [⟨1, true, [11]⟩],
     .navInsert 0 false 1 10 0 [⟨1, true, [10]⟩], .navReplace 1 true 11 10],
    .delete 0 1, by decide +kernel, by decide +kernel, by decide +kernel, by decide +kernel⟩

/-- C73, violated: in an association between a set and itself whose required end is the "to" end
(each employee needs a manager), deleting an entity deletes the one it points to, not the ones that
need it. -/
theorem C73_violation_wrong_direction :
    ∃ (sch : Schema) (ops : List (Op Nat Nat)), FreshAll sch 100 ops St.empty ∧
      2 ∈ (runOps sch 100 ops St.empty).lookup 0 false 1 ∧
      (step sch 100 (runOps sch 100 ops St.empty) (.delete 0 1)).2 = .ok ∧
      (step sch 100 (runOps sch 100 ops St.empty) (.delete 0 1)).1.data 0 2 = none ∧
      (step sch 100 (runOps sch 100 ops St.empty) (.delete 0 2)).2 = .ok ∧
      (step sch 100 (runOps sch 100 ops St.empty) (.delete 0 2)).1.data 0 1 = some 0 := by
  refine ⟨[⟨0, 0, .many, .one, true, true⟩],
    [.insert 0 2 0 [⟨0, false, [2]⟩], .insert 0 1 0 [⟨0, false, [2]⟩]], ?_,
    by decide +kernel, by decide +kernel, by decide +kernel, by decide +kernel, by decide +kernel⟩
  have hg : ∀ b ∈ [(⟨0, false, [2]⟩ : Binding Nat)],
      GoodBinding [⟨0, 0, .many, .one, true, true⟩] 0 b := by
    intro b hb a ha
    simp at hb; subst hb
    simp at ha; subst ha
    simp [Assoc.srcSet, Assoc.srcMult]
  exact ⟨hg, hg, trivial⟩

/-- The hypotheses are met: a history with links, a refused duplicate, a cascade. -/
example : FreshAll [⟨0, 1, .one, .many, true, true⟩] 100
    [(.insert 0 1 0 [] : Op Nat Nat), .navInsert 0 false 1 10 0 [], .insert 0 1 5 [], .delete 0 1]
    St.empty ∧
    (runOps [⟨0, 1, .one, .many, true, true⟩] 100
      [(.insert 0 1 0 [] : Op Nat Nat), .navInsert 0 false 1 10 0 [], .insert 0 1 5 []]
      St.empty).lookup 0 false 1 = [10] ∧
    (runOps [⟨0, 1, .one, .many, true, true⟩] 100
      [(.insert 0 1 0 [] : Op Nat Nat), .navInsert 0 false 1 10 0 [], .insert 0 1 5 [], .delete 0 1]
      St.empty).data 1 10 = none := by
  refine ⟨⟨fun b hb => by simp at hb, ⟨?_, ⟨fun b hb => by simp at hb, trivial, trivial⟩⟩⟩,
    by decide +kernel, by decide +kernel⟩
  intro a ha
  simp at ha; subst ha
  exact ⟨by unfold Exists; decide +kernel, fun b hb => by simp at hb⟩

end Verif.MemDs

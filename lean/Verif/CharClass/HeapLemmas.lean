import Verif.CharClass.Heap
/-! # The heap model refines the value model when nothing is shared -/
namespace Verif.CharClass.Heap
open Verif.CharClass

/-- What an operation on the object with references `p.2` may change. -/
structure Fr (p q : Cells × Refs) : Prop where
  len : p.1.length ≤ q.1.length
  sub : ∀ x ∈ q.2, x ∈ p.2 ∨ (p.1.length ≤ x ∧ x < q.1.length)
  frame : ∀ a, a < p.1.length → a ∉ p.2 → cell q.1 a = cell p.1 a

/-- No cell that existed before is written. -/
structure Pure (p q : Cells × Refs) : Prop extends Fr p q where
  keep : ∀ a, a < p.1.length → cell q.1 a = cell p.1 a

theorem Fr.refl (p : Cells × Refs) : Fr p p := ⟨Nat.le_refl _, fun _ h => Or.inl h, fun _ _ _ => rfl⟩
theorem Pure.refl (p : Cells × Refs) : Pure p p := ⟨Fr.refl p, fun _ _ => rfl⟩

theorem Fr.trans {p q r : Cells × Refs} (h1 : Fr p q) (h2 : Fr q r) : Fr p r := by
  refine ⟨Nat.le_trans h1.len h2.len, ?_, ?_⟩
  · intro x hx
    have := h1.len; have := h2.len
    rcases h2.sub x hx with h | h
    · rcases h1.sub x h with h' | h'
      · exact Or.inl h'
      · right; omega
    · right; omega
  · intro a ha hn
    have := h1.len
    rw [h2.frame a (by omega), h1.frame a ha hn]
    intro hc
    rcases h1.sub a hc with h' | h'
    · exact hn h'
    · omega

theorem Pure.trans {p q r : Cells × Refs} (h1 : Pure p q) (h2 : Pure q r) : Pure p r := by
  refine ⟨h1.toFr.trans h2.toFr, ?_⟩
  intro a ha
  have := h1.len
  rw [h2.keep a (by omega), h1.keep a ha]

/-- References are valid and distinct. -/
def Good (p : Cells × Refs) : Prop := (∀ x ∈ p.2, x < p.1.length) ∧ p.2.Nodup

theorem cell_append {m : Cells} {r : Range} {a : Nat} (h : a < m.length) : cell (m ++ [r]) a = cell m a := by
  simp [cell, List.getD_eq_getElem?_getD, List.getElem?_append_left h]
theorem cell_new (m : Cells) (r : Range) : cell (m ++ [r]) m.length = r := by
  simp [cell, List.getD_eq_getElem?_getD]

theorem view_append {m : Cells} {r : Range} {xs : Refs} (h : ∀ x ∈ xs, x < m.length) :
    view (m ++ [r]) xs = view m xs := by
  simp only [view, List.map_inj_left]
  intro x hx; exact cell_append (h x hx)

theorem put_pure (m : Cells) (xs : Refs) (i j : Nat) (r : Range) : Pure (m, xs) (put m xs i j r) := by
  refine ⟨⟨by simp [put], ?_, ?_⟩, ?_⟩
  · intro x hx
    simp only [put, List.mem_append, List.mem_singleton] at hx
    rcases hx with (hx | hx) | hx
    · exact Or.inl (List.mem_of_mem_take hx)
    · right; simp [put, hx]
    · exact Or.inl (List.mem_of_mem_drop hx)
  · intro a ha _; exact cell_append ha
  · intro a ha; exact cell_append ha

theorem take_drop_nodup {xs : Refs} (h : xs.Nodup) {i k : Nat} (hik : i ≤ k) :
    (xs.take i ++ xs.drop k).Nodup := by
  apply List.Nodup.sublist _ h
  have h2 : (xs.drop k).Sublist (xs.drop i) := by
    have : xs.drop k = (xs.drop i).drop (k - i) := by rw [List.drop_drop]; congr 1; omega
    rw [this]; exact List.drop_sublist _ _
  have := List.Sublist.append (List.Sublist.refl (xs.take i)) h2
  rwa [List.take_append_drop] at this

theorem nodup_mid {A B : Refs} {n : Nat} (h : (A ++ B).Nodup) (hn : ∀ x ∈ A ++ B, x < n) :
    (A ++ [n] ++ B).Nodup := by
  rw [List.append_assoc, List.singleton_append, List.perm_middle.nodup_iff, List.nodup_cons]
  exact ⟨fun hc => Nat.lt_irrefl _ (hn _ hc), h⟩

theorem put_good {m : Cells} {xs : Refs} (h : Good (m, xs)) (i j : Nat) (r : Range) :
    Good (put m xs i j r) ∧ view (put m xs i j r).1 (put m xs i j r).2 = sliceSet (view m xs) i j [r] := by
  have hm : ∀ x ∈ xs.take i ++ xs.drop (max i j), x < m.length := by
    intro x hx
    rcases List.mem_append.1 hx with hx | hx
    · exact h.1 x (List.mem_of_mem_take hx)
    · exact h.1 x (List.mem_of_mem_drop hx)
  refine ⟨⟨?_, ?_⟩, ?_⟩
  · intro x hx
    simp only [put, List.mem_append, List.mem_singleton, List.length_append, List.length_singleton] at hx ⊢
    rcases hx with (hx | hx) | hx
    · have := hm x (by simp [hx]); omega
    · omega
    · have := hm x (by simp [hx]); omega
  · exact nodup_mid (take_drop_nodup h.2 (by omega)) hm
  · simp only [put, view, sliceSet, List.map_append, List.map_cons, List.map_nil, cell_new]
    have h1 : (xs.take i).map (cell (m ++ [r])) = (xs.map (cell m)).take i := by
      rw [← List.map_take]; exact view_append (fun x hx => hm x (by simp [hx]))
    have h2 : (xs.drop (max i j)).map (cell (m ++ [r])) = (xs.map (cell m)).drop (max i j) := by
      rw [← List.map_drop]; exact view_append (fun x hx => hm x (by simp [hx]))
    rw [h1, h2]

theorem ins_eq_put (m : Cells) (xs : Refs) (i : Nat) (r : Range) : ins m xs i r = put m xs i i r := by
  simp [ins, put]
theorem insertAt_eq (rs : List Range) (i : Nat) (r : Range) : insertAt rs i r = sliceSet rs i i [r] := by
  simp [insertAt, sliceSet]

theorem del_pure (m : Cells) (xs : Refs) (i j : Nat) : Pure (m, xs) (del m xs i j) := by
  refine ⟨⟨by simp [del], ?_, fun _ _ _ => rfl⟩, fun _ _ => rfl⟩
  intro x hx
  simp only [del, List.mem_append] at hx
  rcases hx with hx | hx
  · exact Or.inl (List.mem_of_mem_take hx)
  · exact Or.inl (List.mem_of_mem_drop hx)

theorem del_good {m : Cells} {xs : Refs} (h : Good (m, xs)) (i j : Nat) :
    Good (del m xs i j) ∧ view (del m xs i j).1 (del m xs i j).2 = sliceSet (view m xs) i j [] := by
  refine ⟨⟨?_, take_drop_nodup h.2 (by omega)⟩, ?_⟩
  · intro x hx
    simp only [del, List.mem_append] at hx
    rcases hx with hx | hx
    · exact h.1 x (List.mem_of_mem_take hx)
    · exact h.1 x (List.mem_of_mem_drop hx)
  · simp [del, view, sliceSet, List.map_take, List.map_drop]

theorem cell_modify (m : Cells) (b : Nat) (f : Range → Range) (a : Nat) :
    cell (m.modify b f) a = if b = a ∧ a < m.length then f (cell m a) else cell m a := by
  simp only [cell, List.getD_eq_getElem?_getD, List.getElem?_modify]
  by_cases hba : b = a
  · subst hba
    by_cases hl : b < m.length
    · simp [hl]
    · simp [hl]
  · simp [hba]

theorem poke_fr (m : Cells) (xs : Refs) (i : Nat) (f : Range → Range) :
    Fr (m, xs) (m.modify (xs.getD i m.length) f, xs) := by
  refine ⟨by simp, fun _ h => Or.inl h, ?_⟩
  intro a ha hn
  rw [cell_modify, if_neg]
  rintro ⟨h1, _⟩
  simp only at ha hn
  rw [List.getD_eq_getElem?_getD] at h1
  cases hx : xs[i]? with
  | none => rw [hx] at h1; simp at h1; omega
  | some x =>
    rw [hx] at h1; simp at h1; subst h1
    exact hn (List.mem_of_getElem? hx)

theorem poke_good {m : Cells} {xs : Refs} (h : Good (m, xs)) (i : Nat) (f : Range → Range) :
    Good (m.modify (xs.getD i m.length) f, xs) ∧
      view (m.modify (xs.getD i m.length) f) xs = (view m xs).modify i f := by
  refine ⟨⟨by simpa using h.1, h.2⟩, ?_⟩
  apply List.ext_getElem?
  intro k
  simp only [view, List.getElem?_map, List.getElem?_modify]
  cases hk : xs[k]? with
  | none => simp
  | some x =>
    have hxl : x < m.length := h.1 x (List.mem_of_getElem? hk)
    simp only [Option.map_some, cell_modify]
    by_cases hik : i = k
    · subst hik
      simp [List.getD_eq_getElem?_getD, hk, hxl]
    · have : ¬ (xs.getD i m.length = x ∧ x < m.length) := by
        rintro ⟨h1, _⟩
        rw [List.getD_eq_getElem?_getD] at h1
        cases hx : xs[i]? with
        | none => rw [hx] at h1; simp at h1; omega
        | some y =>
          rw [hx] at h1; simp at h1; subst h1
          obtain ⟨h2, h3⟩ := List.getElem?_eq_some_iff.1 hx
          obtain ⟨h4, h5⟩ := List.getElem?_eq_some_iff.1 hk
          exact hik ((List.getElem_inj h.2).1 (h3.trans h5.symm))
      rw [if_neg this]; simp [hik]

/-- A refinement step: the object's view becomes `rs`, nothing else changes. -/
def Ok (q : Cells × Refs) (rs : List Range) : Prop := Good q ∧ view q.1 q.2 = rs

theorem hMerge_pure (p : Cells × Refs) (i : Nat) : Pure p (hMerge p i) := by
  unfold hMerge; dsimp only
  generalize (if i > 0 ∧ (rget (view p.1 p.2) (i - 1)).2 + 1 ≥ (rget (view p.1 p.2) i).1
    then i - 1 else i) = ia
  generalize (if i < (view p.1 p.2).length - 1 ∧
    (rget (view p.1 p.2) (i + 1)).1 ≤ (rget (view p.1 p.2) i).2 + 1 then i + 1 else i) = iz
  split
  · exact put_pure _ _ _ _ _
  · exact Pure.refl _

theorem hMerge_ok {p : Cells × Refs} {rs : List Range} (h : Ok p rs) (i : Nat) :
    Ok (hMerge p i) (merge rs i) := by
  obtain ⟨h1, rfl⟩ := h
  unfold hMerge merge; dsimp only
  generalize (if i > 0 ∧ (rget (view p.1 p.2) (i - 1)).2 + 1 ≥ (rget (view p.1 p.2) i).1
    then i - 1 else i) = ia
  generalize (if i < (view p.1 p.2).length - 1 ∧
    (rget (view p.1 p.2) (i + 1)).1 ≤ (rget (view p.1 p.2) i).2 + 1 then i + 1 else i) = iz
  split
  · exact put_good h1 _ _ _
  · exact ⟨h1, rfl⟩

theorem new_pure (m : Cells) (xs : Refs) (r : Range) : Pure (m, xs) (m ++ [r], [m.length]) := by
  refine ⟨⟨by simp, ?_, fun a ha _ => cell_append ha⟩, fun a ha => cell_append ha⟩
  intro x hx; right; simp at hx; simp [hx]

theorem new_ok (m : Cells) (r : Range) : Ok (m ++ [r], [m.length]) [r] := by
  refine ⟨⟨by simp, by simp⟩, ?_⟩
  simp [view, cell_new]

theorem hAddRange_pure (m : Cells) (xs : Refs) (a0 z0 : Nat) : Pure (m, xs) (hAddRange m xs a0 z0) := by
  unfold hAddRange; dsimp only
  generalize (if z0 < a0 then z0 else a0) = a
  generalize (if z0 < a0 then a0 else z0) = z
  repeat' split
  all_goals first
    | exact new_pure _ _ _
    | exact Pure.refl _
    | exact (put_pure _ _ _ _ _).trans (hMerge_pure _ _)

theorem hAddRange_ok {m : Cells} {xs : Refs} (h : Good (m, xs)) (a0 z0 : Nat) :
    Ok (hAddRange m xs a0 z0) (addRange (view m xs) a0 z0) := by
  unfold hAddRange addRange; dsimp only
  generalize (if z0 < a0 then z0 else a0) = a
  generalize (if z0 < a0 then a0 else z0) = z
  repeat' split
  all_goals first
    | exact new_ok _ _
    | exact ⟨h, rfl⟩
    | exact hMerge_ok (put_good h _ _ _) _

theorem hAddChar_pure (m : Cells) (xs : Refs) (c : Nat) : Pure (m, xs) (hAddChar m xs c) := by
  unfold hAddChar; dsimp only
  rw [ins_eq_put]
  repeat' split
  all_goals first
    | exact new_pure _ _ _
    | exact Pure.refl _
    | exact (put_pure _ _ _ _ _).trans (hMerge_pure _ _)

theorem hAddChar_ok {m : Cells} {xs : Refs} (h : Good (m, xs)) (c : Nat) :
    Ok (hAddChar m xs c) (addChar (view m xs) c) := by
  unfold hAddChar addChar; dsimp only
  rw [ins_eq_put, insertAt_eq]
  repeat' split
  all_goals first
    | exact new_ok _ _
    | exact ⟨h, rfl⟩
    | exact hMerge_ok (put_good h _ _ _) _

theorem pokeLo_fr (m : Cells) (xs : Refs) (i v : Nat) : Fr (m, xs) (pokeLo m xs i v) := poke_fr _ _ _ _
theorem pokeHi_fr (m : Cells) (xs : Refs) (i v : Nat) : Fr (m, xs) (pokeHi m xs i v) := poke_fr _ _ _ _
theorem pokeLo_ok {m : Cells} {xs : Refs} (h : Good (m, xs)) (i v : Nat) :
    Ok (pokeLo m xs i v) (setLo (view m xs) i v) := poke_good h _ _
theorem pokeHi_ok {m : Cells} {xs : Refs} (h : Good (m, xs)) (i v : Nat) :
    Ok (pokeHi m xs i v) (setHi (view m xs) i v) := poke_good h _ _

theorem del_ok {p : Cells × Refs} {rs : List Range} (h : Ok p rs) (i j : Nat) :
    Ok (del p.1 p.2 i j) (sliceSet rs i j []) := by
  obtain ⟨h1, rfl⟩ := h; exact del_good h1 _ _
theorem ins_ok {p : Cells × Refs} {rs : List Range} (h : Ok p rs) (i : Nat) (r : Range) :
    Ok (ins p.1 p.2 i r) (insertAt rs i r) := by
  obtain ⟨h1, rfl⟩ := h; rw [ins_eq_put, insertAt_eq]; exact put_good h1 _ _ _

theorem tail_fr (p1 : Cells × Refs) (ja iz z : Nat) (d : Bool) :
    Fr p1 (if (if d then iz + 1 else iz) ≥ ja then
      del (if d then p1 else pokeLo p1.1 p1.2 iz (z + 1)).1
        (if d then p1 else pokeLo p1.1 p1.2 iz (z + 1)).2 ja (if d then iz + 1 else iz)
      else (if d then p1 else pokeLo p1.1 p1.2 iz (z + 1))) := by
  have f2 : Fr p1 (if d then p1 else pokeLo p1.1 p1.2 iz (z + 1)) := by
    split
    · exact Fr.refl _
    · exact pokeLo_fr _ _ _ _
  generalize (if d then p1 else pokeLo p1.1 p1.2 iz (z + 1)) = p2 at f2 ⊢
  generalize (if d then iz + 1 else iz) = jz
  split
  · exact f2.trans (del_pure _ _ _ _).toFr
  · exact f2

theorem tail_ok {p1 : Cells × Refs} {rs1 : List Range} (f1 : Ok p1 rs1) (ja iz z : Nat) :
    let d : Bool := (rget (view p1.1 p1.2) iz).1 = (rget (view p1.1 p1.2) iz).2 ∨
      z = (rget (view p1.1 p1.2) iz).2
    let e : Bool := (rget rs1 iz).1 = (rget rs1 iz).2 ∨ z = (rget rs1 iz).2
    Ok (if (if d then iz + 1 else iz) ≥ ja then
      del (if d then p1 else pokeLo p1.1 p1.2 iz (z + 1)).1
        (if d then p1 else pokeLo p1.1 p1.2 iz (z + 1)).2 ja (if d then iz + 1 else iz)
      else (if d then p1 else pokeLo p1.1 p1.2 iz (z + 1)))
      (if (if e then iz + 1 else iz) ≥ ja then
        sliceSet (if e then rs1 else setLo rs1 iz (z + 1)) ja (if e then iz + 1 else iz) []
        else (if e then rs1 else setLo rs1 iz (z + 1))) := by
  intro d e
  have hde : d = e := by simp only [d, e, f1.2]
  rw [hde]
  clear_value d e
  clear hde
  have f2 : Ok (if e then p1 else pokeLo p1.1 p1.2 iz (z + 1))
      (if e then rs1 else setLo rs1 iz (z + 1)) := by
    split
    · exact f1
    · have := pokeLo_ok f1.1 iz (z + 1)
      rwa [f1.2] at this
  generalize (if e then p1 else pokeLo p1.1 p1.2 iz (z + 1)) = p2 at f2 ⊢
  generalize (if e then rs1 else setLo rs1 iz (z + 1)) = rs2 at f2 ⊢
  generalize (if e then iz + 1 else iz) = jz
  split
  · exact del_ok f2 _ _
  · exact f2

theorem hSubtractRange_fr (m : Cells) (xs : Refs) (a0 z0 : Nat) : Fr (m, xs) (hSubtractRange m xs a0 z0) := by
  unfold hSubtractRange; dsimp only
  generalize (if z0 < a0 then z0 else a0) = a
  generalize (if z0 < a0 then a0 else z0) = z
  generalize (search (view m xs) a).2 = ia
  generalize (search (view m xs) z).2 = iz
  split
  · exact Fr.refl _
  split
  · split
    · split
      · split
        · exact (del_pure _ _ _ _).toFr
        · split
          · exact pokeLo_fr _ _ _ _
          · split
            · exact pokeHi_fr _ _ _ _
            · exact (pokeHi_fr m xs _ _).trans (by rw [ins_eq_put]; exact (put_pure _ _ _ _ _).toFr)
      · refine (Fr.trans (q := if _ then (m, xs) else pokeHi m xs ia (a - 1)) ?_ (tail_fr _ _ _ _ _))
        split
        · exact Fr.refl _
        · exact pokeHi_fr _ _ _ _
    · split
      · exact (del_pure _ _ _ _).toFr
      · exact (pokeHi_fr _ _ _ _).trans (del_pure _ _ _ _).toFr
  · split
    · split
      · exact (del_pure _ _ _ _).toFr
      · exact (pokeLo_fr _ _ _ _).trans (del_pure _ _ _ _).toFr
    · exact (del_pure _ _ _ _).toFr

theorem ite_ok {c : Prop} [Decidable c] {p q : Cells × Refs} {x y : List Range}
    (h1 : c → Ok p x) (h2 : ¬ c → Ok q y) : Ok (if c then p else q) (if c then x else y) := by
  by_cases h : c
  · rw [if_pos h, if_pos h]; exact h1 h
  · rw [if_neg h, if_neg h]; exact h2 h

theorem hSubtractRange_ok {m : Cells} {xs : Refs} (h : Good (m, xs)) (a0 z0 : Nat) :
    Ok (hSubtractRange m xs a0 z0) (subtractRange (view m xs) a0 z0) := by
  unfold hSubtractRange subtractRange; dsimp only
  generalize (if z0 < a0 then z0 else a0) = a
  generalize (if z0 < a0 then a0 else z0) = z
  generalize (search (view m xs) a).2 = ia
  generalize (search (view m xs) z).2 = iz
  have h0 : Ok (m, xs) (view m xs) := ⟨h, rfl⟩
  refine ite_ok (fun _ => ?_) (fun _ => ?_)
  · exact h0
  refine ite_ok (fun _ => ?_) (fun _ => ?_)
  · refine ite_ok (fun _ => ?_) (fun _ => ?_)
    · refine ite_ok (fun _ => ?_) (fun _ => ?_)
      · refine ite_ok (fun _ => ?_) (fun _ => ?_)
        · exact del_ok h0 _ _
        · refine ite_ok (fun _ => ?_) (fun _ => ?_)
          · exact pokeLo_ok h _ _
          · refine ite_ok (fun _ => ?_) (fun _ => ?_)
            · exact pokeHi_ok h _ _
            · exact ins_ok (pokeHi_ok h _ _) _ _
      · refine tail_ok ?_ _ _ _
        refine ite_ok (fun _ => ?_) (fun _ => ?_)
        · exact h0
        · exact pokeHi_ok h _ _
    · refine ite_ok (fun _ => ?_) (fun _ => ?_)
      · exact del_ok h0 _ _
      · exact del_ok (pokeHi_ok h _ _) _ _
  · refine ite_ok (fun _ => ?_) (fun _ => ?_)
    · refine ite_ok (fun _ => ?_) (fun _ => ?_)
      · exact del_ok h0 _ _
      · exact del_ok (pokeLo_ok h _ _) _ _
    · exact del_ok h0 _ _

theorem hSubtractChar_fr (m : Cells) (xs : Refs) (c : Nat) : Fr (m, xs) (hSubtractChar m xs c) := by
  unfold hSubtractChar; dsimp only
  repeat' split
  all_goals first
    | exact Fr.refl _
    | exact (del_pure _ _ _ _).toFr
    | exact pokeLo_fr _ _ _ _
    | exact pokeHi_fr _ _ _ _
    | exact (pokeHi_fr m xs _ _).trans (by rw [ins_eq_put]; exact (put_pure _ _ _ _ _).toFr)

theorem hSubtractChar_ok {m : Cells} {xs : Refs} (h : Good (m, xs)) (c : Nat) :
    Ok (hSubtractChar m xs c) (subtractChar (view m xs) c) := by
  have h0 : Ok (m, xs) (view m xs) := ⟨h, rfl⟩
  unfold hSubtractChar subtractChar; dsimp only
  repeat' split
  all_goals first
    | exact h0
    | exact del_ok h0 _ _
    | exact pokeLo_ok h _ _
    | exact pokeHi_ok h _ _
    | exact ins_ok (pokeHi_ok h _ _) _ _

theorem foldAdd_pure (ys : Refs) : ∀ p : Cells × Refs,
    Pure p (ys.foldl (fun p y => hAddRange p.1 p.2 (cell p.1 y).1 (cell p.1 y).2) p) := by
  induction ys with
  | nil => intro p; exact Pure.refl _
  | cons y ys ih => intro p; exact (hAddRange_pure p.1 p.2 _ _).trans (ih _)

theorem foldAdd_ok (ys : Refs) : ∀ (p : Cells × Refs) (rs : List Range), Ok p rs →
    (∀ y ∈ ys, y < p.1.length) →
    Ok (ys.foldl (fun p y => hAddRange p.1 p.2 (cell p.1 y).1 (cell p.1 y).2) p)
      ((view p.1 ys).foldl (fun acc r => addRange acc r.1 r.2) rs) := by
  induction ys with
  | nil => intro p rs h _; exact h
  | cons y ys ih =>
    rintro p rs ⟨h1, rfl⟩ hys
    have hp := hAddRange_pure p.1 p.2 (cell p.1 y).1 (cell p.1 y).2
    have := ih _ _ (hAddRange_ok h1 (cell p.1 y).1 (cell p.1 y).2)
      (fun y hy => Nat.lt_of_lt_of_le (hys y (by simp [hy])) hp.len)
    have hv : view (hAddRange p.1 p.2 (cell p.1 y).1 (cell p.1 y).2).1 ys = view p.1 ys := by
      simp only [view, List.map_inj_left]
      intro x hx; exact hp.keep x (hys x (by simp [hx]))
    rw [hv] at this
    exact this

theorem hSubtractClass_fr (ys : Refs) : ∀ (p : Cells × Refs), Fr p (hSubtractClass p.1 p.2 ys) := by
  unfold hSubtractClass
  induction ys with
  | nil => intro p; exact Fr.refl _
  | cons y ys ih => intro p; exact (hSubtractRange_fr p.1 p.2 _ _).trans (ih _)

theorem hSubtractClass_ok (ys : Refs) : ∀ (p : Cells × Refs) (rs : List Range), Ok p rs →
    (∀ y ∈ ys, y < p.1.length ∧ y ∉ p.2) →
    Ok (hSubtractClass p.1 p.2 ys) (subtractClass rs (view p.1 ys)) := by
  unfold hSubtractClass subtractClass
  induction ys with
  | nil => intro p rs h _; exact h
  | cons y ys ih =>
    rintro p rs ⟨h1, rfl⟩ hys
    have hp := hSubtractRange_fr p.1 p.2 (cell p.1 y).1 (cell p.1 y).2
    have := ih _ _ (hSubtractRange_ok h1 (cell p.1 y).1 (cell p.1 y).2)
      (fun y hy => by
        have h2 := hys y (by simp [hy])
        refine ⟨Nat.lt_of_lt_of_le h2.1 hp.len, fun hc => ?_⟩
        rcases hp.sub y hc with h3 | h3
        · exact h2.2 h3
        · simp only at h3; omega)
    have hv : view (hSubtractRange p.1 p.2 (cell p.1 y).1 (cell p.1 y).2).1 ys = view p.1 ys := by
      simp only [view, List.map_inj_left]
      intro x hx; exact hp.frame x (hys x (by simp [hx])).1 (hys x (by simp [hx])).2
    rw [hv] at this
    exact this

theorem hAddClass_keep (m : Cells) (xs ys : Refs) : ∀ a, a < m.length →
    cell (hAddClass m xs ys).1 a = cell m a := by
  unfold hAddClass
  split
  · intro a _; rfl
  · exact (foldAdd_pure ys (m, xs)).keep

theorem hNegate_keep (m : Cells) (xs : Refs) : Pure (m, xs) (hNegate m xs) := by
  have h := hSubtractClass_fr xs (m ++ [(0, maxunicode)], [m.length])
  have h2 := (new_pure m xs (0, maxunicode)).toFr.trans h
  refine ⟨h2, fun a ha => ?_⟩
  simp only at ha
  have := h.frame a (by simp; omega) (by simp; omega)
  simp only [hNegate]
  rw [this]; exact cell_append ha

theorem hNegate_ok {m : Cells} {xs : Refs} (h : Good (m, xs)) :
    Ok (hNegate m xs) (negate (view m xs)) := by
  have h1 : Ok (m ++ [(0, maxunicode)], [m.length]) (addRange [] 0 maxunicode) := by
    have : addRange [] 0 maxunicode = [(0, maxunicode)] := by simp [addRange]
    rw [this]; exact new_ok _ _
  have := hSubtractClass_ok xs _ _ h1 (fun y hy => by
    have := h.1 y hy; simp only [List.length_append] at *; simp; omega)
  rw [view_append h.1] at this
  exact this

/-! ## Worlds -/

/-- No two objects share a range list. -/
def Sep (w : World) : Prop :=
  (∀ i, Good (w.cells, w.refs i)) ∧ ∀ i j, i ≠ j → ∀ x ∈ w.refs i, x ∉ w.refs j

theorem refs_put (w : World) (i : Nat) (p : Cells × Refs) (k : Nat) :
    (w.put i p).refs k = if i = k ∧ k < w.objs.length then p.2 else w.refs k := by
  simp only [World.put, World.refs, List.getD_eq_getElem?_getD, List.getElem?_set]
  by_cases h : i = k
  · subst h
    by_cases hl : i < w.objs.length <;> simp [hl]
  · simp [h]

theorem view_congr {m m' : Cells} {xs : Refs} (h : ∀ x ∈ xs, cell m' x = cell m x) :
    view m' xs = view m xs := by
  simp only [view, List.map_inj_left]; exact h

theorem put_sep {w : World} (hs : Sep w) {i : Nat} {p : Cells × Refs} {rs : List Range}
    (hf : Fr (w.cells, w.refs i) p) (hok : Ok p rs) :
    Sep (w.put i p) ∧ ∀ k, (w.put i p).ranges k =
      if i = k ∧ k < w.objs.length then rs else w.ranges k := by
  have other : ∀ k, i ≠ k → ∀ x ∈ w.refs k, cell p.1 x = cell w.cells x := by
    intro k hk x hx
    exact hf.frame x ((hs.1 k).1 x hx) (hs.2 k i (Ne.symm hk) x hx)
  refine ⟨⟨?_, ?_⟩, ?_⟩
  · intro k
    rw [refs_put]
    split
    · exact hok.1
    · exact ⟨fun x hx => Nat.lt_of_lt_of_le ((hs.1 k).1 x hx) hf.len, (hs.1 k).2⟩
  · intro j k hjk x hx
    rw [refs_put] at hx ⊢
    split at hx
    · rename_i h1
      rw [if_neg (by omega)]
      intro hk
      rcases hf.sub x hx with h2 | h2
      · exact hs.2 i k (by omega) x h2 hk
      · have := (hs.1 k).1 x hk; simp only at this h2; omega
    · split
      · rename_i h1 h2
        intro hk
        rcases hf.sub x hk with h3 | h3
        · exact hs.2 j i (by omega) x hx h3
        · have := (hs.1 j).1 x hx; simp only at this h3; omega
      · exact hs.2 j k hjk x hx
  · intro k
    have hcells : (w.put i p).cells = p.1 := rfl
    simp only [World.ranges, refs_put, hcells]
    split
    · exact hok.2
    · rename_i h1
      apply view_congr
      intro x hx
      by_cases hik : i = k
      · subst hik
        -- out of range object index: it has no references
        have : w.refs i = [] := by
          simp only [World.refs, List.getD_eq_getElem?_getD]
          rw [List.getElem?_eq_none (by omega)]; rfl
        rw [this] at hx; simp at hx
      · exact other k hik x hx

theorem put_keep {w : World} {i k : Nat} (hk : k ≠ i) {p : Cells × Refs}
    (hv : ∀ x ∈ w.refs k, x < w.cells.length)
    (hp : ∀ a, a < w.cells.length → cell p.1 a = cell w.cells a) :
    (w.put i p).ranges k = w.ranges k := by
  have hcells : (w.put i p).cells = p.1 := rfl
  simp only [World.ranges, refs_put, hcells]
  rw [if_neg (by omega)]
  exact view_congr (fun x hx => hp x (hv x hx))

end Verif.CharClass.Heap

import Verif.OData.PagingProps

/-!
# Ordering a collection of entities

Models `pyslet.odata2.csdl.EntityCollection.order_entities` (csdl.py:3100-3127) with the order keys
of `core.EntityCollection.calculate_order_key` (core.py:3046-3049).

Python's `list.sort` is a stable sort by `<`; it is modelled by Lean's stable `List.mergeSort`.  An
order key is the `value` of an evaluated expression: `none` is a null value, whose comparison with
anything raises TypeError in Python 3.
-/
namespace Verif.OData.OrderBy

/-- One `orderby` rule: the key of an entity and whether the direction is descending
(`ruleDir < 0`). -/
structure Rule (α K : Type) where
  key : α → Option K
  desc : Bool

/-- The comparison of a sort on one rule (csdl.py:3120-3121): with `reverse=True` Python's sort
stays stable, so it sorts by the opposite comparison.  The cases with a null key are never used:
`sortRule` raises first. -/
def ruleLe {α K : Type} (kle : K → K → Bool) (r : Rule α K) (a b : α) : Bool :=
  match r.key a, r.key b with
  | some x, some y => if r.desc then kle y x else kle x y
  | none, _ => true
  | some _, none => false

/-- `elist.sort(key=..., reverse=...)` (csdl.py:3120-3121): `none` is the TypeError of comparing a
null; a list of fewer than two entities needs no comparison. -/
def sortRule {α K : Type} (kle : K → K → Bool) (r : Rule α K) (l : List α) : Option (List α) :=
  if l.length < 2 then some l
  else if l.all (fun a => (r.key a).isSome) then some (l.mergeSort (ruleLe kle r))
  else none

/-- The loop over `reversed(self.orderby)` (csdl.py:3119-3121). -/
def sortRules {α K : Type} (kle : K → K → Bool) : List (Rule α K) → List α → Option (List α)
  | [], l => some l
  | r :: rs, l => (sortRules kle rs l).bind (sortRule kle r)

/-- `elist.sort(key=lambda x: x.key())` (csdl.py:3114); entity keys are never null. -/
def sortKey {α : Type} (ele : α → α → Bool) (l : List α) : List α := l.mergeSort ele

/-- `order_entities` (csdl.py:3100-3127). `paging` is set while `iterpage` runs. -/
def orderEntities {α K : Type} (ele : α → α → Bool) (kle : K → K → Bool) (paging : Bool)
    (rules : List (Rule α K)) (l : List α) : Option (List α) :=
  sortRules kle rules (if paging then sortKey ele l else l)

/-! ## Specification -/

/-- `a` may come before `b`: the first rule on which they differ puts `a` first, and when they agree
on all rules, `tie a b`. -/
def Before {α K : Type} (kle : K → K → Bool) (tie : α → α → Prop) : List (Rule α K) → α → α → Prop
  | [], a, b => tie a b
  | r :: rs, a, b =>
    match r.key a, r.key b with
    | some x, some y =>
      if r.desc then kle y x = true ∧ (kle x y = true → Before kle tie rs a b)
      else kle x y = true ∧ (kle y x = true → Before kle tie rs a b)
    | _, _ => False

/-- A total preorder (`<=` on values of one type). -/
structure Preord {K : Type} (kle : K → K → Bool) : Prop where
  trans : ∀ a b c, kle a b = true → kle b c = true → kle a c = true
  total : ∀ a b, (kle a b || kle b a) = true

/-! ## Proofs -/

/-- The comparison of a rule when no key is null. -/
def Defined {α K : Type} (r : Rule α K) (l : List α) : Prop := ∀ a ∈ l, (r.key a).isSome

variable {α K : Type} [DecidableEq α]

/-- A stable sort of a duplicate-free list keeps the previous order on ties. -/
theorem mergeSort_lex (le : α → α → Bool) (h : Preord le) (R : α → α → Prop) (l : List α)
    (hnd : l.Nodup) (hR : l.Pairwise R) :
    (l.mergeSort le).Pairwise (fun a b => le a b = true ∧ (le b a = true → R a b)) := by
  rw [List.pairwise_iff_forall_sublist]
  intro a b hab
  have hsort := List.pairwise_mergeSort (le := le) h.trans h.total l
  have hle : le a b = true := (List.pairwise_iff_forall_sublist.1 hsort) hab
  refine ⟨hle, fun hba => ?_⟩
  have hnd' : (l.mergeSort le).Nodup := (List.mergeSort_perm l le).nodup_iff.2 hnd
  have hne : a ≠ b := by
    have := hnd'.sublist hab
    simpa using this
  have ham : a ∈ l := (List.mergeSort_perm l le).mem_iff.1 (hab.subset (by simp))
  have hbm : b ∈ l := (List.mergeSort_perm l le).mem_iff.1 (hab.subset (by simp))
  have hcase : List.Sublist [a, b] l ∨ List.Sublist [b, a] l := by
    obtain ⟨s, t, rfl⟩ := List.append_of_mem ham
    rw [List.mem_append, List.mem_cons] at hbm
    rcases hbm with hb | hb | hb
    · right
      have h1 : [b].Sublist s := List.singleton_sublist.2 hb
      have h2 : [a].Sublist (a :: t) := List.singleton_sublist.2 (by simp)
      exact h1.append h2
    · exact absurd hb.symm hne
    · left
      have h2 : [a, b].Sublist (a :: t) := (List.singleton_sublist.2 hb).cons_cons a
      exact h2.trans (List.sublist_append_right s _)
  rcases hcase with hc | hc
  · exact (List.pairwise_iff_forall_sublist.1 hR) hc
  · exfalso
    have hsub := List.pair_sublist_mergeSort (le := le) h.trans h.total hba hc
    -- both orders in a duplicate-free list
    have : ∀ m : List α, m.Nodup → List.Sublist [a, b] m → List.Sublist [b, a] m → False := by
      intro m hm h1 h2
      have := List.pairwise_iff_forall_sublist (l := m) (R := fun x y => m.idxOf x < m.idxOf y)
      have hp : m.Pairwise (fun x y => m.idxOf x < m.idxOf y) := by
        rw [List.pairwise_iff_getElem]
        intro i j hi hj hij
        rw [hm.idxOf_getElem i hi, hm.idxOf_getElem j hj]
        exact hij
      have x := this.1 hp h1
      have y := this.1 hp h2
      omega
    exact this _ hnd' hab hsub

omit [DecidableEq α] in
theorem ruleLe_preord (kle : K → K → Bool) (h : Preord kle) (r : Rule α K) :
    Preord (ruleLe kle r) := by
  constructor
  · intro a b c
    unfold ruleLe
    cases r.key a <;> cases r.key b <;> cases r.key c <;> simp
    split
    · intro h1 h2; exact h.trans _ _ _ h2 h1
    · intro h1 h2; exact h.trans _ _ _ h1 h2
  · intro a b
    unfold ruleLe
    cases r.key a with
    | none => simp
    | some x =>
      cases r.key b with
      | none => simp
      | some y =>
        dsimp only
        split
        · exact h.total y x
        · exact h.total x y

omit [DecidableEq α] in
theorem sortRule_perm {kle : K → K → Bool} {r : Rule α K} {l m : List α}
    (h : sortRule kle r l = some m) : m.Perm l := by
  unfold sortRule at h
  split at h
  · injection h with h; subst h; exact List.Perm.refl _
  · split at h
    · injection h with h; subst h; exact List.mergeSort_perm _ _
    · cases h

omit [DecidableEq α] in
theorem sortRules_perm {kle : K → K → Bool} : ∀ {rs : List (Rule α K)} {l m : List α},
    sortRules kle rs l = some m → m.Perm l
  | [], l, m, h => by injection h with h; subst h; exact List.Perm.refl _
  | r :: rs, l, m, h => by
    unfold sortRules at h
    cases h1 : sortRules kle rs l with
    | none => rw [h1] at h; cases h
    | some n =>
      rw [h1] at h
      exact (sortRule_perm h).trans (sortRules_perm h1)

theorem sortRule_before {kle : K → K → Bool} (hk : Preord kle) {r : Rule α K} {l m : List α}
    (h : sortRule kle r l = some m) (hnd : l.Nodup) (R : α → α → Prop) (hR : l.Pairwise R) :
    m.Pairwise (fun a b => ruleLe kle r a b = true ∧ (ruleLe kle r b a = true → R a b) ∧
      (r.key a).isSome ∧ (r.key b).isSome) := by
  unfold sortRule at h
  by_cases h2 : l.length < 2
  · rw [if_pos h2] at h
    injection h with h; subst h
    rcases l with _ | ⟨a, _ | ⟨b, l⟩⟩
    · exact List.Pairwise.nil
    · simp
    · simp at h2; omega
  · rw [if_neg h2] at h
    split at h
    · rename_i hall
      injection h with h; subst h
      have hl := mergeSort_lex _ (ruleLe_preord kle hk r) R l hnd hR
      rw [List.pairwise_iff_forall_sublist] at hl ⊢
      intro a b hab
      rw [List.all_eq_true] at hall
      have ha := hall a ((List.mergeSort_perm l _).mem_iff.1 (hab.subset (by simp)))
      have hb := hall b ((List.mergeSort_perm l _).mem_iff.1 (hab.subset (by simp)))
      exact ⟨(hl hab).1, (hl hab).2, ha, hb⟩
    · cases h

theorem sortRules_before {kle : K → K → Bool} (hk : Preord kle) (tie : α → α → Prop) :
    ∀ {rs : List (Rule α K)} {l m : List α}, l.Nodup → l.Pairwise tie →
      sortRules kle rs l = some m → m.Pairwise (Before kle tie rs)
  | [], l, m, _, ht, h => by injection h with h; subst h; exact ht
  | r :: rs, l, m, hnd, ht, h => by
    unfold sortRules at h
    cases h1 : sortRules kle rs l with
    | none => rw [h1] at h; cases h
    | some n =>
      rw [h1] at h
      have ih := sortRules_before hk tie hnd ht h1
      have hndn : n.Nodup := (sortRules_perm h1).nodup_iff.2 hnd
      refine (sortRule_before hk h hndn _ ih).imp ?_
      intro a b hab
      obtain ⟨h1, h2, h3, h4⟩ := hab
      unfold ruleLe at h1 h2
      unfold Before
      cases hka : r.key a with
      | none => rw [hka] at h3; cases h3
      | some x =>
        cases hkb : r.key b with
        | none => rw [hkb] at h4; cases h4
        | some y =>
          rw [hka, hkb] at h1 h2
          dsimp only at h1 h2 ⊢
          split
          · rename_i hd
            rw [if_pos hd] at h1 h2
            exact ⟨h1, h2⟩
          · rename_i hd
            rw [if_neg hd] at h1 h2
            exact ⟨h1, h2⟩

omit [DecidableEq α] in
/-- C70: ordering only rearranges the entities. -/
theorem C70_rearranges (ele : α → α → Bool) (kle : K → K → Bool) (paging : Bool)
    (rules : List (Rule α K)) (l m : List α)
    (h : orderEntities ele kle paging rules l = some m) : m.Perm l := by
  have := sortRules_perm h
  cases paging with
  | true => exact this.trans (List.mergeSort_perm _ _)
  | false => exact this

/-- C70: while paging, the entities come out sorted by the first rule, then by the second among
those equal on the first, and so on, and by their keys when all rules agree; descending rules are
reversed one by one. -/
theorem C70_sorted_paging (ele : α → α → Bool) (kle : K → K → Bool) (he : Preord ele)
    (hk : Preord kle) (rules : List (Rule α K)) (l m : List α) (hnd : l.Nodup)
    (h : orderEntities ele kle true rules l = some m) :
    m.Pairwise (Before kle (fun a b => ele a b = true) rules) :=
  sortRules_before hk _ ((List.mergeSort_perm l ele).nodup_iff.2 hnd)
    (List.pairwise_mergeSort he.trans he.total l) h

/-- C70: without paging, ties keep the order in which the store gave the entities. -/
theorem C70_sorted_stable (ele : α → α → Bool) (kle : K → K → Bool)
    (hk : Preord kle) (rules : List (Rule α K)) (l m : List α) (hnd : l.Nodup)
    (h : orderEntities ele kle false rules l = some m) :
    m.Pairwise (Before kle (fun a b => l.idxOf a < l.idxOf b) rules) := by
  apply sortRules_before hk _ hnd _ h
  rw [List.pairwise_iff_getElem]
  intro i j hi hj hij
  rw [hnd.idxOf_getElem i hi, hnd.idxOf_getElem j hj]
  exact hij

omit [DecidableEq α] in
theorem before_antisymm (ele : α → α → Bool) (kle : K → K → Bool)
    (hanti : ∀ a b, ele a b = true → ele b a = true → a = b) : ∀ (rules : List (Rule α K)) (a b : α),
    Before kle (fun a b => ele a b = true) rules a b →
    Before kle (fun a b => ele a b = true) rules b a → a = b
  | [], a, b, h1, h2 => hanti a b h1 h2
  | r :: rs, a, b, h1, h2 => by
    unfold Before at h1 h2
    cases hka : r.key a with
    | none => rw [hka] at h1; exact h1.elim
    | some x =>
      cases hkb : r.key b with
      | none => rw [hka, hkb] at h1; exact h1.elim
      | some y =>
        rw [hka, hkb] at h1
        rw [hkb, hka] at h2
        dsimp only at h1 h2
        by_cases hd : r.desc = true
        · rw [if_pos hd] at h1 h2
          exact before_antisymm ele kle hanti rs a b (h1.2 h2.1) (h2.2 h1.1)
        · rw [if_neg hd] at h1 h2
          exact before_antisymm ele kle hanti rs a b (h1.2 h2.1) (h2.2 h1.1)

omit [DecidableEq α] in
theorem sortRules_none_iff {kle : K → K → Bool} : ∀ {rs : List (Rule α K)} {l : List α},
    sortRules kle rs l = none ↔ 2 ≤ l.length ∧ ∃ r ∈ rs, ∃ a ∈ l, r.key a = none
  | [], l => by simp [sortRules]
  | r :: rs, l => by
    unfold sortRules
    cases h1 : sortRules kle rs l with
    | none =>
      have := sortRules_none_iff.1 h1
      simp only [Option.bind]
      refine ⟨fun _ => ⟨this.1, ?_⟩, fun _ => trivial⟩
      obtain ⟨_, r', hr', x⟩ := this
      exact ⟨r', by simp [hr'], x⟩
    | some n =>
      have hp := sortRules_perm h1
      have hnot : ¬ (2 ≤ l.length ∧ ∃ r ∈ rs, ∃ a ∈ l, r.key a = none) := by
        rw [← sortRules_none_iff (kle := kle), h1]; simp
      simp only [Option.bind]
      unfold sortRule
      rw [hp.length_eq]
      by_cases h2 : l.length < 2
      · rw [if_pos h2]
        simp; omega
      · rw [if_neg h2]
        by_cases hall : n.all (fun a => (r.key a).isSome) = true
        · rw [if_pos hall]
          rw [List.all_eq_true] at hall
          constructor
          · intro h; cases h
          · rintro ⟨hl, r', hr', a, ha, hn⟩
            rw [List.mem_cons] at hr'
            rcases hr' with rfl | hr'
            · have := hall a (hp.mem_iff.2 ha)
              rw [hn] at this; cases this
            · exact absurd ⟨hl, r', hr', a, ha, hn⟩ hnot
        · rw [if_neg hall]
          refine ⟨fun _ => ⟨by omega, r, by simp, ?_⟩, fun _ => by trivial⟩
          rw [List.all_eq_true] at hall
          apply Classical.byContradiction
          intro hno
          apply hall
          intro a ha
          cases hka : r.key a with
          | none => exact absurd ⟨a, hp.mem_iff.1 ha, hka⟩ hno
          | some x => rfl

/-- C70: while paging, the order does not depend on the order in which the store holds the
entities: two requests over the same entities see the same sequence, so positions (`$skip`, skip
tokens) mean the same in both. -/
theorem C70_paging_deterministic (ele : α → α → Bool) (kle : K → K → Bool) (he : Preord ele)
    (hk : Preord kle) (hanti : ∀ a b, ele a b = true → ele b a = true → a = b)
    (rules : List (Rule α K)) (l₁ l₂ : List α) (hnd : l₁.Nodup) (hp : l₁.Perm l₂) :
    orderEntities ele kle true rules l₁ = orderEntities ele kle true rules l₂ := by
  cases h1 : orderEntities ele kle true rules l₁ with
  | none =>
    cases h2 : orderEntities ele kle true rules l₂ with
    | none => rfl
    | some m =>
      exfalso
      have hn := sortRules_none_iff.1 h1
      have hs : ¬ sortRules kle rules (sortKey ele l₂) = none := by
        show ¬ orderEntities ele kle true rules l₂ = none
        rw [h2]; simp
      apply hs
      rw [sortRules_none_iff]
      have hpp : (sortKey ele l₁).Perm (sortKey ele l₂) :=
        (List.mergeSort_perm _ _).trans (hp.trans (List.mergeSort_perm _ _).symm)
      obtain ⟨a, r, hr, x, hx, hxn⟩ := hn
      have hx' : x ∈ sortKey ele l₁ := hx
      have a' : 2 ≤ (sortKey ele l₁).length := a
      exact ⟨by rw [← hpp.length_eq]; exact a', r, hr, x, hpp.mem_iff.1 hx', hxn⟩
  | some m₁ =>
    cases h2 : orderEntities ele kle true rules l₂ with
    | none =>
      exfalso
      have hn := sortRules_none_iff.1 h2
      have hs : ¬ sortRules kle rules (sortKey ele l₁) = none := by
        show ¬ orderEntities ele kle true rules l₁ = none
        rw [h1]; simp
      apply hs
      rw [sortRules_none_iff]
      have hpp : (sortKey ele l₁).Perm (sortKey ele l₂) :=
        (List.mergeSort_perm _ _).trans (hp.trans (List.mergeSort_perm _ _).symm)
      obtain ⟨a, r, hr, x, hx, hxn⟩ := hn
      have hx' : x ∈ sortKey ele l₂ := hx
      have a' : 2 ≤ (sortKey ele l₂).length := a
      exact ⟨by rw [hpp.length_eq]; exact a', r, hr, x, hpp.mem_iff.2 hx', hxn⟩
    | some m₂ =>
      have s1 := C70_sorted_paging ele kle he hk rules l₁ m₁ hnd h1
      have s2 := C70_sorted_paging ele kle he hk rules l₂ m₂ (hp.nodup_iff.1 hnd) h2
      have p12 : m₁.Perm m₂ := (C70_rearranges ele kle true rules l₁ m₁ h1).trans
        (hp.trans (C70_rearranges ele kle true rules l₂ m₂ h2).symm)
      congr 1
      exact p12.eq_of_pairwise (fun a b _ _ => before_antisymm ele kle hanti rules a b) s1 s2

omit [DecidableEq α] in
/-- C70: ordering fails (TypeError) exactly when there are two or more entities and some rule is
null for one of them. -/
theorem C70_null_order_key (ele : α → α → Bool) (kle : K → K → Bool) (paging : Bool)
    (rules : List (Rule α K)) (l : List α) :
    orderEntities ele kle paging rules l = none ↔
      2 ≤ l.length ∧ ∃ r ∈ rules, ∃ a ∈ l, r.key a = none := by
  unfold orderEntities
  rw [sortRules_none_iff]
  cases paging with
  | false => simp
  | true =>
    have hp : (sortKey ele l).Perm l := List.mergeSort_perm _ _
    simp only [if_true, hp.length_eq, hp.mem_iff]

/-- C70, violated: a single null value among two entities makes the whole collection unreadable in
that order (the OData conventions sort nulls first). -/
theorem C70_violation_null :
    ∃ (l : List Nat) (r : Rule Nat Nat),
      orderEntities (fun a b => decide (a ≤ b)) (fun a b => decide (a ≤ b)) false [r] l = none :=
  ⟨[1, 2], ⟨fun a => if a = 1 then none else some 0, false⟩, by decide +kernel⟩

/-- C70 with C63: paging through an ordered collection, with the entities stored in any order at
each request, delivers the page of one fixed sequence. -/
theorem C70_pages_fixed_sequence (ele : α → α → Bool) (kle : K → K → Bool) (he : Preord ele)
    (hk : Preord kle) (hanti : ∀ a b, ele a b = true → ele b a = true → a = b)
    (rules : List (Rule α K)) (l : List α) (hnd : l.Nodup) (m : List α)
    (h : orderEntities ele kle true rules l = some m) (l' : List α) (hp : l.Perm l')
    (n skip : Nat) (hn : 0 < n) :
    (orderEntities ele kle true rules l').map
        (fun es => (Paging.serve es n none (some skip) none).1) =
      some (Paging.pageSpec m skip n 0) := by
  rw [← C70_paging_deterministic ele kle he hk hanti rules l l' hnd hp, h]
  simp only [Option.map]
  rw [Paging.C69_page m n skip none hn (by simp)]

example : orderEntities (fun a b : Nat × Nat => decide (a.1 ≤ b.1)) (fun a b : Nat => decide (a ≤ b))
    true [⟨fun a => some a.2, true⟩] [(3, 1), (1, 1), (2, 5)] = some [(2, 5), (1, 1), (3, 1)] := by
  simp [orderEntities, sortRules, sortRule, sortKey, ruleLe, List.mergeSort,
    List.MergeSort.Internal.splitInTwo]

example : Preord (fun a b : Nat => decide (a ≤ b)) :=
  ⟨fun a b c => by simp; omega, fun a b => by simp; omega⟩

end Verif.OData.OrderBy

import Verif.Xml.Gen

/-! # Writing and reading elements (C80): proofs -/
namespace Verif.Xml

/-! ## Space -/

/-- `smode` at the end of a text. -/
def endMode : Bool → Str → Bool
  | m, [] => m
  | _, c :: t => endMode (isS c) t

theorem squeeze_append (a b : Str) : ∀ m, squeeze m (a ++ b) = squeeze m a ++ squeeze (endMode m a) b := by
  induction a with
  | nil => intro m; simp [squeeze, endMode]
  | cons c a ih =>
    intro m
    simp only [List.cons_append, squeeze, endMode]
    by_cases hc : isS c = true
    · rw [if_pos hc, if_pos hc, hc, ih]
      cases m <;> simp
    · have : isS c = false := by simpa using hc
      rw [if_neg hc, if_neg hc, this, ih]
      simp

theorem squeeze_length (s : Str) : ∀ m, (squeeze m s).length ≤ s.length := by
  induction s with
  | nil => intro m; simp [squeeze]
  | cons c s ih =>
    intro m
    unfold squeeze
    split
    · split
      · have := ih true; simp; omega
      · have := ih true; simp; omega
    · have := ih false; simp; omega

theorem squeeze_idem (s : Str) : ∀ m, squeeze m (squeeze m s) = squeeze m s := by
  induction s with
  | nil => intro m; simp [squeeze]
  | cons c s ih =>
    intro m
    rw [squeeze]
    by_cases hc : isS c = true
    · rw [if_pos hc]
      cases m
      · rw [if_neg (by simp)]
        rw [squeeze, if_pos (by decide), if_neg (by simp), ih]
      · rw [if_pos rfl, ih]
    · rw [if_neg hc, squeeze, if_neg hc, ih]

theorem squeeze_mem (s : Str) : ∀ m, ∀ c ∈ squeeze m s, c = 32 ∨ c ∈ s := by
  induction s with
  | nil => intro m c h; simp [squeeze] at h
  | cons x s ih =>
    intro m c h
    unfold squeeze at h
    split at h
    · split at h
      · rcases ih _ c h with h | h
        · exact Or.inl h
        · exact Or.inr (by simp [h])
      · rcases List.mem_cons.1 h with h | h
        · exact Or.inl h
        · rcases ih _ c h with h | h
          · exact Or.inl h
          · exact Or.inr (by simp [h])
    · rcases List.mem_cons.1 h with h | h
      · exact Or.inr (by simp [h])
      · rcases ih _ c h with h | h
        · exact Or.inl h
        · exact Or.inr (by simp [h])

theorem squeeze_false_ne {s : Str} (h : s ≠ []) : squeeze false s ≠ [] := by
  cases s with
  | nil => exact absurd rfl h
  | cons c s =>
    unfold squeeze
    split
    · simp
    · simp

theorem squeeze_true_head (s : Str) : ∀ c, (squeeze true s).head? = some c → isS c = false := by
  induction s with
  | nil => intro c h; simp [squeeze] at h
  | cons x s ih =>
    intro c h
    unfold squeeze at h
    split at h
    · rw [if_pos rfl] at h; exact ih c h
    · rename_i hx; simp at h; subst h; simpa using hx

/-- The parts of a text that is not changed are not changed. -/
theorem fixed_append {m : Bool} {a b : Str} (h : squeeze m (a ++ b) = a ++ b) :
    squeeze m a = a ∧ squeeze (endMode m a) b = b := by
  rw [squeeze_append] at h
  have h1 := squeeze_length a m
  have h2 := squeeze_length b (endMode m a)
  have h3 := congrArg List.length h
  simp only [List.length_append] at h3
  exact List.append_inj h (by omega)

theorem endMode_append (a b : Str) : ∀ m, endMode m (a ++ b) = endMode (endMode m a) b := by
  induction a with
  | nil => intro m; rfl
  | cons c a ih => intro m; exact ih _

theorem collapse_mem {m : Bool} {s : Str} : ∀ c ∈ collapse m s, c = 32 ∨ c ∈ s := by
  intro c h
  unfold collapse at h
  split at h
  · simp at h; exact Or.inl h
  · exact squeeze_mem s m c h

theorem collapse_ne (m : Bool) (s : Str) : collapse m s ≠ [] := by
  unfold collapse
  split
  · simp
  · assumption

/-- The data of a child that is not the last. -/
theorem collapse_fixed {m : Bool} {s : Str} (h : m = false ∨ collapse m s ≠ [32]) (hs : s ≠ []) :
    squeeze m (collapse m s) = collapse m s := by
  unfold collapse at h ⊢
  by_cases he : squeeze m s = []
  · rw [if_pos he] at h
    rcases h with rfl | h
    · exact absurd he (squeeze_false_ne hs)
    · exact absurd rfl h
  · rw [if_neg he]
    exact squeeze_idem s m

theorem collapse_idem (m : Bool) {s : Str} (hs : s ≠ []) : collapse m (collapse m s) = collapse m s := by
  by_cases h : m = false ∨ collapse m s ≠ [32]
  · have := collapse_fixed h hs
    show (if squeeze m (collapse m s) = [] then [32] else squeeze m (collapse m s)) = _
    rw [this, if_neg (collapse_ne m s)]
  · simp only [not_or, Decidable.not_not] at h
    rw [h.2]
    have : m = true := by simpa using h.1
    subst this
    decide

/-! ## Canonical children -/

/-- Data of a child before an element. -/
def mid (m : Bool) (s : Str) : List (Str ⊕ α) :=
  if m = false ∨ collapse m s ≠ [32] then [.inl (collapse m s)] else []

/-- Data of the last child. -/
def fin (m : Bool) (s : Str) : List (Str ⊕ α) :=
  if collapse m s = [32] then (if m then [.inl []] else [])
  else if (collapse m s).getLast? = some 32 then [.inl (collapse m s).dropLast]
  else [.inl (collapse m s)]

theorem loop_fin (m : Bool) (s : Str) : canonLoop (α := α) none m [.inl s] = fin m s := by
  simp [canonLoop, fin]

theorem loop_mid (m : Bool) (s : Str) (e : α) (ks : List (Str ⊕ α)) :
    canonLoop none m (.inl s :: .inr e :: ks) = mid m s ++ .inr e :: canonLoop none false ks := by
  simp [canonLoop, mid]

theorem loop_elt (m : Bool) (e : α) (ks : List (Str ⊕ α)) :
    canonLoop none m (.inr e :: ks) = .inr e :: canonLoop none false ks := by
  simp [canonLoop]

/-- Children as `add_data` and `add_child` make them: data is not empty, and not next to other data. -/
def GoodItems {α : Type} (ok : Nat → Prop) : List (Str ⊕ α) → Prop
  | [] => True
  | .inl s :: ks => s ≠ [] ∧ (∀ c ∈ s, ok c) ∧ (∀ s' ks', ks ≠ .inl s' :: ks') ∧ GoodItems ok ks
  | .inr _ :: ks => GoodItems ok ks

/-- Cases of good children. -/
theorem good_cases {ok : Nat → Prop} {P : List (Str ⊕ α) → Prop} (h0 : P [])
    (h1 : ∀ s, s ≠ [] → (∀ c ∈ s, ok c) → P [.inl s])
    (h2 : ∀ s e ks, s ≠ [] → (∀ c ∈ s, ok c) → GoodItems ok ks → P ks → P (.inl s :: .inr e :: ks))
    (h3 : ∀ e ks, GoodItems ok ks → P ks → P (.inr e :: ks)) : ∀ ks, GoodItems ok ks → P ks
  | [], _ => h0
  | [.inl s], h => h1 s h.1 h.2.1
  | .inl s :: .inl s' :: ks, h => absurd rfl (h.2.2.1 s' ks)
  | .inl s :: .inr e :: ks, h => h2 s e ks h.1 h.2.1 h.2.2.2 (good_cases h0 h1 h2 h3 ks h.2.2.2)
  | .inr e :: ks, h => h3 e ks h (good_cases h0 h1 h2 h3 ks h)

theorem fin_idem {s : Str} (hs : s ≠ []) :
    fin (α := α) false s = [] ∨ ∃ x, fin (α := α) false s = [.inl x] ∧ fin (α := α) false x = [.inl x] ∧
      x ≠ [] ∧ (∀ c ∈ x, c = 32 ∨ c ∈ s) := by
  have hfix : squeeze false (collapse false s) = collapse false s := collapse_fixed (Or.inl rfl) hs
  have hmem := @collapse_mem false s
  have hne := collapse_ne false s
  unfold fin
  by_cases h1 : collapse false s = [32]
  · rw [if_pos h1]; exact Or.inl rfl
  rw [if_neg h1]
  generalize collapse false s = y at *
  right
  have hcol : ∀ x, squeeze false x = x → x ≠ [] → collapse false x = x := by
    intro x hx hxne
    unfold collapse
    rw [hx, if_neg hxne]
  by_cases h2 : y.getLast? = some 32
  · rw [if_pos h2]
    obtain ⟨z, rfl⟩ : ∃ z, y = z ++ [32] := by
      rcases List.eq_nil_or_concat y with rfl | ⟨z, a, rfl⟩
      · simp at h2
      · simp [List.concat_eq_append] at h2; subst h2; exact ⟨z, by simp⟩
    have hz : z ≠ [] := by rintro rfl; exact h1 rfl
    obtain ⟨f1, f2⟩ := fixed_append hfix
    refine ⟨z, by simp, ?_, hz, fun c hc => hmem c (by simp [hc])⟩
    have hmode : endMode false z = false := by
      by_contra hm
      have : endMode false z = true := by simpa using hm
      rw [this] at f2
      exact absurd f2 (by decide)
    have hlast : z.getLast? ≠ some 32 := by
      intro hl
      obtain ⟨w, rfl⟩ : ∃ w, z = w ++ [32] := by
        rcases List.eq_nil_or_concat z with rfl | ⟨w, a, rfl⟩
        · simp at hl
        · simp [List.concat_eq_append] at hl; subst hl; exact ⟨w, by simp⟩
      rw [endMode_append] at hmode
      simp [endMode, isS] at hmode
    rw [hcol z f1 hz, if_neg, if_neg hlast]
    rintro rfl
    simp at hlast
  · rw [if_neg h2]
    refine ⟨y, rfl, ?_, hne, hmem⟩
    rw [hcol y hfix hne, if_neg h1, if_neg h2]

theorem mid_idem {m : Bool} {s : Str} (hs : s ≠ []) :
    (m = true ∧ mid (α := α) m s = []) ∨ ∃ x, mid (α := α) m s = [.inl x] ∧ mid (α := α) m x = [.inl x] ∧
      x ≠ [] ∧ (∀ c ∈ x, c = 32 ∨ c ∈ s) := by
  unfold mid
  by_cases h : m = false ∨ collapse m s ≠ [32]
  · rw [if_pos h]
    refine Or.inr ⟨_, rfl, ?_, collapse_ne m s, collapse_mem⟩
    rw [collapse_idem m hs, if_pos h]
  · rw [if_neg h]
    simp only [not_or] at h
    exact Or.inl ⟨by simpa using h.1, rfl⟩

theorem loop_idem {ok : Nat → Prop} (ks : List (Str ⊕ α)) (h : GoodItems ok ks) :
    canonLoop none false (canonLoop none false ks) = canonLoop none false ks := by
  refine good_cases (ok := ok)
    (P := fun ks => canonLoop none false (canonLoop none false ks) = canonLoop none false ks)
    ?_ ?_ ?_ ?_ ks h
  · simp [canonLoop]
  · intro s hs _
    rw [loop_fin]
    rcases fin_idem (α := α) hs with h | ⟨x, h1, h2, _⟩
    · rw [h]; simp [canonLoop]
    · rw [h1, loop_fin, h2]
  · intro s e ks hs _ _ ih
    rw [loop_mid]
    rcases mid_idem (α := α) (m := false) hs with ⟨h, _⟩ | ⟨x, h1, h2, _⟩
    · cases h
    · rw [h1, List.singleton_append, loop_mid, h2, ih]
      rfl
  · intro e ks _ ih
    rw [loop_elt, loop_elt, ih]

theorem loop_good {ok : Nat → Prop} (h32 : ok 32) (ks : List (Str ⊕ α)) (h : GoodItems ok ks) :
    GoodItems ok (canonLoop none false ks) := by
  refine good_cases (ok := ok) (P := fun ks => GoodItems ok (canonLoop none false ks))
    ?_ ?_ ?_ ?_ ks h
  · simp [canonLoop, GoodItems]
  · intro s hs hok
    rw [loop_fin]
    rcases fin_idem (α := α) hs with h | ⟨x, h1, _, h3, h4⟩
    · rw [h]; trivial
    · rw [h1]
      refine ⟨h3, fun c hc => ?_, by simp, trivial⟩
      rcases h4 c hc with rfl | hc
      · exact h32
      · exact hok c hc
  · intro s e ks hs hok _ ih
    rw [loop_mid]
    rcases mid_idem (α := α) (m := false) hs with ⟨h, _⟩ | ⟨x, h1, _, h3, h4⟩
    · cases h
    · rw [h1]
      refine ⟨h3, fun c hc => ?_, by simp, ih⟩
      rcases h4 c hc with rfl | hc
      · exact h32
      · exact hok c hc
  · intro e ks _ ih
    rw [loop_elt]
    exact ih

/-- The two shapes of the result for several children. -/
theorem canon_many {ok : Nat → Prop} (ks : List (Str ⊕ α)) (h : GoodItems ok ks) :
    ks = [] ∨ (∃ s, ks = [.inl s] ∧ s ≠ [] ∧ ∀ c ∈ s, ok c) ∨
    (∃ s e ks', ks = .inl s :: .inr e :: ks' ∧ s ≠ [] ∧ (∀ c ∈ s, ok c) ∧ GoodItems ok ks' ∧
      canonKids false ks = mid true s ++ .inr e :: canonLoop none false ks') ∨
    (∃ e ks', ks = .inr e :: ks' ∧ GoodItems ok ks' ∧
      canonKids false ks = .inr e :: canonLoop none false ks') := by
  match ks, h with
  | [], _ => exact Or.inl rfl
  | [.inl s], h => exact Or.inr (Or.inl ⟨s, rfl, h.1, h.2.1⟩)
  | .inl s :: .inl s' :: ks, h => exact absurd rfl (h.2.2.1 s' ks)
  | .inl s :: .inr e :: ks, h =>
    refine Or.inr (Or.inr (Or.inl ⟨s, e, ks, rfl, h.1, h.2.1, h.2.2.2, ?_⟩))
    rw [← loop_mid]
    simp [canonKids]
  | .inr e :: ks, h =>
    refine Or.inr (Or.inr (Or.inr ⟨e, ks, rfl, h, ?_⟩))
    rw [← loop_elt true]
    cases ks <;> simp [canonKids]

theorem canonKids_elt (e : α) (ks : List (Str ⊕ α)) :
    canonKids false (.inr e :: ks) = .inr e :: canonLoop none false ks := by
  rw [← loop_elt true]
  cases ks <;> simp [canonKids]

theorem canonKids_mid (s : Str) (e : α) (ks : List (Str ⊕ α)) :
    canonKids false (.inl s :: .inr e :: ks) = mid true s ++ .inr e :: canonLoop none false ks := by
  rw [← loop_mid]
  simp [canonKids]

theorem canonKids_idem {ok : Nat → Prop} (p : Bool) (ks : List (Str ⊕ α)) (h : GoodItems ok ks) :
    canonKids p (canonKids p ks) = canonKids p ks := by
  cases p with
  | true => simp [canonKids]
  | false =>
    rcases canon_many ks h with rfl | ⟨s, rfl, hs, _⟩ | ⟨s, e, ks', rfl, hs, _, hk, he⟩ |
      ⟨e, ks', rfl, hk, he⟩
    · simp [canonKids]
    · simp [canonKids, collapse_idem true hs]
    · rw [he]
      rcases mid_idem (α := α) (m := true) hs with ⟨_, h⟩ | ⟨x, h1, h2, _⟩
      · rw [h, List.nil_append, canonKids_elt, loop_idem ks' hk]
      · rw [h1, List.singleton_append, canonKids_mid, h2, loop_idem ks' hk]
        rfl
    · rw [he, canonKids_elt, loop_idem ks' hk]

theorem canonKids_good {ok : Nat → Prop} (h32 : ok 32) (p : Bool) (ks : List (Str ⊕ α))
    (h : GoodItems ok ks) : GoodItems ok (canonKids p ks) := by
  cases p with
  | true => simpa [canonKids] using h
  | false =>
    rcases canon_many ks h with rfl | ⟨s, rfl, hs, hok⟩ | ⟨s, e, ks', rfl, hs, hok, hk, he⟩ |
      ⟨e, ks', rfl, hk, he⟩
    · simp [canonKids, GoodItems]
    · simp only [canonKids, Bool.false_eq_true, if_false]
      refine ⟨collapse_ne _ _, fun c hc => ?_, by simp, trivial⟩
      rcases collapse_mem c hc with rfl | hc
      · exact h32
      · exact hok c hc
    · rw [he]
      have hl := loop_good h32 ks' hk
      rcases mid_idem (α := α) (m := true) hs with ⟨_, h⟩ | ⟨x, h1, _, h3, h4⟩
      · rw [h]; exact hl
      · rw [h1]
        refine ⟨h3, fun c hc => ?_, by simp, hl⟩
        rcases h4 c hc with rfl | hc
        · exact h32
        · exact hok c hc
    · rw [he]; exact loop_good h32 ks' hk

/-- Related children. -/
inductive Rel {α β : Type} (R : α → β → Prop) : Str ⊕ α → Str ⊕ β → Prop where
  | inl (s : Str) : Rel R (.inl s) (.inl s)
  | inr {a : α} {b : β} : R a b → Rel R (.inr a) (.inr b)

theorem loop_rel {R : α → β → Prop} {xs : List (Str ⊕ α)} {ys : List (Str ⊕ β)}
    (h : List.Forall₂ (Rel R) xs ys) : ∀ (d : Option Str) (m : Bool),
    List.Forall₂ (Rel R) (canonLoop d m xs) (canonLoop d m ys) := by
  induction h with
  | nil =>
    intro d m
    cases d with
    | none => simp [canonLoop]
    | some d =>
      simp only [canonLoop]
      split
      · split
        · exact .cons (.inl _) .nil
        · exact .nil
      · split
        · exact .cons (.inl _) .nil
        · exact .cons (.inl _) .nil
  | @cons x y xs ys hxy _ ih =>
    intro d m
    cases hxy with
    | inl s =>
      cases d with
      | none => simp only [canonLoop]; exact ih _ _
      | some d => simp only [canonLoop]; exact ih _ _
    | inr hr =>
      cases d with
      | none => simp only [canonLoop]; exact .cons (.inr hr) (ih _ _)
      | some d =>
        simp only [canonLoop]
        split
        · exact .cons (.inl _) (.cons (.inr hr) (ih _ _))
        · exact .cons (.inr hr) (ih _ _)

theorem canon_rel {R : α → β → Prop} (p : Bool) {xs : List (Str ⊕ α)} {ys : List (Str ⊕ β)}
    (h : List.Forall₂ (Rel R) xs ys) : List.Forall₂ (Rel R) (canonKids p xs) (canonKids p ys) := by
  cases p with
  | true => simpa [canonKids] using h
  | false =>
    have hl := loop_rel h none true
    cases h with
    | nil => simp [canonKids]
    | @cons x y xs ys hxy h =>
      cases hxy with
      | inl s =>
        cases h with
        | nil => simp only [canonKids, Bool.false_eq_true, if_false]; exact .cons (.inl _) .nil
        | cons _ _ => simpa [canonKids] using hl
      | inr hr => cases h <;> simpa [canonKids] using hl

theorem rel_map (f : α → β) (xs : List (Str ⊕ α)) :
    List.Forall₂ (Rel fun a b => f a = b) xs (xs.map (Sum.map id f)) := by
  induction xs with
  | nil => exact .nil
  | cons x xs ih =>
    cases x with
    | inl s => exact .cons (.inl s) ih
    | inr a => exact .cons (.inr rfl) ih

theorem map_rel {f : α → β} {xs : List (Str ⊕ α)} {ys : List (Str ⊕ β)}
    (h : List.Forall₂ (Rel fun a b => f a = b) xs ys) : ys = xs.map (Sum.map id f) := by
  induction h with
  | nil => rfl
  | cons hx _ ih =>
    cases hx with
    | inl s => rw [ih]; rfl
    | inr h => subst h; rw [ih]; rfl

theorem canon_map (f : α → β) (p : Bool) (xs : List (Str ⊕ α)) :
    canonKids p (xs.map (Sum.map id f)) = (canonKids p xs).map (Sum.map id f) :=
  map_rel (canon_rel p (rel_map f xs))

/-! ## Attributes -/

theorem nameLe_refl (a : Str) : nameLe a a = true := by
  induction a with
  | nil => rfl
  | cons c a ih => simp [nameLe, ih]

theorem nameLe_total (a b : Str) : nameLe a b = true ∨ nameLe b a = true := by
  induction a generalizing b with
  | nil => left; simp [nameLe]
  | cons c a ih =>
    cases b with
    | nil => right; simp [nameLe]
    | cons d b =>
      simp only [nameLe, Bool.or_eq_true, decide_eq_true_eq, Bool.and_eq_true, beq_iff_eq]
      rcases Nat.lt_trichotomy c d with h | h | h
      · exact Or.inl (Or.inl h)
      · rcases ih b with h' | h'
        · exact Or.inl (Or.inr ⟨h, h'⟩)
        · exact Or.inr (Or.inr ⟨h.symm, h'⟩)
      · exact Or.inr (Or.inl h)

theorem nameLe_trans (a b c : Str) : nameLe a b = true → nameLe b c = true → nameLe a c = true := by
  induction a generalizing b c with
  | nil => intros; simp [nameLe]
  | cons x a ih =>
    cases b with
    | nil => intro h; simp [nameLe] at h
    | cons y b =>
      cases c with
      | nil => intro _ h; simp [nameLe] at h
      | cons z c =>
        simp only [nameLe, Bool.or_eq_true, decide_eq_true_eq, Bool.and_eq_true, beq_iff_eq]
        rintro (h1 | ⟨h1, h1'⟩) (h2 | ⟨h2, h2'⟩)
        · exact Or.inl (by omega)
        · exact Or.inl (by omega)
        · exact Or.inl (by omega)
        · exact Or.inr ⟨by omega, ih b c h1' h2'⟩

instance : Std.Total (fun a b : Str × Str => nameLe a.1 b.1 = true) := ⟨fun a b => nameLe_total a.1 b.1⟩

instance : IsTrans (Str × Str) (fun a b => nameLe a.1 b.1 = true) :=
  ⟨fun a b c => nameLe_trans a.1 b.1 c.1⟩

theorem sortAttrs_perm (a : List (Str × Str)) : (sortAttrs a).Perm a := List.perm_insertionSort _ a

theorem sortAttrs_idem (a : List (Str × Str)) : sortAttrs (sortAttrs a) = sortAttrs a :=
  List.Pairwise.insertionSort_eq (List.pairwise_insertionSort _ a)

theorem lookup_mem {a : List (Str × Str)} (h : (a.map Prod.fst).Nodup) (k v : Str) :
    a.lookup k = some v ↔ (k, v) ∈ a := by
  induction a with
  | nil => simp
  | cons x a ih =>
    obtain ⟨k', v'⟩ := x
    simp only [List.map_cons, List.nodup_cons] at h
    rw [List.lookup_cons]
    by_cases hk : k = k'
    · subst hk
      simp only [beq_self_eq_true, Option.some.injEq, List.mem_cons, Prod.mk.injEq, true_and]
      constructor
      · intro e; exact Or.inl e.symm
      · rintro (e | e)
        · exact e.symm
        · exact absurd (List.mem_map_of_mem (f := Prod.fst) e) h.1
    · have : (k == k') = false := by simpa using hk
      rw [this]
      simp only [List.mem_cons, Prod.mk.injEq]
      rw [ih h.2]
      constructor
      · exact Or.inr
      · rintro (⟨e, _⟩ | e)
        · exact absurd e hk
        · exact e

theorem presOf_sort (p : Bool) {a : List (Str × Str)} (h : (a.map Prod.fst).Nodup) :
    presOf p (sortAttrs a) = presOf p a := by
  have h' : ((sortAttrs a).map Prod.fst).Nodup := ((sortAttrs_perm a).map _).nodup_iff.2 h
  have : (sortAttrs a).lookup xmlSpace = a.lookup xmlSpace := by
    apply Option.ext
    intro v
    rw [lookup_mem h', lookup_mem h, (sortAttrs_perm a).mem_iff]
  unfold presOf
  rw [this]

/-! ## Elements -/

mutual
/-- Elements that can be written: names are names, no attribute is there twice, children are as
`add_data` and `add_child` make them, and characters are `ok`. -/
def GoodElt (ok : Nat → Prop) : Elt → Prop
  | .mk name attrs kids => GName name ∧ (∀ a ∈ attrs, GName a.1 ∧ ∀ c ∈ a.2, ok c) ∧
      (attrs.map Prod.fst).Nodup ∧ GoodKids ok kids
/-- Children that can be written. -/
def GoodKids (ok : Nat → Prop) : List Kid → Prop
  | [] => True
  | .text s :: ks => s ≠ [] ∧ (∀ c ∈ s, ok c) ∧ (∀ s' ks', ks ≠ .text s' :: ks') ∧ GoodKids ok ks
  | .elt e :: ks => GoodElt ok e ∧ GoodKids ok ks
end

theorem goodKids_key {ok : Nat → Prop} (p : Bool) : ∀ ks, GoodKids ok ks → GoodItems ok (keyKids p ks)
  | [], _ => by simp [keyKids, GoodItems]
  | .text s :: ks, h => by
    simp only [GoodKids] at h
    simp only [keyKids, GoodItems]
    refine ⟨h.1, h.2.1, ?_, goodKids_key p ks h.2.2.2⟩
    intro s' ks' he
    cases ks with
    | nil => simp [keyKids] at he
    | cons k ks =>
      cases k with
      | text s2 => exact h.2.2.1 s2 ks rfl
      | elt e => simp [keyKids] at he
  | .elt e :: ks, h => by
    simp only [GoodKids] at h
    simp only [keyKids, GoodItems]
    exact goodKids_key p ks h.2

theorem keyKids_toKid (p : Bool) (zs : List (Str ⊕ Elt)) :
    keyKids p (zs.map toKid) = zs.map (Sum.map id (key p)) := by
  induction zs with
  | nil => simp [keyKids]
  | cons z zs ih =>
    cases z with
    | inl s => simp [toKid, keyKids, ih]
    | inr e => simp [toKid, keyKids, ih]

mutual
theorem key_idem {ok : Nat → Prop} (p : Bool) : ∀ e, GoodElt ok e → key p (key p e) = key p e
  | .mk name attrs kids, h => by
    simp only [GoodElt] at h
    obtain ⟨_, _, h3, h4⟩ := h
    simp only [key]
    rw [presOf_sort p h3, sortAttrs_idem, keyKids_toKid, ← canon_map, keyKids_idem _ kids h4,
      canonKids_idem _ _ (goodKids_key _ kids h4)]
theorem keyKids_idem {ok : Nat → Prop} (p : Bool) : ∀ ks, GoodKids ok ks →
    (keyKids p ks).map (Sum.map id (key p)) = keyKids p ks
  | [], _ => by simp [keyKids]
  | .text s :: ks, h => by
    simp only [GoodKids] at h
    simp only [keyKids, List.map_cons, Sum.map_inl, id_eq]
    rw [keyKids_idem p ks h.2.2.2]
  | .elt e :: ks, h => by
    simp only [GoodKids] at h
    simp only [keyKids, List.map_cons, Sum.map_inr]
    rw [key_idem p e h.1, keyKids_idem p ks h.2]
end

end Verif.Xml

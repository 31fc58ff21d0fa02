import Verif.Qti1.Cond
import Verif.Qti1.RespProc
import Verif.Qti.Containers
/-
C169: migration of the actions of QTI version 1 response conditions, `setvar` and
`displayfeedback` (pyslet/qtiv1/common.py:1307-1400, item.py:2367-2376).
-/
namespace Verif.Qti1
open Verif.Qti

/-! ## Model -/

/-- core.py `Action`: Set (also when the attribute is missing), Add, Subtract, Multiply, Divide. -/
inductive Action
  | set | add | subtract | multiply | divide
  deriving DecidableEq, Repr

/-- common.py:1326-1358 `SetVar.migrate_rule_to_v2`; `none` for an exception.  The text is taken
without the surrounding space. -/
def migrateSetVar (K : Ctx) (name : Str) (a : Action) (text : Str) : Option Rule :=
  let id := Region.validateIdentifier name [95]
  match dget id K.decls with
  | none => none
  | some d =>
    if d.card = .single then
      match d.bt with
      | none => none
      | some t =>
        let var : Expr := .leaf (.variable id)
        let value : Expr := .leaf (.baseValue t (K.read t text))
        some (.set .outcome id (some (match a with
          | .set => value
          | .add => .nary .sum [var, value]
          | .subtract => .nary .subtract [var, value]
          | .multiply => .nary .product [var, value]
          | .divide => .nary .divide [var, value])))
    else none

/-- "FEEDBACK" -/
def nFeedback : Str := [70, 69, 69, 68, 66, 65, 67, 75]

/-- common.py:1383-1400 `DisplayFeedback.migrate_rule_to_v2`: the rule added.  The name is used as
it stands (the result of `ValidateIdentifier` in 1385 is not used). -/
def migrateFeedbackRule (link : Str) : Rule :=
  .set .outcome nFeedback (some (.nary .multiple
    [.leaf (.variable nFeedback), .leaf (.baseValue .identifier (some (.str link)))]))

/-- item.py:2372-2375 `ItemFeedback.migrate_to_v2`: the identifier of the feedback. -/
def feedbackIdentifier (ident : Str) : Str :=
  Region.validateIdentifier ident [70, 69, 69, 68, 66, 65, 67, 75, 95]

/-! ## Specification -/

/-- The run ended normally, the variable `id` has the value `v`, and nothing else changed. -/
def SetsTo (r : Run) (st : State) (id : Str) (v : Val) : Prop :=
  r.2 = none ∧ dget id r.1.map = some v ∧ (∀ n, n ≠ id → dget n r.1.map = dget n st.map) ∧
    r.1.decls = st.decls ∧ r.1.lower = st.lower

/-- An outcome variable of the item, declared with one value of base type `t`. -/
def OutcomeOf (K : Ctx) (st : State) (id : Str) (t : BaseType) : Prop :=
  st.decls = K.decls ∧ ∃ d, dget id K.decls = some d ∧ d.kind = .outcome ∧ d.card = .single ∧
    d.bt = some t

/-! ## Proof -/

theorem run_set_core {st : State} {id : Str} {d : Decl} {e : Expr} {v w u : Val}
    (hd : dget id st.decls = some d) (hk : d.kind = .outcome) (hv : dget id st.map = some v)
    (he : eval st e = .ok w) (hwt : w.bt = v.bt) (hwc : w.card = v.card)
    (hsv : setVal v w = .ok u) : SetsTo ((Rule.set .outcome id (some e)).run st) st id u := by
  have hdecl : st.getDecl id = .ok (some d) := by
    simp only [State.getDecl, hv, hd]
  have hisout : st.isOutcome id = .ok true := by
    simp only [State.isOutcome, hdecl]
    show (Except.ok (decide (d.kind = Kind.outcome)) : R Bool) = _
    rw [hk]
    rfl
  have hset : st.set id w = .ok { st with map := dset id u st.map } := by
    simp only [State.set, State.get, hv]
    show (if w.card ≠ none ∧ w.card ≠ v.card then _ else if w.bt ≠ none ∧ w.bt ≠ v.bt then _
      else _) = _
    rw [if_neg (by rw [hwc]; simp), if_neg (by rw [hwt]; simp), hsv]
    rfl
  have hrun : runSet .outcome id (some e) st = .ok { st with map := dset id u st.map } := by
    simp only [runSet, he]
    show (st.isOutcome id >>= fun b => if b = true then st.set id w else .error .processing) = _
    rw [hisout]
    show (if true = true then st.set id w else .error .processing) = _
    rw [if_pos rfl, hset]
  have h : (Rule.set .outcome id (some e)).run st =
      ({ st with map := dset id u st.map }, none) := by
    simp only [Rule.run, hrun]
  rw [h]
  refine ⟨rfl, ?_, ?_, rfl, rfl⟩
  · rw [dget_dset]; simp
  · intro n hn
    rw [dget_dset, if_neg]
    exact fun h => hn h.symm

theorem run_set_outcome {K : Ctx} {st : State} {id : Str} {t : BaseType} {e : Expr} {v w : Val}
    (ho : OutcomeOf K st id t) (hv : dget id st.map = some v) (hvt : v.bt = some t)
    (hvc : v.card = some .single) (he : eval st e = .ok w) (hwt : w.bt = some t)
    (hwc : w.card = some .single) (hw : w.wf) :
    SetsTo ((Rule.set .outcome id (some e)).run st) st id w := by
  obtain ⟨hd, d, hd1, hk, _, _⟩ := ho
  have hsv : setVal v w = .ok w := by
    cases v with
    | single tv ov =>
      simp only [Val.bt] at hvt
      subst hvt
      cases w with
      | single tw ow =>
        simp only [Val.bt] at hwt
        subst hwt
        cases ow with
        | none => rfl
        | some x =>
          have hx := single_ok hw
          simp only [setVal, coerce_id hx]
          rfl
      | _ => simp [Val.card] at hwc
    | _ => simp [Val.card] at hvc
  exact run_set_core (by rw [hd]; exact hd1) hk hv he (by rw [hwt, hvt]) (by rw [hwc, hvc]) hsv

theorem migrateSetVar_eq {K : Ctx} {st : State} {name : Str} {t : BaseType} (a : Action)
    (text : Str) (ho : OutcomeOf K st (Region.validateIdentifier name [95]) t) :
    migrateSetVar K name a text = some (.set .outcome (Region.validateIdentifier name [95])
      (some (match a with
        | .set => .leaf (.baseValue t (K.read t text))
        | .add => .nary .sum [.leaf (.variable (Region.validateIdentifier name [95])),
            .leaf (.baseValue t (K.read t text))]
        | .subtract => .nary .subtract [.leaf (.variable (Region.validateIdentifier name [95])),
            .leaf (.baseValue t (K.read t text))]
        | .multiply => .nary .product [.leaf (.variable (Region.validateIdentifier name [95])),
            .leaf (.baseValue t (K.read t text))]
        | .divide => .nary .divide [.leaf (.variable (Region.validateIdentifier name [95])),
            .leaf (.baseValue t (K.read t text))]))) := by
  obtain ⟨_, d, h1, _, h2, h3⟩ := ho
  simp only [migrateSetVar, h1, h2, h3, if_true]

theorem eval_lit (st : State) (t : BaseType) (o : Option Datum) :
    eval st (.leaf (.baseValue t o)) = .ok (.single (some t) o) := by
  rw [eval]; rfl

/-- C169, action Set, every base type: the outcome gets the value of the text. -/
theorem C169_set {K : Ctx} {st : State} {name text : Str} {t : BaseType} {y : Datum}
    {o : Option Datum} (ho : OutcomeOf K st (Region.validateIdentifier name [95]) t)
    (hv : dget (Region.validateIdentifier name [95]) st.map = some (.single (some t) o))
    (hy : K.read t text = some y) (hok : y.ok t) :
    ∃ r, migrateSetVar K name .set text = some r ∧
      SetsTo (r.run st) st (Region.validateIdentifier name [95]) (.single (some t) (some y)) := by
  refine ⟨_, migrateSetVar_eq .set text ho, ?_⟩
  have hwf : (Val.single (some t) (some y)).wf := by
    intro x hx; cases hx; exact ⟨t, rfl, hok⟩
  rw [hy]
  exact run_set_outcome ho hv rfl rfl (eval_lit st t _) rfl rfl hwf

/-- C169, integer outcomes: Add, Subtract and Multiply do the arithmetic of their names, as long
as the result is an integer of 32 bits. -/
theorem C169_integer_partial {K : Ctx} {st : State} {name text : Str} {x y : Int} {a : Action}
    (ho : OutcomeOf K st (Region.validateIdentifier name [95]) .integer)
    (hv : dget (Region.validateIdentifier name [95]) st.map =
      some (.single (some .integer) (some (.int x))))
    (hy : K.read .integer text = some (.int y)) (z : Int)
    (hz : (a = .add ∧ z = x + y) ∨ (a = .subtract ∧ z = x - y) ∨ (a = .multiply ∧ z = x * y))
    (hr : -2147483648 ≤ z ∧ z ≤ 2147483647) :
    ∃ r, migrateSetVar K name a text = some r ∧
      SetsTo (r.run st) st (Region.validateIdentifier name [95])
        (.single (some .integer) (some (.int z))) := by
  refine ⟨_, migrateSetVar_eq a text ho, ?_⟩
  have hwf : (Val.single (some .integer) (some (.int z))).wf := by
    intro d hd; cases hd; exact ⟨.integer, rfl, hr⟩
  have hin : inRange z = true := by simp [inRange, hr.1, hr.2]
  have hi : intVal z = .ok (.single (some .integer) (some (.int z))) := by
    simp only [intVal, hin, if_true]
  refine run_set_outcome ho hv rfl rfl ?_ rfl rfl hwf
  rw [hy]
  rcases hz with ⟨rfl, rfl⟩ | ⟨rfl, rfl⟩ | ⟨rfl, rfl⟩
  · refine (eval_two (eval_variable hv) (eval_lit st _ _) rfl).trans ?_
    rw [← hi]
    show intVal (0 + x + y) = _
    rw [Int.zero_add]
  · exact (eval_two (eval_variable hv) (eval_lit st _ _) rfl).trans hi
  · refine (eval_two (eval_variable hv) (eval_lit st _ _) rfl).trans ?_
    rw [← hi]
    show intVal (1 * x * y) = _
    rw [Int.one_mul]

/-- C169, float outcomes: all four operations do the arithmetic of their names; a division by zero
gives NULL. -/
theorem C169_float {K : Ctx} {st : State} {name text : Str} {x y : Rat} {a : Action}
    (ho : OutcomeOf K st (Region.validateIdentifier name [95]) .float)
    (hv : dget (Region.validateIdentifier name [95]) st.map =
      some (.single (some .float) (some (.num x))))
    (hy : K.read .float text = some (.num y)) (z : Option Rat)
    (hz : (a = .add ∧ z = some (x + y)) ∨ (a = .subtract ∧ z = some (x - y)) ∨
      (a = .multiply ∧ z = some (x * y)) ∨ (a = .divide ∧ y ≠ 0 ∧ z = some (x / y)) ∨
      (a = .divide ∧ y = 0 ∧ z = none)) :
    ∃ r, migrateSetVar K name a text = some r ∧
      SetsTo (r.run st) st (Region.validateIdentifier name [95])
        (.single (some .float) (z.map .num)) := by
  refine ⟨_, migrateSetVar_eq a text ho, ?_⟩
  have hwf : (Val.single (some .float) (z.map .num)).wf := by
    intro d hd
    cases z with
    | none => cases hd
    | some q => cases hd; exact ⟨.float, rfl, trivial⟩
  refine run_set_outcome ho hv rfl rfl ?_ rfl rfl hwf
  rw [hy]
  rcases hz with ⟨rfl, rfl⟩ | ⟨rfl, rfl⟩ | ⟨rfl, rfl⟩ | ⟨rfl, h0, rfl⟩ | ⟨rfl, h0, rfl⟩
  · refine (eval_two (eval_variable hv) (eval_lit st _ _) rfl).trans ?_
    show (Except.ok (floatVal (some (((0 : Int) : Rat) + x + y))) : R Val) = _
    simp [floatVal]
  · exact eval_two (eval_variable hv) (eval_lit st _ _) rfl
  · refine (eval_two (eval_variable hv) (eval_lit st _ _) rfl).trans ?_
    show (Except.ok (floatVal (some (((1 : Int) : Rat) * x * y))) : R Val) = _
    simp [floatVal]
  · refine (eval_two (eval_variable hv) (eval_lit st _ _) rfl).trans ?_
    show (Except.ok (floatVal (if y = 0 then none else some (x / y))) : R Val) = _
    rw [if_neg h0]
    rfl
  · refine (eval_two (eval_variable hv) (eval_lit st _ _) rfl).trans ?_
    show (Except.ok (floatVal (if y = 0 then none else some (x / y))) : R Val) = _
    rw [if_pos h0]
    rfl

/-- C169: an outcome without a value keeps none, whatever is added to it (a `decvar` without
`defaultval` gives such an outcome). -/
theorem C169_null {K : Ctx} {st : State} {name text : Str} {y : Int} {a : Action}
    (ho : OutcomeOf K st (Region.validateIdentifier name [95]) .integer)
    (hv : dget (Region.validateIdentifier name [95]) st.map = some (.single (some .integer) none))
    (hy : K.read .integer text = some (.int y))
    (ha : a = .add ∨ a = .subtract ∨ a = .multiply) :
    ∃ r, migrateSetVar K name a text = some r ∧
      SetsTo (r.run st) st (Region.validateIdentifier name [95]) (.single (some .integer) none) := by
  refine ⟨_, migrateSetVar_eq a text ho, ?_⟩
  have hwf : (Val.single (some .integer) none).wf := by intro d hd; cases hd
  refine run_set_outcome ho hv rfl rfl ?_ rfl rfl hwf
  rw [hy]
  rcases ha with rfl | rfl | rfl <;>
    exact eval_two (eval_variable hv) (eval_lit st _ _) rfl

/-! ### Feedback -/

theorem mem_countAll (d : Datum) (l : List Datum) : d ∈ (countAll l).map (·.1) ↔ d ∈ l := by
  have h1 := dget_countAll d l
  have h2 := List.count_pos_iff (a := d) (l := l)
  constructor
  · intro h
    rw [← h2, ← h1]
    have h3 := countAll_wf (l := l) (P := fun _ => True) (fun _ _ => trivial)
    cases hd : dget d (countAll l) with
    | none => exact absurd h (dget_eq_none.1 hd)
    | some k =>
      obtain ⟨p, hp, rfl⟩ := List.mem_map.1 h
      have := dget_mem hd
      exact (h3.2 _ this).2
  · intro h
    by_contra hn
    rw [dget_eq_none.2 hn] at h1
    have := h2.2 h
    rw [← h1] at this
    exact absurd this (by simp)

/-- The names that a FEEDBACK value holds. -/
def shown : Val → List Datum
  | .multiple _ (some m) => m.map (·.1)
  | _ => []

/-- C169, displayfeedback: the rule ends normally, and afterwards FEEDBACK holds the name given
besides the names it held before, and nothing else changes.  When the name is an identifier, it
is the identifier that the feedback with that name gets. -/
theorem C169_feedback_partial {st : State} {d : Decl} {o : Option (List (Datum × Nat))} (link : Str)
    (hd : dget [70, 69, 69, 68, 66, 65, 67, 75] st.decls = some d) (hk : d.kind = .outcome)
    (hv : dget [70, 69, 69, 68, 66, 65, 67, 75] st.map = some (.multiple (some .identifier) o))
    (hw : (Val.multiple (some .identifier) o).wf) (hl : Region.Ident link) :
    feedbackIdentifier link = link ∧
    ∃ v, SetsTo ((migrateFeedbackRule link).run st) st [70, 69, 69, 68, 66, 65, 67, 75] v ∧
      v.wf ∧ v.card = some .multiple ∧ v.bt = some .identifier ∧
      ∀ x, x ∈ shown v ↔ x ∈ shown (.multiple (some .identifier) o) ∨ x = .str link := by
  refine ⟨Region.C162_unchanged link _ hl, ?_⟩
  -- the values gathered
  obtain ⟨l, hgl, hmem, hlok⟩ : ∃ l, gather grabMultiple [.multiple (some .identifier) o,
      .single (some .identifier) (some (.str link))] none [] = .ok (some .identifier, l) ∧
      (∀ x, x ∈ l ↔ x ∈ shown (.multiple (some .identifier) o) ∨ x = .str link) ∧
      ∀ x ∈ l, x.ok .identifier := by
    cases o with
    | none =>
      refine ⟨[.str link], rfl, ?_, ?_⟩
      · intro x; simp [shown]
      · intro x hx
        rw [List.mem_singleton.1 hx]
        trivial
    | some m =>
      obtain ⟨_, _, bt, hbt, hm⟩ := hw m rfl
      cases hbt
      refine ⟨expand m ++ [.str link], rfl, ?_, ?_⟩
      · intro x
        rw [List.mem_append, mem_expand (fun p hp => (hm p hp).2)]
        simp [shown]
      · intro x hx
        rcases List.mem_append.1 hx with hx | hx
        · rw [mem_expand (fun p hp => (hm p hp).2)] at hx
          obtain ⟨p, hp, rfl⟩ := List.mem_map.1 hx
          exact (hm p hp).1
        · rw [List.mem_singleton.1 hx]
          trivial
  have hne : l ≠ [] := by
    rintro rfl
    exact absurd ((hmem (.str link)).2 (Or.inr rfl)) (by simp)
  have hset : ∀ l : List Datum, l ≠ [] → (∀ x ∈ l, x.ok .identifier) →
      setMultiple (some .identifier) l = .ok (.multiple (some .identifier) (some (countAll l))) := by
    intro l h1 h2
    simp only [setMultiple, coerceAll_id h2]
    show (Except.ok (Val.multiple _ (if countAll l = [] then none else some (countAll l))) : R Val) = _
    rw [if_neg (by rw [countAll_nil]; exact h1)]
  have he : eval st (.nary .multiple [.leaf (.variable nFeedback),
      .leaf (.baseValue .identifier (some (.str link)))]) =
      .ok (.multiple (some .identifier) (some (countAll l))) := by
    refine (eval_two (eval_variable hv) (eval_lit st _ _) rfl).trans ?_
    simp only [opN, hgl]
    exact hset l hne hlok
  have hkeys : (countAll l).map (·.1) ≠ [] := by
    intro h
    exact hne (countAll_nil.1 (List.map_eq_nil_iff.1 h))
  have hkok : ∀ x ∈ (countAll l).map (·.1), x.ok .identifier := by
    intro x hx
    exact hlok x ((mem_countAll x l).1 hx)
  have hs2 := hset _ hkeys hkok
  refine ⟨_, run_set_core hd hk hv he rfl rfl hs2, setMultiple_wf hs2, rfl, rfl, ?_⟩
  intro x
  show x ∈ (countAll ((countAll l).map (·.1))).map (·.1) ↔ _
  rw [mem_countAll, mem_countAll, hmem]

/-! ### The outcomes that join responses (C167) -/

/-- A response with at most one value of base type `t`. -/
def SingleOf (st : State) (t : BaseType) (r : Str) : Prop :=
  ∃ o, dget r st.map = some (.single (some t) o) ∧ (Val.single (some t) o).wf

/-- The outcome `n` is to join the responses `ids`. -/
def Joins (st : State) (t : BaseType) (n : Str) (ids : List Str) : Prop :=
  (∃ d, dget n st.decls = some d ∧ d.kind = .outcome) ∧
  (∃ o, dget n st.map = some (.multiple (some t) o)) ∧ ids ≠ [] ∧ ∀ r ∈ ids, SingleOf st t r

theorem gather_singles {st : State} {t : BaseType} : ∀ (ids : List Str) (t0 : Option BaseType)
    (acc : List Datum), (t0 = none ∨ t0 = some t) → (∀ r ∈ ids, SingleOf st t r) →
    (∀ x ∈ acc, x.ok t) →
    ∃ vs l, evalList st (ids.map fun r => .leaf (.variable r)) = .ok vs ∧
      gather grabMultiple vs t0 acc = .ok (if ids = [] then t0 else some t, l) ∧
      (∀ x ∈ l, x.ok t) ∧
      ∀ x, x ∈ l ↔ x ∈ acc ∨ ∃ r ∈ ids, dget r st.map = some (.single (some t) (some x))
  | [], t0, acc, _, _, hacc => ⟨[], acc, rfl, rfl, hacc, by simp⟩
  | r :: ids, t0, acc, h0, hr, hacc => by
    obtain ⟨o, h1, h2⟩ := hr r (by simp)
    have hr' : ∀ r ∈ ids, SingleOf st t r := fun r h => hr r (by simp [h])
    cases o with
    | none =>
      obtain ⟨vs, l, h3, h4, h5, h6⟩ := gather_singles ids (some t) acc (Or.inr rfl) hr' hacc
      refine ⟨.single (some t) none :: vs, l, ?_, ?_, h5, ?_⟩
      · simp only [List.map_cons, evalList, eval_variable h1, h3]
        rfl
      · simp only [gather, Val.bt, h0, if_true, Val.isSet]
        simpa using h4
      · intro x
        rw [h6]
        simp [h1]
    | some y =>
      have hy := single_ok h2
      obtain ⟨vs, l, h3, h4, h5, h6⟩ := gather_singles ids (some t) (acc ++ [y]) (Or.inr rfl) hr'
        (by
          intro x hx
          rcases List.mem_append.1 hx with hx | hx
          · exact hacc x hx
          · rw [List.mem_singleton.1 hx]; exact hy)
      refine ⟨.single (some t) (some y) :: vs, l, ?_, ?_, h5, ?_⟩
      · simp only [List.map_cons, evalList, eval_variable h1, h3]
        rfl
      · simp only [gather, Val.bt, h0, if_true, Val.isSet]
        simpa using h4
      · intro x
        rw [h6]
        simp only [List.mem_append, List.mem_cons, List.not_mem_nil, or_false, exists_eq_or_imp, h1,
          Option.some.injEq, Val.single.injEq, true_and]
        constructor
        · rintro ((h | h) | h)
          · exact Or.inl h
          · exact Or.inr (Or.inl h.symm)
          · exact Or.inr (Or.inr h)
        · rintro (h | h | h)
          · exact Or.inl (Or.inl h)
          · exact Or.inl (Or.inr h.symm)
          · exact Or.inr h

theorem fixup_one {st : State} {t : BaseType} {n : Str} {ids : List Str} (h : Joins st t n ids) :
    ∃ v, SetsTo ((Rule.set .outcome n (some (.nary .multiple
        (ids.map fun r => .leaf (.variable r))))).run st) st n v ∧
      ∀ x, x ∈ shown v ↔ ∃ r ∈ ids, dget r st.map = some (.single (some t) (some x)) := by
  obtain ⟨⟨d, hd, hk⟩, ⟨o, hv⟩, hne, hr⟩ := h
  obtain ⟨vs, l, h1, h2, h3, h4⟩ := gather_singles ids none [] (Or.inl rfl) hr (by simp)
  rw [if_neg hne] at h2
  have hset : ∀ l : List Datum, (∀ x ∈ l, x.ok t) → setMultiple (some t) l =
      .ok (.multiple (some t) (if countAll l = [] then none else some (countAll l))) := by
    intro l h2
    simp only [setMultiple, coerceAll_id h2]
    rfl
  have he : eval st (.nary .multiple (ids.map fun r => .leaf (.variable r))) =
      .ok (.multiple (some t) (if countAll l = [] then none else some (countAll l))) := by
    simp only [eval, h1]
    show opN st .multiple vs = _
    simp only [opN, h2]
    exact hset l h3
  by_cases hl : l = []
  · subst hl
    refine ⟨.multiple (some t) none, run_set_core hd hk hv he rfl rfl rfl, ?_⟩
    intro x
    have h5 := h4 x
    simp only [List.not_mem_nil, false_or, false_iff] at h5
    simp only [shown, List.not_mem_nil, false_iff]
    exact h5
  · rw [if_neg (by rw [countAll_nil]; exact hl)] at he
    have hkeys : (countAll l).map (·.1) ≠ [] := by
      intro h
      exact hl (countAll_nil.1 (List.map_eq_nil_iff.1 h))
    have hs2 := hset ((countAll l).map (·.1)) fun x hx => h3 x ((mem_countAll x l).1 hx)
    rw [if_neg (by rw [countAll_nil]; exact hkeys)] at hs2
    refine ⟨_, run_set_core hd hk hv he rfl rfl hs2, ?_⟩
    intro x
    show x ∈ (countAll ((countAll l).map (·.1))).map (·.1) ↔ _
    rw [mem_countAll, mem_countAll, h4]
    simp

/-- C167: the rules in front of the conditions: each outcome that joins responses gets the set of
the answers to them, and nothing else changes. -/
theorem C167_fixups (t : BaseType) : ∀ (fix : List (Str × List Str)) (st : State),
    (fix.map (·.1)).Nodup → (∀ p ∈ fix, Joins st t p.1 p.2) →
    (∀ p ∈ fix, ∀ r ∈ p.2, r ∉ fix.map (·.1)) →
    ((fixupRules fix).run st).2 = none ∧
    (∀ p ∈ fix, ∃ v, dget p.1 ((fixupRules fix).run st).1.map = some v ∧
      ∀ x, x ∈ shown v ↔ ∃ r ∈ p.2, dget r st.map = some (.single (some t) (some x))) ∧
    ∀ n, n ∉ fix.map (·.1) → dget n ((fixupRules fix).run st).1.map = dget n st.map
  | [], st, _, _, _ => ⟨rfl, by simp, fun _ _ => rfl⟩
  | (n, ids) :: fix, st, hn, hj, hr => by
    obtain ⟨v, hs, hx⟩ := fixup_one (hj (n, ids) (by simp))
    obtain ⟨h1, h2, h3, h4, _⟩ := hs
    simp only [List.map_cons, List.nodup_cons] at hn
    have hrun : (fixupRules ((n, ids) :: fix)).run st =
        (fixupRules fix).run ((Rule.set .outcome n (some (.nary .multiple
          (ids.map fun r => .leaf (.variable r))))).run st).1 := by
      generalize hg : (Rule.set .outcome n (some (.nary .multiple
          (ids.map fun r => .leaf (.variable r))))).run st = g at h1
      obtain ⟨s', o'⟩ := g
      dsimp only at h1
      subst h1
      simp only [fixupRules, Rules.run, hg]
    rw [hrun]
    generalize ((Rule.set .outcome n (some (.nary .multiple
          (ids.map fun r => .leaf (.variable r))))).run st).1 = s1 at h2 h3 h4 ⊢
    have hother : ∀ p ∈ fix, ∀ r ∈ p.2, dget r s1.map = dget r st.map := by
      intro p hp r hrp
      apply h3
      rintro rfl
      exact hr p (by simp [hp]) r hrp (by simp)
    obtain ⟨h5, h6, h7⟩ := C167_fixups t fix s1 hn.2
      (by
        intro p hp
        obtain ⟨⟨d, hd, hk⟩, ⟨o, hv⟩, hne, hsing⟩ := hj p (by simp [hp])
        refine ⟨⟨d, by rw [h4]; exact hd, hk⟩, ⟨o, ?_⟩, hne, ?_⟩
        · rw [h3]
          · exact hv
          · intro h
            exact hn.1 (List.mem_map.2 ⟨p, hp, h⟩)
        · intro r hrp
          obtain ⟨o, ho, hw⟩ := hsing r hrp
          exact ⟨o, by rw [hother p hp r hrp]; exact ho, hw⟩)
      (by
        intro p hp r hrp h
        exact hr p (by simp [hp]) r hrp (by simp [h]))
    refine ⟨h5, ?_, ?_⟩
    · intro p hp
      rcases List.mem_cons.1 hp with rfl | hp
      · refine ⟨v, ?_, hx⟩
        rw [h7 _ hn.1, h2]
      · obtain ⟨w, hw, hwx⟩ := h6 p hp
        refine ⟨w, hw, ?_⟩
        intro x
        rw [hwx]
        constructor
        · rintro ⟨r, hrp, h⟩
          exact ⟨r, hrp, by rw [← hother p hp r hrp]; exact h⟩
        · rintro ⟨r, hrp, h⟩
          exact ⟨r, hrp, by rw [hother p hp r hrp]; exact h⟩
    · intro m hm
      simp only [List.map_cons, List.mem_cons, not_or] at hm
      rw [h7 m hm.2, h3 m hm.1]

def exJ : Decl :=
  { kind := .outcome, card := .multiple, bt := some .identifier, dflt := .null, correct := .null,
    mapping := none, area := none }
/-- The outcome J joins R and T; R = A, T is unanswered. -/
def exSt3 : State :=
  { decls := [([74], exJ)]
    map := [([74], .multiple (some .identifier) none),
      ([82], .single (some .identifier) (some (.str [65]))),
      ([84], .single (some .identifier) none)]
    lower := fun s => s }

example : Joins exSt3 .identifier [74] [[82], [84]] ∧ [82] ∉ [([74] : Str)] := by
  refine ⟨⟨⟨_, rfl, rfl⟩, ⟨_, rfl⟩, by simp, ?_⟩, by decide⟩
  intro r hr
  simp only [List.mem_cons, List.not_mem_nil, or_false] at hr
  rcases hr with rfl | rfl
  · exact ⟨_, rfl, by simp [Val.wf, Datum.ok]⟩
  · exact ⟨_, rfl, by simp [Val.wf]⟩

/-! ### Concrete cases, and where the full claim fails -/

def exOut (t : BaseType) (c : Card) : Decl :=
  { kind := .outcome, card := c, bt := some t, dflt := .null, correct := .null, mapping := none,
    area := none }
/-- S: an integer, F: a float, FEEDBACK: a set of names. -/
def exK2 : Ctx :=
  { decls := [([83], exOut .integer .single), ([70], exOut .float .single),
      (nFeedback, exOut .identifier .multiple)]
    read := fun t _ => if t = .integer then some (.int 2) else if t = .float then some (.num 2) else none }
def exSt2 : State :=
  { decls := exK2.decls
    map := [([83], .single (some .integer) (some (.int 6))),
      ([70], .single (some .float) (some (.num 6))),
      (nFeedback, .multiple (some .identifier) (some [(.str [65], 1)]))]
    lower := id }

example : OutcomeOf exK2 exSt2 (Region.validateIdentifier [83] [95]) .integer ∧
    dget (Region.validateIdentifier [83] [95]) exSt2.map =
      some (.single (some .integer) (some (.int 6))) ∧ exK2.read .integer [50] = some (.int 2) :=
  ⟨⟨rfl, _, rfl, rfl, rfl, rfl⟩, rfl, rfl⟩

example : OutcomeOf exK2 exSt2 (Region.validateIdentifier [70] [95]) .float ∧
    dget (Region.validateIdentifier [70] [95]) exSt2.map =
      some (.single (some .float) (some (.num 6))) ∧ exK2.read .float [50] = some (.num 2) :=
  ⟨⟨rfl, _, rfl, rfl, rfl, rfl⟩, rfl, rfl⟩

example : (Val.multiple (some .identifier) (some [(.str [65], 1)])).wf ∧ Region.Ident [66] := by
  refine ⟨by simp [Val.wf, Datum.ok], 66, [], rfl, by decide, by simp, by decide⟩

/-- Where the claim fails, 1: 6 divided by 2 in an integer outcome.  The quotient is a float, and
the rule ends with ValueError. -/
theorem C169_violation_divide : OutcomeOf exK2 exSt2 [83] .integer ∧
    dget [83] exSt2.map = some (.single (some .integer) (some (.int 6))) ∧
    exK2.read .integer [50] = some (.int 2) ∧
    ∃ r, migrateSetVar exK2 [83] .divide [50] = some r ∧ (r.run exSt2).2 = some .value ∧
      (r.run exSt2).1.map = exSt2.map :=
  ⟨⟨rfl, _, rfl, rfl, rfl, rfl⟩, rfl, rfl, _, rfl, by decide +kernel, by decide +kernel⟩

/-- Where the claim fails, 2: `displayfeedback linkrefid="1"` and `itemfeedback ident="1"`.  The
feedback is called "FEEDBACK_1"; the rule puts "1" (which is no identifier) into FEEDBACK. -/
theorem C169_violation_feedback :
    feedbackIdentifier [49] = [70, 69, 69, 68, 66, 65, 67, 75, 95, 49] ∧
    (∃ e, migrateFeedbackRule [49] = .set .outcome nFeedback (some (.nary .multiple
      [e, .leaf (.baseValue .identifier (some (.str [49])))]))) ∧ ¬ Region.Ident [49] := by
  refine ⟨by decide +kernel, ⟨_, rfl⟩, ?_⟩
  rintro ⟨c, r, h, h1, _⟩
  cases h
  exact absurd h1 (by decide)

end Verif.Qti1

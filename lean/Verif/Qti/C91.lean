import Verif.Qti.Types
/-
C91: container constructors, records, and what the code does not guarantee.
-/
namespace Verif.Qti

theorem setMultiple_card {t : Option BaseType} {l : List Datum} {v : Val}
    (h : setMultiple t l = .ok v) : v.card = some .multiple ∧ v.bt = t := by
  simp only [setMultiple, bind_ok, pure_ok] at h
  obtain ⟨_, _, rfl⟩ := h
  exact ⟨rfl, rfl⟩

theorem setOrdered_card {t : Option BaseType} {l : List Datum} {v : Val}
    (h : setOrdered t l = .ok v) : v.card = some .ordered ∧ v.bt = t := by
  simp only [setOrdered, bind_ok, pure_ok] at h
  obtain ⟨_, _, rfl⟩ := h
  exact ⟨rfl, rfl⟩

/-- C91: `multiple` and `ordered` give a container of their own cardinality. -/
theorem C91_container_card (st : State) (es : List Expr) (v : Val) :
    (eval st (.nary .multiple es) = .ok v → v.card = some .multiple) ∧
    (eval st (.nary .ordered es) = .ok v → v.card = some .ordered) := by
  constructor <;> intro h <;> simp only [eval, opN, bind_ok] at h <;>
    obtain ⟨_, _, _, _, _, _, h⟩ := h
  · exact (setMultiple_card h).1
  · exact (setOrdered_card h).1

/-- variables.py:1032-1056 `RecordContainer.__setitem__`; `none` stands for None and for a
single value that is NULL. -/
def recSet (r : Option (List (Str × BaseType × Datum))) (f : Str) (x : Option (BaseType × Datum)) :
    Option (List (Str × BaseType × Datum)) :=
  match x with
  | none =>
    match r with
    | none => none
    | some l => if f ∈ l.map (·.1) then some (ddel f l) else some l
  | some p =>
    match r with
    | none => some [(f, p)]
    | some l => some (dset f p l)

/-- variables.py:1058-1062 `RecordContainer.__delitem__`. -/
def recDel (r : Option (List (Str × BaseType × Datum))) (f : Str) :
    R (Option (List (Str × BaseType × Datum))) :=
  match r with
  | none => .error .key
  | some l => if f ∈ l.map (·.1) then .ok (some (ddel f l)) else .error .key

/-- variables.py:982-1015 `RecordContainer.set_value` with a dictionary of single values: NULL
values are dropped, an empty result is NULL. -/
def recSetValue (fields : List (Str × Option (BaseType × Datum))) :
    Option (List (Str × BaseType × Datum)) :=
  let l := fields.filterMap fun p => p.2.map fun x => (p.1, x)
  if l = [] then none else some l

/-- C91: storing a value in a field of a record keeps the record well-formed. -/
theorem C91_record_set (r : Option (List (Str × BaseType × Datum))) (f : Str) (t : BaseType)
    (d : Datum) (h : (Val.record r).wf) (hd : d.ok t) :
    (Val.record (recSet r f (some (t, d)))).wf := by
  intro l hl
  cases r with
  | none => simp only [recSet] at hl; cases hl; simpa using hd
  | some r =>
    simp only [recSet] at hl
    cases hl
    obtain ⟨_, h2, h3⟩ := h r rfl
    refine ⟨dset_ne_nil _ _ _, dset_nodup _ _ _ h2, ?_⟩
    intro p hp
    rcases dset_mem hp with rfl | hp
    · exact hd
    · exact h3 p hp

/-- C91: a record set from a dictionary is well-formed. -/
theorem C91_record_set_value (fields : List (Str × Option (BaseType × Datum)))
    (hn : (fields.map (·.1)).Nodup) (hd : ∀ p ∈ fields, ∀ x, p.2 = some x → x.2.ok x.1) :
    (Val.record (recSetValue fields)).wf := by
  intro l hl
  simp only [recSetValue] at hl
  split at hl
  · cases hl
  · rename_i hne
    cases hl
    refine ⟨hne, ?_, ?_⟩
    · have : ((fields.filterMap fun p => p.2.map fun x => (p.1, x)).map (·.1)).Sublist
          (fields.map (·.1)) := by
        clear hne hd hn
        induction fields with
        | nil => simp
        | cons p l ih =>
          obtain ⟨a, o⟩ := p
          cases o with
          | none => simp only [List.filterMap_cons, Option.map_none, List.map_cons]
                    exact ih.trans (List.sublist_cons_self _ _)
          | some x => simp only [List.filterMap_cons, Option.map_some, List.map_cons]
                      exact ih.cons_cons a
      exact this.nodup hn
    · intro p hp
      rw [List.mem_filterMap] at hp
      obtain ⟨q, hq, he⟩ := hp
      cases hx : q.2 with
      | none => rw [hx] at he; cases he
      | some x => rw [hx] at he; cases he; exact hd q hq x hx

/-- C91, violation: taking the only field out of a record (by deletion or by storing NULL in it)
leaves an empty record that does not count as NULL: `isNull` says false of it. -/
theorem C91_violation_empty_record (f : Str) (t : BaseType) (d : Datum) :
    recDel (some [(f, t, d)]) f = .ok (some []) ∧ recSet (some [(f, t, d)]) f none = some [] ∧
      op1 .isNull (.record (some [])) = .ok (boolVal (some false)) ∧
      ¬ (Val.record (some [])).wf := by
  refine ⟨by simp [recDel, ddel], by simp [recSet, ddel], rfl, ?_⟩
  intro h
  exact (h [] rfl).1 rfl

/-- C91, violation: an integer literal of more than 32 bits is accepted, although integer values
outside 32 bits are refused everywhere else. -/
theorem C91_violation_literal (st : State) :
    eval st (.leaf (.baseValue .integer (some (.int 99999999999)))) =
      .ok (.single (some .integer) (some (.int 99999999999))) ∧
    ¬ (Val.single (some .integer) (some (.int 99999999999))).wf ∧
    intVal 99999999999 = .error .value := by
  refine ⟨rfl, ?_, rfl⟩
  intro h
  obtain ⟨bt, hb, hok⟩ := h _ rfl
  cases hb
  exact absurd hok.2 (by decide)

/-- C91, violation: sums beyond 32 bits raise ValueError, not ProcessingError. -/
theorem C91_violation_overflow (st : State) :
    eval st (.nary .sum [.leaf (.baseValue .integer (some (.int 2147483647))),
      .leaf (.baseValue .integer (some (.int 1)))]) = .error .value := by
  rfl

/-- C91, violation: an attribute that refers to a template variable fails with AttributeError,
whatever the variable holds. -/
theorem C91_violation_template_ref (st : State) (n : Str) (mx : Ref Int) (es : List Expr) :
    eval st (.nary (.anyN (.var n) mx) es) = .error .attribute := rfl

/-- C91, violation: `delete` from a field that the record does not have (a NULL of unknown type
but single cardinality) raises ValueError, where other misuses raise ProcessingError. -/
theorem C91_violation_delete (st : State) (e : Expr) (t : BaseType) (f : Str)
    (r : Option (List (Str × BaseType × Datum))) (h : eval st e = .ok (.record r))
    (hf : dget f (r.getD []) = none) :
    eval st (.nary .delete [.leaf (.baseValue t none), .un (.fieldValue f) e]) = .error .value := by
  simp only [eval, evalList, h]
  simp only [op1, bind, Except.bind, hf]
  rfl

/-! ### The hypotheses are met -/

/-- A state with an ordered variable `A` = ["x", "y"] and a record `R` with one field. -/
def demoState : State where
  decls := []
  map := [([65], .ordered (some .identifier) (some [.str [120], .str [121]])),
          ([82], .record (some [([102], .integer, .int 3)]))]
  lower := id

theorem demoState_wf : demoState.wf := by
  intro n v h
  have := dget_mem h
  simp only [demoState, List.mem_cons, List.not_mem_nil, or_false] at this
  rcases this with h | h <;> cases h
  · intro l hl; cases hl
    exact ⟨by simp, _, rfl, by simp [Datum.ok]⟩
  · intro l hl; cases hl
    refine ⟨by simp, by simp, ?_⟩
    intro p hp
    simp at hp; subst hp
    simp [Datum.ok]

/-- index 2 of the ordered container {A, "z"}. -/
example : eval demoState (.un (.index 3) (.nary .ordered
      [.leaf (.variable [65]), .leaf (.baseValue .identifier (some (.str [122])))])) =
    .ok (.single (some .identifier) (some (.str [122]))) := by rfl

example : (Expr.un (.index 3) (.nary .ordered
      [.leaf (.variable [65]), .leaf (.baseValue .identifier (some (.str [122])))])).lits := by
  simp [Expr.lits, Expr.litsAll, Leaf.lits, Datum.ok]

example : eval demoState (.nary (.cmp .lt) [.un (.fieldValue [102]) (.leaf (.variable [82])),
      .leaf (.baseValue .float (some (.num (7 / 2))))]) = .ok (boolVal (some true)) := by
  decide +kernel

example : Expr.promise (.nary (.cmp .lt) []) = some (.single, .boolean) := rfl

end Verif.Qti

import Verif.Qti.Process
/-
C167: migration of the response conditions of a QTI version 1 item to version 2 response
processing (pyslet/qtiv1/item.py:2088-2328).

The version 2 rules are built by adding children to the element last returned as
`rule_container`, which is always the last thing added at its level.  The model keeps the path
from `responseProcessing` down to that element, instead of a tree with a pointer into it.  The
tests and the actions of a condition are taken as already migrated (see `Verif.Qti1.Cond` and
`Verif.Qti1.SetVar`); the humanrater content of an extension (2311-2327) is not modelled.
-/
namespace Verif.Qti1
open Verif.Qti

/-! ## Model -/

/-- item.py:2174-2217 `RespCondition`: the attribute `continue`, the migrated condition, and the
migrated setvar and displayfeedback elements. -/
structure RespCond where
  continues : Bool
  test : Expr
  acts : Rules

/-- item.py:2164-2171 `ConditionMixin`: a `respcondition` or an `itemproc_extension`. -/
inductive Item
  | resp (c : RespCond)
  | extension

/-- A responseCondition under construction (processing.py:92-104): the rules already in front of
it in its own container, and its responseIf and responseElseIf elements. -/
structure Open where
  before : Rules
  ifs : List (Expr × Rules)

/-- The element that `rule_container` points to: a list of rules (a responseProcessing or a
responseElse) or a responseCondition that has no responseElse yet. -/
inductive Here
  | block (rs : Rules)
  | cond (o : Open)

/-- `rule_container` and the conditions it lies in, innermost first: each time in the
responseElse. -/
structure Build where
  above : List Open
  here : Here

/-- The rule list with one rule more. -/
def Rules.snoc (rs : Rules) (r : Rule) : Rules := rs.append (.cons r .nil)

/-- The branches of a responseCondition (processing.py:92-104). -/
def branches : List (Expr × Rules) → Branches → Branches
  | [], rest => rest
  | (e, rs) :: l, rest => .ite (some e) rs (branches l rest)

/-- item.py:2258-2259 `rule_container.add_child(ResponseElse)`; `none` for an element that cannot
have such a child. -/
def addElse (b : Build) : Option Build :=
  match b.here with
  | .cond o => some { above := o :: b.above, here := .block .nil }
  | .block _ => none

/-- item.py:2261-2262, 2271-2275: a new responseCondition with its responseIf, below which the
container does not move. -/
def addCondition (b : Build) (e : Expr) (rs : Rules) : Option Build :=
  match b.here with
  | .block l => some { b with here := .block (Rules.snoc l (.cond (branches [(e, rs)] .none))) }
  | .cond _ => none

/-- item.py:2265-2268, 2271-2275: a new responseCondition, which becomes the container. -/
def openCondition (b : Build) (e : Expr) (rs : Rules) : Option Build :=
  match b.here with
  | .block l => some { b with here := .cond { before := l, ifs := [(e, rs)] } }
  | .cond _ => none

/-- item.py:2270-2275: a responseElseIf. -/
def addElseIf (b : Build) (e : Expr) (rs : Rules) : Option Build :=
  match b.here with
  | .cond o => some { b with here := .cond { o with ifs := o.ifs ++ [(e, rs)] } }
  | .block _ => none

/-- item.py:2219-2276 `RespCondition.migrate_rule_to_v2` and 2305-2328
`ItemProcExtension.migrate_rule_to_v2`: the new `cmode` and `rule_container`. -/
def migrateRule (cmode : Bool) (b : Build) : Item → Option (Bool × Build)
  | .extension => some (cmode, b)
  | .resp c =>
    if c.continues then
      match if !cmode then addElse b else some b with
      | none => none
      | some b => (addCondition b c.test c.acts).map fun b => (true, b)
    else if cmode then (openCondition b c.test c.acts).map fun b => (false, b)
    else (addElseIf b c.test c.acts).map fun b => (false, b)

/-- The loop of item.py:2127-2131. -/
def migrateRules : Bool → Build → List Item → Option Build
  | _, b, [] => some b
  | cmode, b, i :: l =>
    match migrateRule cmode b i with
    | none => none
    | some (cmode, b) => migrateRules cmode b l

/-- The finished element: the rules of the container, put into the conditions it lies in. -/
def closeAll : List Open → Rules → Rules
  | [], rs => rs
  | o :: l, rs => closeAll l (Rules.snoc o.before (.cond (branches o.ifs (.els rs))))

def Build.finish (b : Build) : Rules :=
  match b.here with
  | .block rs => closeAll b.above rs
  | .cond o => closeAll b.above (Rules.snoc o.before (.cond (branches o.ifs .none)))

/-- item.py:2119-2125: the outcomes that join the responses of several interactions, in the order
of their names (the list is taken as sorted). -/
def fixupRules : List (Str × List Str) → Rules
  | [] => .nil
  | (n, ids) :: l =>
    .cons (.set .outcome n (some (.nary .multiple (ids.map fun r => .leaf (.variable r)))))
      (fixupRules l)

/-- item.py:2116-2131 `ResProcessing.migrate_to_v2`: the rules of the responseProcessing. -/
def migrate (fix : List (Str × List Str)) (l : List Item) : Option Rules :=
  (migrateRules true { above := [], here := .block (fixupRules fix) } l).map Build.finish

/-! ## Specification -/

/-- One step after another: an exception ends the run. -/
def andThen (r : Run) (k : State → Run) : Run :=
  match r with
  | (st, none) => k st
  | (st, some x) => (st, some x)

/-- The version 1 reading of a list of conditions (documentation in item.py:2222-2230): the
conditions are looked at in turn; one that matches has its actions done, and unless it says
`continue="Yes"` it is the last one looked at. -/
def runV1 : List Item → State → Run
  | [], st => (st, none)
  | .extension :: l, st => runV1 l st
  | .resp c :: l, st =>
    match testCond st (some c.test) with
    | .error x => (st, some x)
    | .ok false => runV1 l st
    | .ok true =>
      if c.continues then andThen (c.acts.run st) (runV1 l)
      else c.acts.run st

/-! ## Proof -/

theorem andThen_assoc (r : Run) (f g : State → Run) :
    andThen (andThen r f) g = andThen r (fun st => andThen (f st) g) := by
  obtain ⟨st, _ | x⟩ := r <;> rfl

theorem andThen_pure (r : Run) : andThen r (fun st => (st, none)) = r := by
  obtain ⟨st, _ | x⟩ := r <;> rfl

theorem run_append (a b : Rules) : ∀ st, (a.append b).run st = andThen (a.run st) b.run := by
  induction a using Rules.rec (motive_1 := fun _ => True) (motive_3 := fun _ => True) with
  | set => trivial
  | cond => trivial
  | exit => trivial
  | none => trivial
  | els => trivial
  | ite => trivial
  | nil => intro st; rfl
  | cons r rs _ ih =>
    intro st
    show (Rules.cons r (rs.append b)).run st = _
    simp only [Rules.run]
    cases h : r.run st with
    | mk st' o =>
      cases o with
      | none => simpa using ih st'
      | some x => rfl

theorem run_snoc (a : Rules) (r : Rule) (st : State) :
    (Rules.snoc a r).run st = andThen (a.run st) r.run := by
  unfold Rules.snoc
  rw [run_append]
  congr 1
  funext st
  simp only [Rules.run]
  cases r.run st with
  | mk st' o => cases o <;> rfl

/-- The branches in turn, then `k` if none is taken. -/
def runIfs : List (Expr × Rules) → (State → Run) → State → Run
  | [], k, st => k st
  | (e, rs) :: l, k, st =>
    match testCond st (some e) with
    | .error x => (st, some x)
    | .ok true => rs.run st
    | .ok false => runIfs l k st

theorem run_branches (l : List (Expr × Rules)) (rest : Branches) (st : State) :
    (branches l rest).run st = runIfs l rest.run st := by
  induction l with
  | nil => rfl
  | cons p l ih =>
    obtain ⟨e, rs⟩ := p
    show (Branches.ite (some e) rs (branches l rest)).run st = _
    simp only [Branches.run, runIfs, ih]
    rcases testCond st (some e) with x | t
    · rfl
    · cases t <;> rfl

theorem runIfs_append (l : List (Expr × Rules)) (e : Expr) (rs : Rules) (k : State → Run)
    (st : State) : runIfs (l ++ [(e, rs)]) k st = runIfs l (runIfs [(e, rs)] k) st := by
  induction l with
  | nil => rfl
  | cons p l ih =>
    obtain ⟨e', rs'⟩ := p
    simp only [List.cons_append, runIfs, ih]

/-- Running the unfinished rules: at the place of the container, go on with `k`. -/
def holeAbove : List Open → (State → Run) → State → Run
  | [], k => k
  | o :: l, k => holeAbove l fun st => andThen (o.before.run st) (runIfs o.ifs k)

def hole (b : Build) (k : State → Run) : State → Run :=
  match b.here with
  | .block rs => holeAbove b.above fun st => andThen (rs.run st) k
  | .cond o => holeAbove b.above fun st => andThen (o.before.run st) (runIfs o.ifs k)

theorem run_closeAll (l : List Open) : ∀ rs, (closeAll l rs).run = holeAbove l rs.run := by
  induction l with
  | nil => intro rs; rfl
  | cons o l ih =>
    intro rs
    simp only [closeAll, holeAbove]
    rw [ih]
    congr 1
    funext st
    rw [run_snoc]
    congr 1
    funext st
    simp only [Rule.run]
    rw [run_branches]
    rfl

theorem run_finish (b : Build) : b.finish.run = hole b (fun st => (st, none)) := by
  obtain ⟨above, here⟩ := b
  cases here with
  | block rs =>
    simp only [Build.finish, hole]
    rw [run_closeAll]
    congr 1
    funext st
    exact (andThen_pure _).symm
  | cond o =>
    simp only [Build.finish, hole]
    rw [run_closeAll]
    congr 1
    funext st
    rw [run_snoc]
    congr 1
    funext st
    simp only [Rule.run]
    rw [run_branches]
    rfl

/-- `cmode` tells what the container is. -/
def Fits (cmode : Bool) (b : Build) : Prop :=
  match b.here with
  | .block _ => cmode = true
  | .cond _ => cmode = false

theorem run_single (e : Expr) (rs : Rules) (l : List Item) (st : State) :
    andThen ((Rule.cond (branches [(e, rs)] .none)).run st) (runV1 l) =
      runV1 (.resp ⟨true, e, rs⟩ :: l) st := by
  simp only [Rule.run]
  rw [run_branches]
  simp only [runIfs, runV1]
  cases h : testCond st (some e) with
  | error x => rfl
  | ok t => cases t <;> simp [andThen, Branches.run]

theorem step_correct (cmode : Bool) (b : Build) (i : Item) (l : List Item) (hf : Fits cmode b) :
    ∃ cmode' b', migrateRule cmode b i = some (cmode', b') ∧ Fits cmode' b' ∧
      hole b' (runV1 l) = hole b (runV1 (i :: l)) := by
  cases i with
  | extension => exact ⟨cmode, b, rfl, hf, rfl⟩
  | resp c =>
    obtain ⟨ct, e, rs⟩ := c
    obtain ⟨above, here⟩ := b
    cases here with
    | block r =>
      have hc : cmode = true := hf
      subst hc
      cases ct with
      | true =>
        refine ⟨true, _, rfl, rfl, ?_⟩
        simp only [hole]
        congr 1
        funext st
        rw [run_snoc, andThen_assoc]
        congr 1
        funext st
        exact run_single e rs l st
      | false =>
        refine ⟨false, _, rfl, rfl, ?_⟩
        simp only [hole]
        congr 1
        funext st
        congr 1
        funext st
        simp only [runIfs, runV1]
        cases testCond st (some e) with
        | error x => rfl
        | ok t => cases t <;> rfl
    | cond o =>
      have hc : cmode = false := hf
      subst hc
      cases ct with
      | true =>
        refine ⟨true, _, rfl, rfl, ?_⟩
        simp only [hole, holeAbove]
        congr 1
        funext st
        congr 1
        congr 1
        funext st
        rw [run_snoc, andThen_assoc]
        show andThen ((Rule.cond _).run st) _ = _
        exact run_single e rs l st
      | false =>
        refine ⟨false, _, rfl, rfl, ?_⟩
        simp only [hole]
        congr 1
        funext st
        congr 1
        funext st
        rw [runIfs_append]
        congr 1
        funext st
        simp only [runIfs, runV1]
        cases testCond st (some e) with
        | error x => rfl
        | ok t => cases t <;> rfl

theorem migrateRules_correct : ∀ (l : List Item) (cmode : Bool) (b : Build), Fits cmode b →
    ∃ b', migrateRules cmode b l = some b' ∧ b'.finish.run = hole b (runV1 l)
  | [], cmode, b, _ => ⟨b, rfl, run_finish b⟩
  | i :: l, cmode, b, hf => by
    obtain ⟨cm, b', h1, h2, h3⟩ := step_correct cmode b i l hf
    obtain ⟨b'', h4, h5⟩ := migrateRules_correct l cm b' h2
    refine ⟨b'', ?_, ?_⟩
    · simp only [migrateRules, h1, h4]
    · rw [h5, h3]

/-- C167: whatever conditions an item has, with `continue` set or not and extensions in between,
their migration succeeds, and in every session state the version 2 rules do what the version 1
conditions say: the same changes, the same exception if there is one. -/
theorem C167_migrated_rules (fix : List (Str × List Str)) (l : List Item) :
    ∃ rs, migrate fix l = some rs ∧
      ∀ st, rs.run st = andThen ((fixupRules fix).run st) (runV1 l) := by
  obtain ⟨b, h1, h2⟩ := migrateRules_correct l true
    { above := [], here := .block (fixupRules fix) } rfl
  refine ⟨b.finish, ?_, ?_⟩
  · simp only [migrate, h1, Option.map_some]
  · intro st
    rw [h2]
    rfl

/-- C167, the same for response processing as a whole (`ResponseProcessing.run`). -/
theorem C167_response_processing (l : List Item) (rs : Rules) (h : migrate [] l = some rs)
    (st : State) :
    (process rs st).1 = (runV1 l st).1 ∧
      ((process rs st).2 = (runV1 l st).2 ∨ (runV1 l st).2 = some .stop) := by
  obtain ⟨rs', h1, h2⟩ := C167_migrated_rules [] l
  rw [h] at h1
  obtain rfl : rs = rs' := Option.some.inj h1
  have h3 : rs.run st = runV1 l st := h2 st
  simp only [process, h3]
  generalize runV1 l st = r
  obtain ⟨s, _ | x⟩ := r
  · exact ⟨rfl, Or.inl rfl⟩
  · cases x <;> first | exact ⟨rfl, Or.inl rfl⟩ | exact ⟨rfl, Or.inr rfl⟩

/-- C167: what comes after a matching condition without `continue` does not matter. -/
theorem C167_stops (c : RespCond) (hc : c.continues = false) (l l' : List Item) (rs rs' : Rules)
    (h : migrate [] (.resp c :: l) = some rs) (h' : migrate [] (.resp c :: l') = some rs')
    (st : State) (ht : testCond st (some c.test) = .ok true) : rs.run st = rs'.run st := by
  obtain ⟨r1, h1, h2⟩ := C167_migrated_rules [] (.resp c :: l)
  obtain ⟨r2, h3, h4⟩ := C167_migrated_rules [] (.resp c :: l')
  rw [h] at h1
  rw [h'] at h3
  obtain rfl := Option.some.inj h1
  obtain rfl := Option.some.inj h3
  rw [h2, h4]
  simp [fixupRules, Rules.run, andThen, runV1, ht, hc]

/-! ### A concrete case: R1(No), R2(Yes), extension, R3(No), R4(No). -/

def exTrue : Expr := .leaf (.baseValue .boolean (some (.bool true)))
def exFalse : Expr := .leaf (.baseValue .boolean (some (.bool false)))
/-- Sets the outcome "S" to a number. -/
def exSet (i : Int) : Rules :=
  .cons (.set .outcome [83] (some (.leaf (.baseValue .integer (some (.int i)))))) .nil
def exDecl : Decl :=
  { kind := .outcome, card := .single, bt := some .integer, dflt := .single (some .integer) none,
    correct := .null, mapping := none, area := none }
def exState : State :=
  { decls := [([83], exDecl)], map := [([83], .single (some .integer) (some (.int 0)))],
    lower := id }
def exItems : List Item :=
  [.resp ⟨false, exFalse, exSet 1⟩, .resp ⟨true, exTrue, exSet 2⟩, .extension,
   .resp ⟨false, exTrue, exSet 3⟩, .resp ⟨false, exTrue, exSet 4⟩]

/-- The shape of the migrated rules. -/
example : migrate [] exItems = some
    (.cons (.cond (.ite (some exFalse) (exSet 1) (.els
      (.cons (.cond (.ite (some exTrue) (exSet 2) .none))
        (.cons (.cond (.ite (some exTrue) (exSet 3) (.ite (some exTrue) (exSet 4) .none))) .nil)))))
      .nil) := rfl

example : (runV1 exItems exState).1.map = [([83], .single (some .integer) (some (.int 3)))] ∧
    (runV1 exItems exState).2 = none := by decide +kernel

example : testCond exState (some exTrue) = .ok true := by decide +kernel

end Verif.Qti1

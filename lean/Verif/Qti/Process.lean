import Verif.Qti.Types
/-
Response and template processing (pyslet/qtiv2/processing.py:12-604) over the state of an item
session.
-/
namespace Verif.Qti

/-- The `set_value` of the value held by a variable, applied to the attribute `value` of another
value (variables.py:320-338 and the subclasses, 884-914, 931-960, 979-1015).  The caller has
checked the cardinalities.  The `value` of a multiple container is a dictionary, and
`set_value` iterates over it, that is, over its keys. -/
def setVal (v x : Val) : R Val :=
  match v with
  | .null => if x.isSet then .error .value else .ok .null
  | .container t => if x.isSet then .error .value else .ok (.container t)
  | .single t _ =>
    match x with
    | .single _ (some d) =>
      match t with
      | none => .error .value
      | some bt => (coerce bt d).map (Val.single (some bt))
    | _ => .ok (.single t none)
  | .ordered t _ =>
    match x with
    | .ordered _ (some l) => setOrdered t l
    | _ => .ok (.ordered t none)
  | .multiple t _ =>
    match x with
    | .multiple _ (some m) => setMultiple t (m.map (·.1))
    | _ => .ok (.multiple t none)
  | .record _ =>
    match x with
    | .record (some r) => .ok (.record (if r = [] then none else some r))
    | _ => .ok (.record none)

/-- variables.py:1857-1892 `SessionState.__setitem__`.  The model leaves the variable as it was
when the conversion fails; the code would leave a container with the values converted so far.
With well-formed values it does not fail (`setVal_ok`). -/
def State.set (st : State) (n : Str) (x : Val) : R State := do
  let v ← st.get n
  if x.card ≠ none ∧ x.card ≠ v.card then .error .value
  else if x.bt ≠ none ∧ x.bt ≠ v.bt then .error .value
  else do
    let w ← setVal v x
    pure { st with map := dset n w st.map }

/-- "numAttempts" -/
def nNumAttempts : Str := [110, 117, 109, 65, 116, 116, 101, 109, 112, 116, 115]
/-- "duration" -/
def nDuration : Str := [100, 117, 114, 97, 116, 105, 111, 110]
/-- "completionStatus" -/
def nCompletion : Str :=
  [99, 111, 109, 112, 108, 101, 116, 105, 111, 110, 83, 116, 97, 116, 117, 115]

/-- variables.py:2124-2132 `is_outcome`. -/
def State.isOutcome (st : State) (n : Str) : R Bool := do
  match ← st.getDecl n with
  | none => pure (decide (n = nCompletion))
  | some d => pure (decide (d.kind = .outcome))

/-- variables.py:1843-1847 `is_template`. -/
def State.isTemplate (st : State) (n : Str) : R Bool := do
  match ← st.getDecl n with
  | none => pure false
  | some d => pure (decide (d.kind = .template))

/-- The rules that set a variable. -/
inductive SetKind
  | outcome | template | correct | default
  deriving DecidableEq, Repr

mutual
/-- processing.py:61-265, 311-604: a response rule or a template rule.  An expression may be
missing. -/
inductive Rule
  | set (k : SetKind) (n : Str) (e : Option Expr)
  | cond (b : Branches)
  | exit
inductive Rules
  | nil
  | cons (r : Rule) (rs : Rules)
/-- The if, the else-ifs and the else of a condition. -/
inductive Branches
  | none
  | els (rs : Rules)
  | ite (e : Option Expr) (rs : Rules) (rest : Branches)
end

/-- Outcome of running rules: the state, and the exception if there was one. -/
abbrev Run := State × Option Err

/-- processing.py:237-246, 487-496, 528-542, 574-590. -/
def runSet (k : SetKind) (n : Str) (e : Option Expr) (st : State) : R State :=
  match e with
  | none => .error .processing
  | some e => do
    let v ← eval st e
    match k with
    | .outcome => do
      if ← st.isOutcome n then st.set n v else .error .processing
    | .template => do
      if ← st.isTemplate n then st.set n v else .error .processing
    | .correct => do
      match ← st.getDecl n with
      | some d => if d.kind = .response then st.set (n ++ sufCorrect) v else .error .processing
      | none => .error .processing
    | .default => do
      match ← st.getDecl n with
      | some d =>
        if d.kind = .response ∨ d.kind = .outcome then st.set (n ++ sufDefault) v
        else .error .processing
      | none => .error .processing

/-- processing.py:150-156, 400-406: the condition of a branch. -/
def testCond (st : State) (e : Option Expr) : R Bool :=
  match e with
  | none => .error .processing
  | some e => do
    let v ← eval st e
    let _ ← checkBaseTypes [v.bt, some .boolean]
    let _ ← checkCards [v.card, some .single]
    match v with
    | .single _ (some (.bool b)) => pure b
    | .single _ (some _) => .error .type
    | _ => pure false

mutual
/-- The `run` methods: processing.py:106-113, 145-161, 186-189, 264-265 and the same of the
template rules 356-363, 396-411, 436-439, 602-603. -/
def Rule.run : Rule → State → Run
  | .set k n e, st =>
    match runSet k n e st with
    | .ok st' => (st', none)
    | .error x => (st, some x)
  | .cond b, st => b.run st
  | .exit, st => (st, some .stop)
def Rules.run : Rules → State → Run
  | .nil, st => (st, none)
  | .cons r rs, st =>
    match r.run st with
    | (st', none) => rs.run st'
    | (st', some x) => (st', some x)
def Branches.run : Branches → State → Run
  | .none, st => (st, none)
  | .els rs, st => rs.run st
  | .ite e rs rest, st =>
    match testCond st e with
    | .error x => (st, some x)
    | .ok true => rs.run st
    | .ok false => rest.run st
end

/-- processing.py:46-58, 296-308 `ResponseProcessing.run`, `TemplateProcessing.run`.  The rules
return None, so the loop is not broken by a result. -/
def process (rs : Rules) (st : State) : Run :=
  match rs.run st with
  | (st', some .stop) => (st', none)
  | r => r

mutual
/-- All expressions of the rules have well-formed literals. -/
def Rule.lits : Rule → Prop
  | .set _ _ e => ∀ x, e = some x → x.lits
  | .cond b => b.lits
  | .exit => True
def Rules.lits : Rules → Prop
  | .nil => True
  | .cons r rs => r.lits ∧ rs.lits
def Branches.lits : Branches → Prop
  | .none => True
  | .els rs => rs.lits
  | .ite e rs rest => (∀ x, e = some x → x.lits) ∧ rs.lits ∧ rest.lits
end

mutual
/-- The kinds of setting rule that occur. -/
def Rule.kinds : Rule → List SetKind
  | .set k _ _ => [k]
  | .cond b => b.kinds
  | .exit => []
def Rules.kinds : Rules → List SetKind
  | .nil => []
  | .cons r rs => r.kinds ++ rs.kinds
def Branches.kinds : Branches → List SetKind
  | .none => []
  | .els rs => rs.kinds
  | .ite _ rs rest => rs.kinds ++ rest.kinds
end

def Rules.append : Rules → Rules → Rules
  | .nil, t => t
  | .cons r rs, t => .cons r (rs.append t)

end Verif.Qti

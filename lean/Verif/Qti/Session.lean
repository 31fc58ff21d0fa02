import Verif.Qti.C96
import Verif.Qti.Tables
/-
The life of an item session (variables.py:1904-2155 `ItemSessionState`).  Rendering to HTML is not
modelled.
-/
namespace Verif.Qti

/-- An item: its declarations in the order of their identifiers (items.py:110-121), the flag
`adaptive`, the template processing and the response processing. -/
structure Item where
  decls : List (Str × Decl)
  adaptive : Bool
  tp : Option Rules
  rp : Option Rules

/-- The declarations of one kind (`TemplateDeclaration`, `ResponseDeclaration`,
`OutcomeDeclaration` of the item). -/
def ofKind (k : Kind) (ds : List (Str × Decl)) : List (Str × Decl) := ds.filter fun p => p.2.kind = k

/-- variables.py:408-422 `Value.new_value`. -/
def newVal (c : Card) (t : Option BaseType) : Val :=
  match c with
  | .single => .single t none
  | .ordered => .ordered t none
  | .multiple => .multiple t none
  | .record => .record none

/-- variables.py:424-430 `Value.copy_value`. -/
def copyVal (v : Val) : R Val :=
  match v.card with
  | none => .error .value
  | some c => setVal (newVal c v.bt) v

/-- The stores of variables.py:1926-1943, in order. -/
def Item.stores (it : Item) : List (Str × Val) :=
  (ofKind .template it.decls).map (fun p => (p.1, p.2.dflt)) ++
  [(nNumAttempts, intNull), (nDuration, .single (some .duration) none),
    (nCompletion, .single (some .identifier) none)] ++
  (ofKind .response it.decls).flatMap (fun p =>
    [(p.1 ++ sufCorrect, p.2.correct), (p.1 ++ sufDefault, p.2.dflt), (p.1, newVal p.2.card p.2.bt)]) ++
  (ofKind .outcome it.decls).flatMap (fun p =>
    [(p.1 ++ sufDefault, p.2.dflt), (p.1, newVal p.2.card p.2.bt)])

/-- variables.py:1920-1943 `ItemSessionState.__init__`. -/
def Item.init (it : Item) (lower : Str → Str) : State where
  decls := it.decls
  map := it.stores.foldl (fun acc e => dset e.1 e.2 acc) []
  lower := lower

/-- `self.map[n] = v`. -/
def State.put (st : State) (n : Str) (v : Val) : State := { st with map := dset n v st.map }

/-- variables.py:2138-2143: a NULL number becomes 0. -/
def zeroed (v : Val) : Val :=
  match v with
  | .single (some .integer) none => .single (some .integer) (some (.int 0))
  | .single (some .float) none => .single (some .float) (some (.num 0))
  | v => v

/-- The loop of variables.py:2135-2143 `set_outcome_defaults`. -/
def outcomeDefaults : List (Str × Decl) → State → Run
  | [], st => (st, none)
  | (n, _) :: l, st =>
    match (do let v ← st.get (n ++ sufDefault); copyVal v) with
    | .error x => (st, some x)
    | .ok v => outcomeDefaults l (st.put n (zeroed v))

def setOutcomeDefaults (st : State) : Run := outcomeDefaults (ofKind .outcome st.decls) st

/-- "not_attempted" -/
def vNotAttempted : Str := [110, 111, 116, 95, 97, 116, 116, 101, 109, 112, 116, 101, 100]
/-- "unknown" -/
def vUnknown : Str := [117, 110, 107, 110, 111, 119, 110]

/-- Continue after a step that may have raised an exception. -/
def Run.then (r : Run) (f : State → Run) : Run :=
  match r with
  | (st, none) => f st
  | r => r

/-- variables.py:1945-1958 `select_clone`. -/
def selectClone (it : Item) (st : State) : Run :=
  match it.tp with
  | none => (st, none)
  | some rs => process rs st

/-- variables.py:1960-1978 `begin_session`.  The code assigns the attribute `value` of the value
object; the model takes the built-in variables to have their own types. -/
def beginSession (st : State) : Run :=
  (setOutcomeDefaults (st.put nCompletion (.single (some .identifier) (some (.str vNotAttempted))))).then
    fun st =>
      ((st.put nNumAttempts (.single (some .integer) (some (.int 0)))).put nDuration
        (.single (some .duration) (some (.num 0))), none)

/-- The loop of variables.py:1989-1991. -/
def responseDefaults : List (Str × Decl) → State → Run
  | [], st => (st, none)
  | (n, _) :: l, st =>
    match (do let v ← st.get (n ++ sufDefault); copyVal v) with
    | .error x => (st, some x)
    | .ok v => responseDefaults l (st.put n v)

/-- variables.py:1980-1994 `begin_attempt`.  Without a `begin_session` the count is None, and
adding 1 is a TypeError. -/
def beginAttempt (st : State) : Run :=
  match st.get nNumAttempts with
  | .error x => (st, some x)
  | .ok (.single _ (some (.int k))) =>
    match intVal (k + 1) with
    | .error x => (st, some x)
    | .ok v =>
      let st := st.put nNumAttempts v
      if k + 1 = 1 then
        (responseDefaults (ofKind .response st.decls) st).then fun st =>
          (st.put nCompletion (.single (some .identifier) (some (.str vUnknown))), none)
      else (st, none)
  | .ok _ => (st, some .type)

/-- A submitted parameter: a text or a list of texts. -/
inductive Sub
  | one (s : Str)
  | many (l : List Str)
  deriving DecidableEq, Repr

/-- ".SAVED" -/
def sufSaved : Str := [46, 83, 65, 86, 69, 68]

/-- `str.split(".")`: the first part and the number of parts. -/
def splitDot : Str → Str × Nat
  | [] => ([], 1)
  | c :: l => if c = 46 then ([], (splitDot l).2 + 1) else (c :: (splitDot l).1, (splitDot l).2)

/-- The conversion of a list of texts for a multiple response (variables.py:931-960).  A text that
stands for NULL (the empty string) would be counted under the key None, which the model does not
hold: TypeError here. -/
def parseAll (parse : BaseType → Str → R (Option Datum)) (t : Option BaseType) : List Str → R (List Datum)
  | [] => .ok []
  | s :: l =>
    match t with
    | none => .error .value
    | some bt => do
      match ← parse bt s with
      | none => .error .type
      | some d => do
        let r ← parseAll parse t l
        pure (d :: r)

/-- The value that a parameter gives to a response (variables.py:2038-2081).  For an ordered
response the name must have two parts, and then `BaseType.Identifier` (2060), which does not
exist, raises AttributeError; `none` is the `continue` of 2058.  `parse` is the conversion of a
text by the base type. -/
def subValue (parse : BaseType → Str → R (Option Datum)) (d : Decl) (parts : Nat) (s : Sub) :
    R (Option Val) :=
  match d.card with
  | .single =>
    match s with
    | .one x =>
      match d.bt with
      | none => .error .value
      | some bt => do
        let v ← parse bt x
        pure (some (.single (some bt) v))
    | .many _ => .error .badParams
  | .multiple => do
    let r ← parseAll parse d.bt (match s with | .one x => [x] | .many l => l)
    pure (some (.multiple d.bt (if countAll r = [] then none else some (countAll r))))
  | .ordered => if parts ≠ 2 then .ok none else .error .attribute
  | .record => .error .notImplemented

/-- variables.py:2030-2035: the saved value of the response `n` is created when it is missing. -/
def ensureSaved (st : State) (n : Str) (d : Decl) : State :=
  match dget (n ++ sufSaved) st.map with
  | none => st.put (n ++ sufSaved) (newVal d.card d.bt)
  | some _ => st

/-- The loop of variables.py:2014-2081 `_save_parameters`; the code after it is reached with no
ordered parameters only.  When a conversion fails the model leaves the saved value as it was. -/
def saveParams (parse : BaseType → Str → R (Option Datum)) (pfx : Str) : List (Str × Sub) → State → Run
  | [], st => (st, none)
  | (p, s) :: l, st =>
    if pfx ≠ [] ∧ ¬ pfx <+: p then saveParams parse pfx l st
    else
      let n := (splitDot (p.drop pfx.length)).1
      let parts := (splitDot (p.drop pfx.length)).2
      match st.getDecl n with
      | .error x => (st, some x)
      | .ok none => (st, some .badParams)
      | .ok (some d) =>
        if d.kind ≠ .response then (st, some .badParams)
        else
          let st1 := ensureSaved st n d
          match subValue parse d parts s with
          | .error x => (st1, some x)
          | .ok none => saveParams parse pfx l st1
          | .ok (some v) => saveParams parse pfx l (st1.put (n ++ sufSaved) v)

/-- The loop of variables.py:2006-2010. -/
def takeSaved : List (Str × Decl) → State → Run
  | [], st => (st, none)
  | (n, _) :: l, st =>
    match dget (n ++ sufSaved) st.map with
    | none => takeSaved l st
    | some s =>
      match st.get n with
      | .error x => (st, some x)
      | .ok v =>
        match setVal v s with
        | .error x => (st, some x)
        | .ok w => takeSaved l { st with map := ddel (n ++ sufSaved) (dset n w st.map) }

/-- variables.py:2096-2105 `end_attempt`. -/
def endAttempt (it : Item) (st : State) : Run :=
  Run.then (if it.adaptive then (st, none) else setOutcomeDefaults st) fun st =>
    match it.rp with
    | none => (st, none)
    | some rs => process rs st

/-- variables.py:2001-2012 `submit_session`. -/
def submit (parse : BaseType → Str → R (Option Datum)) (it : Item) (pfx : Str) (ps : List (Str × Sub))
    (st : State) : Run :=
  (saveParams parse pfx ps st).then fun st =>
    (takeSaved (ofKind .response st.decls) st).then fun st => endAttempt it st

end Verif.Qti

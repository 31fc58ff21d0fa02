import Verif.Qti.Map
/-
QTI expressions (pyslet/qtiv2/expressions.py) over the state of an item session.

Not modelled: `patternMatch`, `equalRounded`, `power`, and the polygon in `inside`.  The number
drawn by a random operator is an argument of the node, so that a theorem about every expression
is a theorem about every draw.  Text attributes of an operator (tolerances, `min`, `max`, `step`)
are taken as already split into a number and a reference to a template variable
(core.py:377-386).  `str.lower` is a parameter of the state.
-/
namespace Verif.Qti

/-- Kinds of declaration (variables.py:1317, 1507, 1784). -/
inductive Kind
  | response | outcome | template
  deriving DecidableEq, Repr

/-- variables.py:1077-1108, 1317-1340: a declaration; `dflt` and `correct` are the results of
`get_default_value` and `get_correct_value` (1123-1152, 1352-1356), see `definedValue`. -/
structure Decl where
  kind : Kind
  card : Card
  bt : Option BaseType
  dflt : Val
  correct : Val
  mapping : Option Mapping
  area : Option AreaMapping

/-- variables.py:1904-1943: the declarations of the item and the dictionary of values. -/
structure State where
  decls : List (Str × Decl)
  map : List (Str × Val)
  lower : Str → Str

/-- ".DEFAULT" -/
def sufDefault : Str := [46, 68, 69, 70, 65, 85, 76, 84]
/-- ".CORRECT" -/
def sufCorrect : Str := [46, 67, 79, 82, 82, 69, 67, 84]

/-- variables.py:2148-2149 `ItemSessionState.__getitem__`. -/
def State.get (st : State) (n : Str) : R Val :=
  match dget n st.map with
  | some v => .ok v
  | none => .error .key

/-- variables.py:2107-2111 `get_declaration`: KeyError for an unknown name, None for a name that
has a value but no declaration. -/
def State.getDecl (st : State) (n : Str) : R (Option Decl) :=
  match dget n st.map with
  | some _ => .ok (dget n st.decls)
  | none => .error .key

/-- An attribute that is a number or "{name}" (expressions.py:27-65). -/
inductive Ref (α : Type)
  | lit (a : α)
  | var (n : Str)
  deriving DecidableEq, Repr

/-- expressions.py:27-65 `integer_or_template_ref`, `float_or_template_ref`.  A reference to a
template variable always fails: core.py:384 calls `xsi.is_valid_ncname`, and the module
xsdatatypes has no such function. -/
def deref {α : Type} : Ref α → R α
  | .lit a => .ok a
  | .var _ => .error .attribute

/-- The expressions without sub-expressions. -/
inductive Leaf
  | baseValue (t : BaseType) (d : Option Datum)
  | variable (n : Str)
  | default (n : Str)
  | correct (n : Str)
  | mapResponse (n : Str)
  | mapResponsePoint (n : Str)
  | null
  | randomInteger (min max step : Ref Int) (draw : Nat)
  | randomFloat (min max : Ref Rat) (draw : Rat)

/-- KeyError turned into ProcessingError (expressions.py:153-157, for example). -/
def keyToProcessing {α : Type} : R α → R α
  | .error .key => .error .processing
  | r => r

/-- `random.randint(0, n)` with the given draw: ValueError for an empty range. -/
def randint (n : Int) (draw : Nat) : R Int :=
  if n < 0 then .error .value else .ok ((draw % (n.toNat + 1) : Nat) : Int)

/-- The `evaluate` of the leaves: expressions.py:125-126 (a literal: the text
already converted as `set_value` does, which checks no range), 152-157,
177-183, 204-218, 239-255, 275-299 (the stage is 100 by 100, variables.py:1358-1372), 312-313,
341-352, 376-381. -/
def evalLeaf (st : State) : Leaf → R Val
  | .baseValue t d => .ok (.single (some t) d)
  | .variable n => keyToProcessing (st.get n)
  | .default n => keyToProcessing do
      let _ ← st.getDecl n
      st.get (n ++ sufDefault)
  | .correct n => keyToProcessing do
      match ← st.getDecl n with
      | some d =>
        if d.kind = .response then st.get (n ++ sufCorrect) else .error .processing
      | none => .error .processing
  | .mapResponse n => keyToProcessing do
      match ← st.getDecl n with
      | some d =>
        if d.kind = .response then
          match d.mapping with
          | none => .error .processing
          | some m => do
            let v ← st.get n
            let q ← m.mapValue v
            pure (floatVal (some q))
        else .error .processing
      | none => .error .processing
  | .mapResponsePoint n => keyToProcessing do
      match ← st.getDecl n with
      | some d =>
        if d.kind = .response then
          if d.bt ≠ some .point then .error .processing
          else match d.area with
            | none => .error .processing
            | some m => do
              let v ← st.get n
              let q ← m.mapValue v (some 100) (some 100)
              pure (floatVal (some q))
        else .error .processing
      | none => .error .processing
  | .null => .ok .null
  | .randomInteger mn mx stp draw => do
      let mn ← deref mn
      let mx ← deref mx
      let stp ← deref stp
      if stp = 0 then .error .zeroDiv
      else do
        let k ← randint ((mx - mn).fdiv stp) draw
        intVal (mn + stp * k)
  | .randomFloat mn mx draw => do
      let mn ← deref mn
      let mx ← deref mx
      pure (floatVal (some (mn + draw * (mx - mn))))

/-- The operators with one sub-expression. -/
inductive Op1
  | containerSize
  | isNull
  | index (n : Int)
  | fieldValue (f : Str)
  | random (draw : Nat)
  | not
  | inside (s : Shape)
  | truncate
  | round
  | integerToFloat

/-- `int(q)` of a float: towards zero. -/
def truncRat (q : Rat) : Int := q.num.tdiv q.den

/-- The loop of expressions.py:1466-1469. -/
def insideAny (s : Shape) : List Datum → R Bool
  | [] => .ok false
  | .point x y :: l => do
    if ← s.test x y none none then pure true else insideAny s l
  | _ :: _ => .error .type

/-- `random.choice(l)` with the given draw; the list is not empty. -/
def choice (l : List Datum) (draw : Nat) : Option Datum := l[draw % l.length]?

/-- The `evaluate` of the unary operators, given the operand's value: expressions.py:526-545,
562-567, 594-610, 638-650, 667-687, 931-939, 1447-1475, 1971-1979, 1997-2005, 2022-2030. -/
def op1 (op : Op1) (v : Val) : R Val :=
  match op with
  | .containerSize =>
    match v with
    | .ordered _ l => intVal (((l.getD []).length : Nat) : Int)
    | .multiple _ m => intVal ((((m.getD []).map (·.2)).sum : Nat) : Int)
    | _ => .error .processing
  | .isNull => .ok (boolVal (some (!v.isSet)))
  | .index n =>
    match v with
    | .ordered t none => newSingle t none
    | .ordered t (some l) =>
      if n < 1 then .error .processing
      else if n ≤ ((l.length : Nat) : Int) then newSingle t l[(n - 1).toNat]?
      else newSingle t none
    | _ => .error .processing
  | .fieldValue f =>
    match v with
    | .record r =>
      match dget f (r.getD []) with
      | some (t, d) => .ok (.single (some t) (some d))
      | none => .ok (.single none none)
    | _ => .error .processing
  | .random draw =>
    match v with
    | .ordered t none => newSingle t none
    | .ordered t (some l) => newSingle t (choice l draw)
    | .multiple t none => newSingle t none
    | .multiple t (some m) => newSingle t (choice (expand m) draw)
    | .null => .ok (.single none none)
    | .container _ => .ok (.single none none)
    | _ => .error .processing
  | .not => do
    let _ ← checkBaseTypes [v.bt, some .boolean]
    let _ ← checkCards [v.card, some .single]
    match v with
    | .single _ (some (.bool b)) => pure (boolVal (some (!b)))
    | .single _ (some _) => .error .type
    | _ => pure (boolVal none)
  | .inside s => do
    let _ ← checkBaseTypes [v.bt, some .point]
    match v with
    | .single _ (some (.point x y)) => do
      let b ← s.test x y none none
      pure (boolVal (some b))
    | .single _ (some _) => .error .type
    | .ordered _ (some l) => do
      let b ← insideAny s l
      pure (boolVal (some b))
    | .multiple _ (some m) => do
      let b ← insideAny s (m.map (·.1))
      pure (boolVal (some b))
    | .record _ => .error .processing
    | _ => pure (boolVal none)
  | .truncate => do
    let _ ← checkBaseTypes [v.bt, some .float]
    let _ ← checkCards [v.card, some .single]
    match v with
    | .single _ (some (.num q)) => intVal (truncRat q)
    | .single _ (some _) => .error .type
    | _ => pure intNull
  | .round => do
    let _ ← checkBaseTypes [v.bt, some .float]
    let _ ← checkCards [v.card, some .single]
    match v with
    | .single _ (some (.num q)) => intVal (q + 1 / 2).floor
    | .single _ (some _) => .error .type
    | _ => pure intNull
  | .integerToFloat => do
    let _ ← checkBaseTypes [v.bt, some .integer]
    let _ ← checkCards [v.card, some .single]
    match v with
    | .single _ (some (.int i)) => pure (floatVal (some (i : Rat)))
    | .single _ (some _) => .error .type
    | _ => pure (floatVal none)

/-- expressions.py:1194-1226 `ToleranceMode`. -/
inductive Tol
  | absolute | exact | relative
  deriving DecidableEq, Repr

/-- Comparison of two numbers (expressions.py:1478-1607). -/
inductive Cmp
  | lt | gt | lte | gte
  deriving DecidableEq, Repr

/-- The operators with a list of sub-expressions. -/
inductive OpN
  | multiple
  | ordered
  | member
  | delete
  | contains
  | substring (caseSensitive : Bool)
  | and
  | or
  | anyN (min max : Ref Int)
  | matches
  | stringMatch (caseSensitive substring : Bool)
  | equal (mode : Tol) (tol : List (Ref Rat)) (lower upper : Bool)
  | cmp (c : Cmp)
  | durationLT
  | durationGTE
  | sum
  | product
  | subtract
  | divide
  | integerDivide
  | integerModulus
  | custom

/-- The loop of expressions.py:438-460 (`Multiple`) and 486-506 (`Ordered`); `grab` says which
containers are taken apart. -/
def gather (grab : Val → Option (List Datum)) :
    List Val → Option BaseType → List Datum → R (Option BaseType × List Datum)
  | [], t, acc => .ok (t, acc)
  | v :: l, t, acc =>
    match v.bt with
    | none => gather grab l t acc
    | some b =>
      if t = none ∨ t = some b then
        if !v.isSet then gather grab l (some b) acc
        else
          match v with
          | .single _ (some d) => gather grab l (some b) (acc ++ [d])
          | _ =>
            match grab v with
            | some ds => gather grab l (some b) (acc ++ ds)
            | none => .error .processing
      else .error .processing

/-- A multiple container's values (expressions.py:454-457). -/
def grabMultiple : Val → Option (List Datum)
  | .multiple _ (some m) => some (expand m)
  | _ => none

/-- An ordered container's values (expressions.py:502-503). -/
def grabOrdered : Val → Option (List Datum)
  | .ordered _ (some l) => some l
  | _ => none

/-- `Container.new_value(cardinality, base_type)` (variables.py:862-874). -/
def newContainer (c : Option Card) (t : Option BaseType) : R Val :=
  match c with
  | some .single => .error .value
  | some .ordered => .ok (.ordered t none)
  | some .multiple => .ok (.multiple t none)
  | some .record => .ok (.record none)
  | none => .ok (.container t)

/-- expressions.py:706-739 `Member`. -/
def memberOp (s c : Val) : R Val :=
  match s.bt, c.bt with
  | some st, some ct =>
    if st ≠ ct then .error .processing
    else if st = .duration then .error .processing
    else if s.isSet && c.isSet then
      match s with
      | .single _ (some d) =>
        match c with
        | .ordered _ (some l) => .ok (boolVal (some (decide (d ∈ l))))
        | .multiple _ (some m) => .ok (boolVal (some (decide (d ∈ m.map (·.1)))))
        | _ => .error .processing
      | _ => .error .processing
    else .ok (boolVal none)
  | _, _ => .ok (boolVal none)

/-- expressions.py:758-803 `Delete`. -/
def deleteOp (s c : Val) : R Val :=
  match c.bt with
  | none => newContainer c.card s.bt
  | some ct =>
    match s.bt with
    | none => newContainer c.card c.bt
    | some st =>
      if st ≠ ct then .error .processing
      else if st = .duration then .error .processing
      else if s.card ≠ some .single ∧ s.card ≠ none then .error .processing
      else if c.card ≠ some .ordered ∧ c.card ≠ some .multiple ∧ c.card ≠ none then
        .error .processing
      else
        match s with
        | .single _ (some d) =>
          match c with
          | .ordered t (some l) => setOrdered t (l.filter fun x => decide (d ≠ x))
          | .multiple t (some m) => setMultiple t ((expand m).filter fun x => decide (d ≠ x))
          | _ => newContainer c.card c.bt
        | _ => newContainer c.card c.bt

/-- The loop of expressions.py:841-852: is the first list found somewhere in the second?  `n`
counts the starting positions still to be tried. -/
def infixLoop (a b : List Datum) : Nat → Nat → Bool
  | 0, _ => false
  | n + 1, i =>
    if ((a.zip (b.drop i)).all fun p => decide (p.1 = p.2)) then true else infixLoop a b n (i + 1)

/-- expressions.py:841-852: `imax + 1` starting positions. -/
def infixTest (a b : List Datum) : Bool := infixLoop a b (b.length + 1 - a.length) 0

/-- expressions.py:855-861. -/
def subBag (a b : List (Datum × Nat)) : Bool := a.all fun p => decide (p.2 ≤ (dget p.1 b).getD 0)

/-- expressions.py:822-867 `Contains`. -/
def containsOp (v1 v2 : Val) : R Val := do
  let t ← checkBaseTypes [v1.bt, v2.bt]
  let c ← checkCards [v1.card, v2.card]
  if t = some .duration then .error .processing
  else if c = none ∨ t = none then pure (boolVal none)
  else if v1.isSet && v2.isSet then
    match v1, v2 with
    | .ordered _ (some a), .ordered _ (some b) => pure (boolVal (some (infixTest a b)))
    | .multiple _ (some a), .multiple _ (some b) => pure (boolVal (some (subBag a b)))
    | _, _ => .error .processing
  else pure (boolVal none)

/-- Python's `a in b` for text. -/
def subText (a : Str) : Str → Bool
  | [] => a.isPrefixOf []
  | c :: s => a.isPrefixOf (c :: s) || subText a s

/-- expressions.py:896-914 `SubString`, 1125-1148 `StringMatch`: `test` is the comparison of the
two texts, after they have been put in lower case where case does not count. -/
def textOp (st : State) (cs : Bool) (test : Str → Str → Bool) (v1 v2 : Val) : R Val := do
  let _ ← checkBaseTypes [v1.bt, v2.bt, some .string]
  let _ ← checkCards [v1.card, v2.card, some .single]
  match v1, v2 with
  | .single _ (some (.str a)), .single _ (some (.str b)) =>
    pure (boolVal (some (if cs then test a b else test (st.lower a) (st.lower b))))
  | .single _ (some _), .single _ (some _) => .error .type
  | _, _ => pure (boolVal none)

/-- The loop of expressions.py:964-970. -/
def andLoop : List Val → Option Bool → Option Bool
  | [], r => r
  | v :: l, r =>
    match v with
    | .single _ (some (.bool false)) => some false
    | _ => if v.isSet then andLoop l r else andLoop l none

/-- The loop of expressions.py:996-1002. -/
def orLoop : List Val → Option Bool → Option Bool
  | [], r => r
  | v :: l, r =>
    match v with
    | .single _ (some (.bool true)) => some true
    | _ => if v.isSet then orLoop l r else orLoop l none

/-- The counts of expressions.py:1044-1049: true operands and NULL operands. -/
def countTrue (vs : List Val) : Nat := vs.countP fun v => decide (v = .single (some .boolean) (some (.bool true)))
def countNull (vs : List Val) : Nat := vs.countP fun v => !v.isSet

/-- expressions.py:1051-1065. -/
def anyNResult (mn mx : Int) (ntrue nnull : Nat) : Option Bool :=
  if (ntrue : Int) ≥ mn then
    if (ntrue : Int) > mx then some false
    else if (ntrue : Int) + nnull > mx then none
    else some true
  else if (ntrue : Int) + nnull ≥ mn then none
  else some false

/-- expressions.py:960-963, 992-995, 1040-1043. -/
def checkBools (vs : List Val) : R Unit := do
  let _ ← checkCards (some .single :: vs.map Val.card)
  let _ ← checkBaseTypes (some .boolean :: vs.map Val.bt)
  pure ()

/-- `float(v.value)` of a number. -/
def toNum : Val → Option Rat
  | .single _ (some (.int i)) => some (i : Rat)
  | .single _ (some (.num q)) => some q
  | _ => none

/-- The checks and conversions shared by expressions.py:1281-1287, 1499-1505 and so on: `none`
when an operand is NULL. -/
def twoNums (v1 v2 : Val) : R (Option (Rat × Rat)) := do
  let _ ← checkNum [v1.bt, v2.bt]
  let _ ← checkCards [v1.card, v2.card, some .single]
  if v1.isSet && v2.isSet then
    match toNum v1, toNum v2 with
    | some a, some b => pure (some (a, b))
    | _, _ => .error .type
  else pure none

/-- expressions.py:1631-1638, 1666-1673. -/
def twoDurations (v1 v2 : Val) : R (Option (Rat × Rat)) := do
  let _ ← checkBaseTypes [v1.bt, v2.bt, some .duration]
  let _ ← checkCards [v1.card, v2.card, some .single]
  if v1.isSet && v2.isSet then
    match toNum v1, toNum v2 with
    | some a, some b => pure (some (a, b))
    | _, _ => .error .type
  else pure none

/-- expressions.py:1299-1305: the bounds of the second operand. -/
def bounds (mode : Tol) (a t0 t1 : Rat) : Rat × Rat :=
  if mode = .absolute then (a - t0, a + t1) else (a * (1 - t0 / 100), a * (1 + t1 / 100))

/-- expressions.py:1306-1315. -/
def withinBounds (lo up : Bool) (l u b : Rat) : Bool :=
  if up then
    if lo then decide (b ≥ l) && decide (b ≤ u) else decide (b > l) && decide (b ≤ u)
  else
    if lo then decide (b ≥ l) && decide (b < u) else decide (b > l) && decide (b < u)

/-- expressions.py:1288-1316 for two numbers. -/
def equalNums (mode : Tol) (tol : List (Ref Rat)) (lo up : Bool) (a b : Rat) :
    R Val :=
  if mode = .exact then .ok (boolVal (some (decide (a = b))))
  else
    match tol with
    | [] => .error .processing
    | r0 :: rest => do
      let t0 ← deref r0
      let t1 ← match rest with
        | [] => pure t0
        | r1 :: _ => deref r1
      let bd := bounds mode a t0 t1
      pure (boolVal (some (withinBounds lo up bd.1 bd.2 b)))

/-- The comparison of two numbers. -/
def Cmp.test (c : Cmp) (a b : Rat) : Bool :=
  match c with
  | .lt => decide (a < b)
  | .gt => decide (a > b)
  | .lte => decide (a ≤ b)
  | .gte => decide (a ≥ b)

/-- The loops of expressions.py:1707-1720 and 1751-1764 when the result is a float. -/
def foldF (f : Rat → Rat → Rat) : List Val → Rat → R Val
  | [], acc => .ok (floatVal (some acc))
  | v :: l, acc =>
    if v.isSet then
      match toNum v with
      | some q => foldF f l (f acc q)
      | none => .error .type
    else .ok (floatVal none)

/-- The same loops when the result is an integer. -/
def foldI (f : Int → Int → Int) : List Val → Int → R Val
  | [], acc => intVal acc
  | v :: l, acc =>
    if v.isSet then
      match v with
      | .single _ (some (.int i)) => foldI f l (f acc i)
      | _ => .error .type
    else .ok intNull

/-- expressions.py:1694-1720 `Sum`, 1738-1764 `Product`. -/
def foldOp (f : Rat → Rat → Rat) (g : Int → Int → Int) (unit : Int) (vs : List Val) : R Val :=
  if vs = [] then .error .processing
  else do
    let _ ← checkCards (some .single :: vs.map Val.card)
    match ← checkNum (vs.map Val.bt) with
    | none => pure (.single none none)
    | some t => if t = .float then foldF f vs (unit : Rat) else foldI g vs unit

/-- expressions.py:1782-1807 `Subtract`. -/
def subtractOp (v1 v2 : Val) : R Val := do
  let t ← checkNum [v1.bt, v2.bt]
  let _ ← checkCards [v1.card, v2.card, some .single]
  match t with
  | none => pure (.single none none)
  | some t =>
    if v1.isSet && v2.isSet then
      if t = .float then
        match toNum v1, toNum v2 with
        | some a, some b => pure (floatVal (some (a - b)))
        | _, _ => .error .type
      else
        match v1, v2 with
        | .single _ (some (.int a)), .single _ (some (.int b)) => intVal (a - b)
        | _, _ => .error .type
    else if t = .float then pure (floatVal none) else pure intNull

/-- expressions.py:1901-1918 `IntegerDivide`, 1937-1954 `IntegerModulus`. -/
def intOp (f : Int → Int → Int) (v1 v2 : Val) : R Val := do
  let _ ← checkBaseTypes [v1.bt, v2.bt, some .integer]
  let _ ← checkCards [v1.card, v2.card, some .single]
  if v1.isSet && v2.isSet then
    match v1, v2 with
    | .single _ (some (.int a)), .single _ (some (.int b)) =>
      if b = 0 then pure intNull else intVal (f a b)
    | _, _ => .error .type
  else pure intNull

/-- `if len(values) != 2: raise ProcessingError`. -/
def two (vs : List Val) : R (Val × Val) :=
  match vs with
  | [a, b] => .ok (a, b)
  | _ => .error .processing

/-- Work done before the sub-expressions are evaluated: expressions.py:1037-1038, 2061-2066. -/
def preN : OpN → R Unit
  | .anyN mn mx => do
    let _ ← deref mn
    let _ ← deref mx
    pure ()
  | .custom => .error .processing
  | _ => .ok ()

/-- The `evaluate` of the operators with a list of sub-expressions, given the values of these:
expressions.py:432-464, 480-510, 706-739, 758-803, 822-867, 896-914, 956-970, 988-1002,
1034-1066, 1084-1093, 1125-1148, 1275-1318, 1493-1607, 1625-1676, 1694-1845, 1901-1954. -/
def opN (st : State) (op : OpN) (vs : List Val) : R Val :=
  match op with
  | .multiple => do
    let r ← gather grabMultiple vs none []
    setMultiple r.1 r.2
  | .ordered => do
    let r ← gather grabOrdered vs none []
    setOrdered r.1 r.2
  | .member => do
    let p ← two vs
    memberOp p.1 p.2
  | .delete => do
    let p ← two vs
    deleteOp p.1 p.2
  | .contains => do
    let p ← two vs
    containsOp p.1 p.2
  | .substring cs => do
    let p ← two vs
    textOp st cs subText p.1 p.2
  | .and => do
    checkBools vs
    pure (boolVal (andLoop vs (some true)))
  | .or => do
    checkBools vs
    pure (boolVal (orLoop vs (some false)))
  | .anyN mn mx => do
    let mn ← deref mn
    let mx ← deref mx
    checkBools vs
    pure (boolVal (anyNResult mn mx (countTrue vs) (countNull vs)))
  | .matches => do
    let p ← two vs
    let r ← valEq p.1 p.2
    pure (boolVal r)
  | .stringMatch cs sub => do
    let p ← two vs
    textOp st cs (if sub then subText else fun a b => decide (a = b)) p.1 p.2
  | .equal mode tol lo up => do
    let p ← two vs
    match ← twoNums p.1 p.2 with
    | none => pure (boolVal none)
    | some (a, b) => equalNums mode tol lo up a b
  | .cmp c => do
    let p ← two vs
    match ← twoNums p.1 p.2 with
    | none => pure (boolVal none)
    | some (a, b) => pure (boolVal (some (c.test a b)))
  | .durationLT => do
    let p ← two vs
    match ← twoDurations p.1 p.2 with
    | none => pure (boolVal none)
    | some (a, b) => pure (boolVal (some (Cmp.lt.test a b)))
  | .durationGTE => do
    let p ← two vs
    match ← twoDurations p.1 p.2 with
    | none => pure (boolVal none)
    | some (a, b) => pure (boolVal (some (Cmp.gte.test a b)))
  | .sum => foldOp (· + ·) (· + ·) 0 vs
  | .product => foldOp (· * ·) (· * ·) 1 vs
  | .subtract => do
    let p ← two vs
    subtractOp p.1 p.2
  | .divide => do
    let p ← two vs
    match ← twoNums p.1 p.2 with
    | none => pure (floatVal none)
    | some (a, b) => pure (floatVal (if b = 0 then none else some (a / b)))
  | .integerDivide => do
    let p ← two vs
    intOp Int.fdiv p.1 p.2
  | .integerModulus => do
    let p ← two vs
    intOp Int.fmod p.1 p.2
  | .custom => .error .processing

/-- An expression tree (expressions.py:18-416). -/
inductive Expr
  | leaf (l : Leaf)
  | un (op : Op1) (e : Expr)
  | nary (op : OpN) (es : List Expr)

mutual
/-- `Expression.evaluate(state)`. -/
def eval (st : State) : Expr → R Val
  | .leaf l => evalLeaf st l
  | .un op e => do
    let v ← eval st e
    op1 op v
  | .nary op es => do
    preN op
    let vs ← evalList st es
    opN st op vs
/-- expressions.py:398-402 `evaluate_children`. -/
def evalList (st : State) : List Expr → R (List Val)
  | [] => .ok []
  | e :: es => do
    let v ← eval st e
    let vs ← evalList st es
    pure (v :: vs)
end

end Verif.Qti

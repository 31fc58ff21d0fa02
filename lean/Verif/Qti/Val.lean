/-
QTI values (pyslet/qtiv2/variables.py): base types, cardinalities, values and containers.

Identifiers, strings and URIs are lists of character codes.  Floats and durations are exact
rationals: rounding, infinities and NaN are not modelled.  The base type `file` is not modelled
(its class refers to names that do not exist in Python 3).  A Python dictionary is an
association list in insertion order.
-/
namespace Verif.Qti

abbrev Str := List Nat

/-- variables.py:58-106 `BaseType`, without `file`. -/
inductive BaseType
  | boolean | directedPair | duration | float | identifier | integer | pair | point | string | uri
  deriving DecidableEq, Repr

/-- variables.py:148-180 `Cardinality`. -/
inductive Card
  | multiple | ordered | record | single
  deriving DecidableEq, Repr

/-- The Python value held by a single value: bool, pair of names, float, text, int, point. -/
inductive Datum
  | bool (b : Bool)
  | pair (a b : Str)
  | num (q : Rat)
  | str (s : Str)
  | int (i : Int)
  | point (x y : Int)
  deriving DecidableEq, Repr

/-- The exceptions that evaluation can end with: core.ProcessingError, ValueError, TypeError,
KeyError, ZeroDivisionError, AttributeError, processing.StopProcessing (processing.py:249-252),
variables.BadSessionParams (variables.py:53-55), NotImplementedError. -/
inductive Err
  | processing | value | type | key | zeroDiv | attribute | stop | badParams | notImplemented
  deriving DecidableEq, Repr

abbrev R := Except Err

deriving instance DecidableEq for Except

/-- The value classes: `Value` (245-429), `SingleValue` and its subclasses (432-827),
`OrderedContainer` (877-921), `MultipleContainer` (924-969), `RecordContainer` (972-1074) and
`Container` itself (830-874).  The Option is the attribute `value` (None: the value is NULL).
A multiple container's dictionary maps each value to the number of times it occurs.  A record's
dictionary maps a field to a single value that is not NULL. -/
inductive Val
  | null
  | single (t : Option BaseType) (v : Option Datum)
  | ordered (t : Option BaseType) (v : Option (List Datum))
  | multiple (t : Option BaseType) (v : Option (List (Datum × Nat)))
  | record (v : Option (List (Str × BaseType × Datum)))
  | container (t : Option BaseType)
  deriving DecidableEq, Repr

/-- variables.py:349-356, 436-437, 881-882, 928-929, 979-980 `cardinality`. -/
def Val.card : Val → Option Card
  | .null => none
  | .single _ _ => some .single
  | .ordered _ _ => some .ordered
  | .multiple _ _ => some .multiple
  | .record _ => some .record
  | .container _ => none

/-- The attribute `baseType` (variables.py:253-264, 839-841, 976-977). -/
def Val.bt : Val → Option BaseType
  | .null => none
  | .single t _ => t
  | .ordered t _ => t
  | .multiple t _ => t
  | .record _ => none
  | .container t => t

/-- variables.py:364-378 `Value.__bool__`: the value is not NULL. -/
def Val.isSet : Val → Bool
  | .null => false
  | .single _ v => v.isSome
  | .ordered _ v => v.isSome
  | .multiple _ v => v.isSome
  | .record v => v.isSome
  | .container _ => false

/-- Does the Python value have the type that the base type calls for? -/
def Datum.hasType : BaseType → Datum → Bool
  | .boolean, .bool _ => true
  | .directedPair, .pair _ _ => true
  | .duration, .num _ => true
  | .float, .num _ => true
  | .identifier, .str _ => true
  | .integer, .int _ => true
  | .pair, .pair _ _ => true
  | .point, .point _ _ => true
  | .string, .str _ => true
  | .uri, .str _ => true
  | _, _ => false

/-- The text order of Python strings (list order of the codes), `a > b` (variables.py:732). -/
def strGt : Str → Str → Bool
  | [], _ => false
  | _ :: _, [] => true
  | a :: s, b :: t => if a = b then strGt s t else decide (b < a)

/-- The 32 bit range of variables.py:708, 767. -/
def inRange (i : Int) : Bool := decide (-2147483648 ≤ i) && decide (i ≤ 2147483647)

/-- variables.py:440-469 `SingleValue.new_value(base_type, value)` and the `set_value` of the
subclasses (488-507, 526-547, 616-631, 661-679, 698-715, 728-733, 752-772, 791-799, 818-827) for
a value that is already a Python value of the base type.  Conversion from text and between types
(an int given for a boolean, for example) is not modelled: such a value raises ValueError here.
Names are checked by the caller.  Result: the attribute `value`. -/
def coerce (t : BaseType) (d : Datum) : R (Option Datum) :=
  match t, d with
  | .boolean, .bool b => .ok (some (.bool b))
  | .directedPair, .pair a b => .ok (some (.pair a b))
  | .pair, .pair a b => .ok (some (if strGt a b then .pair b a else .pair a b))
  | .duration, .num q => .ok (some (.num q))
  | .float, .num q => .ok (some (.num q))
  | .identifier, .str s => .ok (some (.str s))
  | .uri, .str s => .ok (some (.str s))
  | .string, .str s => .ok (if s = [] then none else some (.str s))
  | .integer, .int i => if inRange i then .ok (some (.int i)) else .error .value
  | .point, .point x y =>
      if inRange x && inRange y then .ok (some (.point x y)) else .error .value
  | _, _ => .error .value

/-- variables.py:440-469 with an optional value: no base type gives an empty SingleValue. -/
def newSingle (t : Option BaseType) (d : Option Datum) : R Val :=
  match t with
  | none => .ok (.single none none)
  | some t =>
    match d with
    | none => .ok (.single (some t) none)
    | some d => (coerce t d).map (Val.single (some t))

/-- The dictionary lookup `d.get(k)`. -/
def dget {α β : Type} [DecidableEq α] (k : α) : List (α × β) → Option β
  | [] => none
  | (a, b) :: l => if a = k then some b else dget k l

/-- The dictionary store `d[k] = v`: in place for a known key, at the end for a new one. -/
def dset {α β : Type} [DecidableEq α] (k : α) (v : β) : List (α × β) → List (α × β)
  | [] => [(k, v)]
  | (a, b) :: l => if a = k then (k, v) :: l else (a, b) :: dset k v l

/-- `del d[k]` for a key of the dictionary. -/
def ddel {α β : Type} [DecidableEq α] (k : α) : List (α × β) → List (α × β)
  | [] => []
  | (a, b) :: l => if a = k then l else (a, b) :: ddel k l

/-- `self.value[v] = self.value.get(v, 0) + 1` (variables.py:958). -/
def bump (k : Datum) (m : List (Datum × Nat)) : List (Datum × Nat) :=
  dset k ((dget k m).getD 0 + 1) m

/-- The loop of variables.py:902-912 over the values of a list, none of them None.  A single
value that turns out NULL (an empty string) would be appended as None: this cannot be held in
the model's list, and the model raises TypeError for it. -/
def coerceAll (t : Option BaseType) : List Datum → R (List Datum)
  | [] => .ok []
  | d :: l =>
    match t with
    | none => .error .value
    | some bt => do
      match ← coerce bt d with
      | none => .error .type
      | some d' => do
        let r ← coerceAll t l
        pure (d' :: r)

/-- variables.py:884-914 `OrderedContainer.set_value` with a list. -/
def setOrdered (t : Option BaseType) (l : List Datum) : R Val := do
  let r ← coerceAll t l
  pure (.ordered t (if r = [] then none else some r))

/-- The counting of variables.py:947-958. -/
def countAll (l : List Datum) : List (Datum × Nat) := l.foldl (fun m d => bump d m) []

/-- variables.py:931-960 `MultipleContainer.set_value` with a list. -/
def setMultiple (t : Option BaseType) (l : List Datum) : R Val := do
  let r ← coerceAll t l
  pure (.multiple t (if countAll r = [] then none else some (countAll r)))

/-- variables.py:962-969 `MultipleContainer.get_values`: each value as often as it occurs.  The
code yields them in sorted order; the model keeps the dictionary's order (no operator makes the
order of a multiple container visible, except that `random` draws by position). -/
def expand (m : List (Datum × Nat)) : List Datum := m.flatMap fun p => List.replicate p.2 p.1

/-- variables.py:843-845, 916-921, 962-969 `get_values` of the containers. -/
def Val.getValues : Val → List Datum
  | .ordered _ (some l) => l
  | .multiple _ (some m) => expand m
  | _ => []

/-- variables.py:109-124 `check_base_types`. -/
def checkBaseTypes.go : Option BaseType → List (Option BaseType) → R (Option BaseType)
  | acc, [] => .ok acc
  | acc, none :: l => checkBaseTypes.go acc l
  | none, some b :: l => checkBaseTypes.go (some b) l
  | some a, some b :: l => if b = a then checkBaseTypes.go (some a) l else .error .processing

def checkBaseTypes (l : List (Option BaseType)) : R (Option BaseType) := checkBaseTypes.go none l

/-- variables.py:183-198 `check_cardinalities`. -/
def checkCards.go : Option Card → List (Option Card) → R (Option Card)
  | acc, [] => .ok acc
  | acc, none :: l => checkCards.go acc l
  | none, some b :: l => checkCards.go (some b) l
  | some a, some b :: l => if b = a then checkCards.go (some a) l else .error .processing

def checkCards (l : List (Option Card)) : R (Option Card) := checkCards.go none l

/-- variables.py:127-145 `check_numerical_types`. -/
def checkNum.go : Option BaseType → List (Option BaseType) → R (Option BaseType)
  | acc, [] => .ok acc
  | acc, none :: l => checkNum.go acc l
  | acc, some b :: l =>
    if b = .float ∨ b = .integer then
      match acc with
      | none => checkNum.go (some b) l
      | some a => if b = a then checkNum.go (some a) l else checkNum.go (some .float) l
    else .error .processing

def checkNum (l : List (Option BaseType)) : R (Option BaseType) := checkNum.go none l

/-- Dictionary equality of two multiple containers' dictionaries (`==` on dict). -/
def dictEq (a b : List (Datum × Nat)) : Bool :=
  decide (a.length = b.length) && a.all fun p => decide (dget p.1 b = some p.2)

/-- Dictionary equality of two records (`==` on dict, variables.py:395): sizes first, then field
by field with `Value.__eq__`, which refuses different base types and durations.  The identity
shortcut of Python's comparison (the same value object in both records) is not modelled. -/
def recEq.go (b : List (Str × BaseType × Datum)) : List (Str × BaseType × Datum) → R Bool
  | [] => .ok true
  | (f, t, d) :: l =>
    match dget f b with
    | none => .ok false
    | some (t', d') =>
      if t ≠ t' then .error .processing
      else if t = .duration then .error .processing
      else if d = d' then recEq.go b l else .ok false

def recEq (a b : List (Str × BaseType × Datum)) : R Bool :=
  if a.length = b.length then recEq.go b a else .ok false

/-- variables.py:383-397 `Value.__eq__`; `none` is the NullResult exception. -/
def valEq (v w : Val) : R (Option Bool) := do
  let _ ← checkCards [v.card, w.card]
  let t ← checkBaseTypes [v.bt, w.bt]
  if t = some .duration then .error .processing
  else
    match v, w with
    | .single _ (some a), .single _ (some b) => pure (some (decide (a = b)))
    | .ordered _ (some a), .ordered _ (some b) => pure (some (decide (a = b)))
    | .multiple _ (some a), .multiple _ (some b) => pure (some (dictEq a b))
    | .record (some a), .record (some b) => (recEq a b).map some
    | _, _ => pure none

/-- `BooleanValue(b)` (variables.py:472-507). -/
def boolVal (b : Option Bool) : Val := .single (some .boolean) (b.map .bool)

/-- `IntegerValue(i)` (variables.py:682-715): a value outside 32 bits raises ValueError. -/
def intVal (i : Int) : R Val :=
  if inRange i then .ok (.single (some .integer) (some (.int i))) else .error .value

/-- `IntegerValue()`. -/
def intNull : Val := .single (some .integer) none

/-- `FloatValue(q)` (variables.py:600-631). -/
def floatVal (q : Option Rat) : Val := .single (some .float) (q.map .num)

end Verif.Qti

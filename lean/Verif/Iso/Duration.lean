import Verif.Text.Decimal
/-!
# Model of durations, `pyslet/iso8601.py:2593-2722`, `3320-3447`, and `pyslet/xml/xsdatatypes.py:401-443`

Text is a list of character codes; the state of the parser is the text not yet consumed, it never goes back.  The floats of values with
a decimal sign are modelled by exact decimal fractions.
-/
namespace Verif.Iso.Dur
open Verif.Text

/-- A value: an int, or the float `n + f / 10 ** k`. -/
inductive Num where
  | int (n : Nat)
  | frac (n f k : Nat)
  deriving DecidableEq, Repr

def Num.isInt : Num → Bool
  | .int _ => true
  | .frac .. => false

/-- `value == 0`. -/
def Num.isZero : Num → Bool
  | .int n => n == 0
  | .frac n f _ => n == 0 && f == 0

/-- Exceptions. -/
inductive DErr where
  | dateTime | type | attribute | notImplemented | index
  deriving DecidableEq, Repr

/-- A duration: in weeks, or years, months, days, hours, minutes and seconds. -/
inductive Duration where
  | weeks (w : Num)
  | calendar (cs : List (Option Num))
  deriving DecidableEq, Repr

/-- `parse_duration_value`, iso8601.py:3320-3337, with `parse_fraction`, 3436-3447.  `None in ".,"` is a TypeError, and there is no
method `BadSyntax`. -/
def parseNum (allow : Bool) (s : List Nat) : Except DErr (Option Num × List Nat) :=
  let ds := s.takeWhile isDigit
  let r := s.dropWhile isDigit
  if ds.isEmpty then .ok (none, s)
  else match r with
    | [] => .error .type
    | c :: r =>
      if c == 46 || c == 44 then
        if !allow then .error .dateTime
        else if (r.takeWhile isDigit).isEmpty then .error .attribute
        else .ok (some (.frac (decVal ds) (decVal (r.takeWhile isDigit)) (r.takeWhile isDigit).length), r.dropWhile isDigit)
      else .ok (some (.int (decVal ds)), c :: r)

/-- The next value, and whether there can be another fraction: e.g. iso8601.py:3346-3347. -/
def nextValue (a : Bool) (s : List Nat) : Except DErr (Option Num × Bool × List Nat) :=
  match parseNum a s with
  | .error e => .error e
  | .ok (v, s) => .ok (v, a && (match v with | none => true | some v => v.isInt), s)

/-- `self.the_char == c` with a value pending. -/
def atChar (v : Option Num) (c : Nat) (s : List Nat) : Bool := v.isSome && s.head? == some c

/-- The parts before the `T`, iso8601.py:3353-3377, or after it, 3386-3410: each designator takes the pending value; another one is read
except after the last designator. -/
def section_ : List Nat → Option Num → Bool → List Nat → Except DErr (List (Option Num) × Option Num × Bool × List Nat)
  | [], v, a, s => .ok ([], v, a, s)
  | [c], v, a, s => if atChar v c s then .ok ([v], none, a, s.tail) else .ok ([none], v, a, s)
  | c :: c' :: cs, v, a, s =>
    if atChar v c s then
      match nextValue a s.tail with
      | .error e => .error e
      | .ok (v', a', s') => match section_ (c' :: cs) v' a' s' with
        | .error e => .error e
        | .ok (r, x) => .ok (v :: r, x)
    else match section_ (c' :: cs) v a s with
      | .error e => .error e
      | .ok (r, x) => .ok (none :: r, x)

/-- iso8601.py:3424-3430: missing values before one that is given are 0. -/
def fill : List (Option Num) → List (Option Num)
  | [] => []
  | v :: vs => (match v with
      | some x => some x
      | none => if vs.any Option.isSome then some (.int 0) else none) :: fill vs

/-- "YMD" -/
def dateDes : List Nat := [89, 77, 68]
/-- "HMS" -/
def timeDes : List Nat := [72, 77, 83]

/-- iso8601.py:3378-3434. -/
def afterDate (ds : List (Option Num)) (v : Option Num) (a : Bool) (s : List Nat) : Except DErr (Duration × List Nat) :=
  if v.isSome then .error .dateTime
  else if s.head? == some 84 then
    match nextValue a s.tail with
    | .error e => .error e
    | .ok (v, a, s) => match section_ timeDes v a s with
      | .error e => .error e
      | .ok (ts, v, _, s) =>
        if v.isSome then .error .dateTime
        else if ts.any Option.isSome then .ok (.calendar (fill (ds ++ ts)), s)
        else .error .dateTime
  else if ds.any Option.isSome then .ok (.calendar (fill (ds ++ [none, none, none])), s)
  else .error .dateTime

/-- `parse_duration`, iso8601.py:3339-3434: the duration, and what has not been read. -/
def parseDuration (s : List Nat) : Except DErr (Duration × List Nat) :=
  if s.head? == some 80 then
    match nextValue true s.tail with
    | .error e => .error e
    | .ok (v, a, s) =>
      if atChar v 87 s then .ok (.weeks (v.getD (.int 0)), s.tail)
      else match section_ dateDes v a s with
        | .error e => .error e
        | .ok (ds, v, a, s) => afterDate ds v a s
  else .error .dateTime

/-- `Duration(src)`, iso8601.py:2648-2653: what has not been read is ignored. -/
def ofString (s : List Nat) : Except DErr Duration := (parseDuration s).map (·.1)

/-- iso8601.py:2658-2660: components without the trailing `None`s; the error is the IndexError for an empty list. -/
def dropNone (cs : List (Option Num)) : List (Option Num) := (cs.reverse.dropWhile Option.isNone).reverse

/-- iso8601.py:2661-2666: leading zeros, but not the last component. -/
def truncZeros : List (Option Num) → List (Option Num)
  | [] => []
  | [c] => [c]
  | c :: cs => if c == some (.int 0) || (match c with | some v => v.isZero | none => false) then none :: truncZeros cs else c :: cs

/-- The digits of a fraction, iso8601.py:2684-2685: the value `2e-13` is added to the fraction. -/
def fracDigits (w f k : Nat) : Nat := (f * 10 ^ 13 + 2 * 10 ^ k) * 10 ^ w / (10 ^ k * 10 ^ 13)

/-- A component, iso8601.py:2667-2691; `ndp` positive for a comma. -/
def compText (ndp : Int) (des : Nat) : Option Num → List Nat
  | none => []
  | some (.int n) => decStr n ++ [des]
  | some (.frac n f k) =>
    if ndp = 0 then decStr n ++ [des]
    else decStr n ++ (if ndp > 0 then 44 else 46) :: decPad ndp.natAbs (fracDigits ndp.natAbs f k) ++ [des]

/-- The loop; a negative `ndp` is made positive by the first fraction. -/
def compTexts (ndp : Int) : List Nat → List (Option Num) → List Nat
  | d :: ds, c :: cs => compText ndp d c ++ compTexts (match c with | some (.frac ..) => ndp.natAbs | _ => ndp) ds cs
  | _, _ => []

/-- `isinstance(value, float)`. -/
def isFloat : Option Num → Bool
  | some (.frac ..) => true
  | _ => false

/-- `get_string`, iso8601.py:2655-2699.  The sign of `ndp` lost in the date part is lost in the time part. -/
def getString (tz : Bool) (ndp : Int) : Duration → Except DErr (List Nat)
  | .weeks _ => .error .notImplemented
  | .calendar cs =>
    if (dropNone cs).isEmpty then .error .index
    else
      let c := if tz then truncZeros (dropNone cs) else dropNone cs
      let ndp' : Int := if (c.take 3).any isFloat then ndp.natAbs else ndp
      let t := compTexts ndp' timeDes (c.drop 3)
      .ok (80 :: compTexts ndp dateDes (c.take 3) ++ if t.isEmpty then [] else 84 :: t)

/-- `xsdatatypes.Duration`: a sign and a duration; `set_from_string`, xsdatatypes.py:426-436. -/
def xsdOfString (s : List Nat) : Except DErr (Bool × Duration) :=
  match s with
  | [] => .error .index
  | c :: r => if c == 45 then (ofString r).map fun d => (true, d) else (ofString s).map fun d => (false, d)

/-- `__unicode__`, xsdatatypes.py:418-424. -/
def xsdToString (x : Bool × Duration) : Except DErr (List Nat) := (getString false 0 x.2).map fun t => if x.1 then 45 :: t else t

/-- `__eq__`, iso8601.py:2710-2722, which `xsdatatypes.Duration` inherits. -/
def xsdEq (x y : Bool × Duration) : Bool := x.2 == y.2

end Verif.Iso.Dur

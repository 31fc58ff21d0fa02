import Verif.OData.Expr
import Verif.OData.Float
/-!
# Model of the evaluation of OData expressions: `pyslet/odata2/core.py` lines 140-183, 452-970 and `csdl.py`

The context is an entity with simple properties.  Floating point, decimal, date and guid data are opaque: what
Python does with them is given by the structure `Ext`, which is arbitrary.
-/
namespace Verif.OData

/-- `SimpleType`, csdl.py:350-411. -/
inductive Ty where
  | binary | boolean | byte | datetime | dto | time | decimal | double | single | guid | i16 | i32 | i64 | string | sbyte
deriving DecidableEq, Repr

/-- `NUMERIC_TYPES`, core.py:140-147: SByte is not one of them. -/
def numericTypes : List Ty := [.double, .single, .decimal, .i64, .i32, .i16, .byte]

/-- The exceptions of an evaluation: EvaluationError, ValueError (value out of range), TypeError, and anything
else (KeyError, IndexError, or an operation that is not modelled). -/
inductive Err where
  | eval | value | type | other
deriving DecidableEq, Repr

/-- `promote_types`, core.py:150-182. -/
def promote (a b : Option Ty) : Except Err (Option Ty) :=
  if a = b then .ok a
  else if a = none then .ok b
  else if b = none then .ok a
  else
    match a, b with
    | some a, some b =>
      if a ∉ numericTypes ∨ b ∉ numericTypes then .error .eval
      else if a = .double ∨ b = .double then .ok (some .double)
      else if a = .single ∨ b = .single then .ok (some .single)
      else if a = .decimal ∨ b = .decimal then .ok (some .decimal)
      else if a = .i64 ∨ b = .i64 then .ok (some .i64)
      else if a = .i32 ∨ b = .i32 then .ok (some .i32)
      else if a = .i16 ∨ b = .i16 then .ok (some .i16)
      else .ok none
    | _, _ => .ok none

/-- The Python object inside a simple value. -/
inductive Datum where
  | int (n : Int)
  | bool (b : Bool)
  | text (s : Str)
  | opaque (k : Nat)
deriving DecidableEq, Repr

/-- A SimpleValue: its type code and its value (`none` is NULL). -/
structure Value where
  ty : Option Ty
  v : Option Datum
deriving DecidableEq, Repr

/-- `EDMValue.from_type(t)` with the value set. -/
def Value.of (t : Ty) (d : Datum) : Value := ⟨some t, some d⟩

/-- A NULL of a type. -/
def Value.null (t : Option Ty) : Value := ⟨t, none⟩

/-- What Python does with opaque data. -/
structure Ext where
  /-- conversion to Single, Double or Decimal -/
  conv : Ty → Datum → Except Err Datum
  /-- an operation on two Single, Double or Decimal operands, with the range check of the result -/
  arith : Op → Ty → Datum → Datum → Except Err Datum
  /-- a comparison -/
  cmp : Op → Datum → Datum → Bool
  /-- negation -/
  neg : Ty → Datum → Except Err Datum
  /-- the datum of a literal that is not modelled -/
  lit : Val → Datum
  /-- `str.lower`, `upper`, `strip`, `replace` and the parts of dates and numbers -/
  method : Method → List Datum → Except Err Datum

/-- The ranges of the integer types, csdl.py:1266-1272, 1803-1810, 1832-1839, 1867-1875, 1945-1952. -/
def intRange : Ty → Option (Int × Int)
  | .byte => some (0, 255)
  | .sbyte => some (-128, 127)
  | .i16 => some (-32768, 32767)
  | .i32 => some (-2147483648, 2147483647)
  | .i64 => some (-9223372036854775808, 9223372036854775807)
  | _ => none

/-- `set_from_value` of an integer type with an integer: ValueError outside the range. -/
def setInt (t : Ty) (n : Int) : Except Err Value :=
  match intRange t with
  | some (lo, hi) => if n < lo ∨ n > hi then .error .value else .ok (.of t (.int n))
  | none => .error .other

/-- `simple_cast(t)`, csdl.py:1002-1025, to one of the types of arithmetic. -/
def castTo (x : Ext) (t : Ty) (a : Value) : Except Err Value :=
  if a.ty = some t then .ok a
  else
    match a.v with
    | none => .ok (.null t)
    | some d =>
      if (intRange t).isSome then
        match d with
        | .int n => setInt t n
        | _ => .error .other
      else (x.conv t d).map (Value.of t)

/-- The types `evaluate_mul` and the others accept, core.py:615-618. -/
def arithTypes : List Ty := [.i32, .i64, .single, .double, .decimal]

/-- The operation on two values of the same type that are not NULL. -/
def arithOp (x : Ext) (op : Op) (t : Ty) (a b : Datum) : Except Err Value :=
  match a, b with
  | .int m, .int n =>
    if t = .i32 ∨ t = .i64 then
      match op with
      | .mul => setInt t (m * n)
      | .add => setInt t (m + n)
      | .sub => setInt t (m - n)
      | .div => if n = 0 then .error .eval else setInt t (intDiv m n)
      | .mod =>                                      -- a ValueError becomes an EvaluationError
        if n = 0 then .error .eval else match setInt t (intMod m n) with | .ok v => .ok v | .error _ => .error .eval
      | _ => .error .other
    else (x.arith op t a b).map (Value.of t)
  | _, _ => (x.arith op t a b).map (Value.of t)

/-- `evaluate_mul`, `div`, `mod`, `add`, `sub`, core.py:613-722. -/
def evalArith (x : Ext) (op : Op) (a b : Value) : Except Err Value := do
  match ← promote a.ty b.ty with
  | none => return .null (some .i32)
  | some t =>
    if t ∈ arithTypes then do
      let a ← castTo x t a
      let b ← castTo x t b
      match a.v, b.v with
      | some c, some d => arithOp x op t c d
      | _, _ => return .null (some t)
    else throw .eval

/-- The comparison of two integers or strings (by code points); the other types are compared by `cmp`. -/
def relOp (x : Ext) (op : Op) (a b : Datum) : Bool :=
  match a, b with
  | .int m, .int n =>
    match op with
    | .lt => m < n | .gt => m > n | .le => m ≤ n | .ge => m ≥ n
    | _ => m == n
  | .text s, .text t =>
    match op with
    | .lt => s < t | .gt => t < s | .le => !decide (t < s) | .ge => !decide (s < t)
    | _ => s == t
  | .bool b, .bool c => b == c
  | a, b => x.cmp op a b

/-- A Boolean result. -/
def boolVal (b : Bool) : Value := .of .boolean (.bool b)

/-- `evaluate_relation`, core.py:736-765; comparing with None raises TypeError. -/
def evalRel (x : Ext) (op : Op) (a b : Value) : Except Err Value := do
  match ← promote a.ty b.ty with
  | none => return boolVal false
  | some t =>
    if t ∈ arithTypes then do
      let a ← castTo x t a
      let b ← castTo x t b
      match a.v, b.v with
      | some c, some d => return boolVal (relOp x op c d)
      | _, _ => return boolVal false
    else if t = .string ∨ t = .datetime ∨ t = .dto ∨ t = .guid then
      match a.v, b.v with
      | some c, some d => return boolVal (relOp x op c d)
      | _, _ => throw .type
    else throw .eval

/-- Python's `==`, with None. -/
def optEq (x : Ext) (a b : Option Datum) : Bool :=
  match a, b with
  | none, none => true
  | some c, some d => relOp x .eq c d
  | _, _ => false

/-- `evaluate_eq` for primitive values, core.py:812-834. -/
def evalEq (x : Ext) (a b : Value) : Except Err Bool := do
  match ← promote a.ty b.ty with
  | none => return true
  | some t =>
    if t ∈ arithTypes then do
      let a ← castTo x t a
      let b ← castTo x t b
      return optEq x a.v b.v
    else if t = .string ∨ t = .datetime ∨ t = .dto ∨ t = .guid ∨ t = .binary then return optEq x a.v b.v
    else throw .eval

/-- The truth value inside a Boolean. -/
def asBool : Option Datum → Bool
  | some (.bool b) => b
  | _ => false

/-- `evaluate_and` and `evaluate_or`, core.py:841-877: a NULL operand makes the result false. -/
def evalLogic (op : Op) (a b : Value) : Except Err Value := do
  match ← promote a.ty b.ty with
  | none => return boolVal false
  | some .boolean =>
    if a.v.isSome && b.v.isSome then
      return boolVal (if op = .and then asBool a.v && asBool b.v else asBool a.v || asBool b.v)
    else return boolVal false
  | some _ => throw .eval

/-- `evaluate_not`, core.py:475-490. -/
def evalNot (a : Value) : Except Err Value :=
  match a.v with
  | none => .ok (.null (some .boolean))
  | some d => if a.ty = some .boolean then .ok (boolVal (!asBool (some d))) else .error .eval

/-- `evaluate_negate`, core.py:456-473. -/
def evalNegate (x : Ext) (a : Value) : Except Err Value := do
  let a ← (if a.ty = some .byte ∨ a.ty = some .i16 then castTo x .i32 a
           else if a.ty = some .single then castTo x .double a else pure a)
  match a.ty with
  | none => return .null (some .i32)
  | some t =>
    if t = .i32 ∨ t = .i64 ∨ t = .double ∨ t = .decimal then
      match a.v with
      | none => return .null (some t)
      | some (.int n) => if t = .i32 ∨ t = .i64 then setInt t (0 - n) else (x.neg t (.int n)).map (Value.of t)
      | some d => (x.neg t d).map (Value.of t)
    else throw .eval

/-- A binary operator on evaluated operands, core.py:537-561, 879-894. -/
def evalBinary (x : Ext) (op : Op) (a b : Value) : Except Err Value :=
  match op with
  | .mul | .div | .mod | .add | .sub => evalArith x op a b
  | .lt | .gt | .le | .ge => evalRel x op a b
  | .eq => (evalEq x a b).map boolVal
  | .ne => (evalEq x a b).map fun r => boolVal (!r)
  | .and | .or => evalLogic op a b
  | _ => .error .other

/-! ### Methods on strings -/

/-- `can_cast_method_argument(t, String)` and the cast, core.py:994-1002; for the strict form an untyped null is
refused, core.py:1004-1012. -/
def strArg (strict : Bool) (a : Value) : Except Err (Option Str) :=
  if a.ty = some .string then
    match a.v with
    | some (.text s) => .ok (some s)
    | none => .ok none
    | _ => .error .other
  else if a.ty = none ∧ !strict then .ok none
  else .error .eval

/-- `s.find(p)`: the index of the first occurrence, or -1. -/
def find (p : Str) : Str → Int
  | [] => if p = [] then 0 else -1
  | c :: s => if p.isPrefixOf (c :: s) then 0 else match find p s with | -1 => -1 | k => k + 1

/-- A slice index in a text of length `n`: negative indices count from the end. -/
def sliceIdx (n : Nat) (i : Int) : Nat := if i < 0 then ((n : Int) + i).toNat else i.toNat

/-- `s[i:j]`. -/
def slice (s : Str) (i j : Int) : Str := (s.take (sliceIdx s.length j)).drop (sliceIdx s.length i)

/-- An Int32 argument of substring. -/
def intArg (a : Value) : Except Err (Option Int) :=
  if a.ty = some .i32 then
    match a.v with
    | some (.int n) => .ok (some n)
    | none => .ok none
    | _ => .error .other
  else .error .eval

/-- NULL of the result type if an argument was NULL. -/
def orNull (t : Ty) (d : Option Datum) : Value := ⟨some t, d⟩

/-- The string methods, core.py:1014-1160 (`tolower`, `toupper`, `trim`, `replace`, the date and the rounding
methods are left to `Ext`). -/
def evalCall (x : Ext) (m : Method) (args : List Value) : Except Err Value :=
  match m, args with
  | .endswith, [a, b] => do
    let s ← strArg false a; let p ← strArg false b
    return orNull .boolean (s.bind fun s => p.map fun p => .bool (p.isSuffixOf s))
  | .startswith, [a, b] => do
    let s ← strArg false a; let p ← strArg false b
    return orNull .boolean (s.bind fun s => p.map fun p => .bool (p.isPrefixOf s))
  | .indexof, [a, b] => do
    let s ← strArg false a; let p ← strArg false b
    match s, p with
    | some s, some p => setInt .i32 (find p s)
    | _, _ => return .null (some .i32)
  | .substringof, [a, b] => do
    let p ← strArg false a; let s ← strArg false b
    return orNull .boolean (s.bind fun s => p.map fun p => .bool (find p s ≥ 0))
  | .concat, [a, b] => do
    let s ← strArg true a; let t ← strArg true b
    return orNull .string (s.bind fun s => t.map fun t => .text (s ++ t))
  | .length, [a] => do
    match ← strArg true a with
    | some s => setInt .i32 s.length
    | none => return .null (some .i32)
  | .substring, [a, i] => do
    let s ← strArg true a; let i ← intArg i
    return orNull .string (s.bind fun s => i.map fun i => .text (slice s i s.length))
  | .substring, [a, i, l] => do
    let s ← strArg true a; let i ← intArg i; let l ← intArg l
    return orNull .string (s.bind fun s => i.map fun i =>
      .text (match l with | some l => slice s i (i + l) | none => slice s i s.length))
  | .endswith, _ | .startswith, _ | .indexof, _ | .substringof, _ | .concat, _ | .length, _ | .substring, _ => .error .eval
  | m, args => if args.all (fun a => a.v.isSome) then (x.method m (args.filterMap Value.v)).map (Value.of .string) else .error .other

/-! ### Expressions -/

/-- The value of a literal. -/
def litValue (x : Ext) (v : Val) : Value :=
  match v with
  | .null => .null none
  | .bool b => .of .boolean (.bool b)
  | .byte n => .of .byte (.int n)
  | .sbyte n => .of .sbyte (.int n)
  | .i16 n => .of .i16 (.int n)
  | .i32 n => .of .i32 (.int n)
  | .i64 n => .of .i64 (.int n)
  | .str s => .of .string (.text s)
  | .dec .. => .of .decimal (x.lit v)
  | .flt single .. => .of (if single then .single else .double) (x.lit v)
  | .bin .. => .of .binary (x.lit v)
  | .binText => .of .binary (x.lit v)
  | .guid _ => .of .guid (x.lit v)
  | .dt .. => .of .datetime (x.lit v)
  | .dto _ => .of .dto (x.lit v)
  | .time .. => .of .time (x.lit v)

mutual
/-- `evaluate(entity)`, core.py:452-454, 537-561, 934-936, 948-971, 989-992, for an entity given by its simple
properties.  Navigation (`member`), `cast` and `isof` are not modelled. -/
def eval (x : Ext) (entity : Str → Option Value) : Expr → Except Err Value
  | .none => .error .other
  | .lit v => .ok (litValue x v)
  | .prop n => match entity n with | some v => .ok v | none => .error .other
  | .node op args => do
    let vs ← evalList x entity args
    match op, vs with
    | .negate, a :: _ => evalNegate x a
    | .not, a :: _ => evalNot a
    | .call m, vs => evalCall x m vs
    | op, a :: b :: _ => evalBinary x op a b
    | _, _ => .error .other
/-- The operands, from left to right. -/
def evalList (x : Ext) (entity : Str → Option Value) : List Expr → Except Err (List Value)
  | [] => .ok []
  | e :: es => do
    let v ← eval x entity e
    let vs ← evalList x entity es
    return v :: vs
end

/-- `check_filter`, core.py:3030-3045: `none` is an exception; NULL is treated as false. -/
def checkFilter (x : Ext) (entity : Str → Option Value) (e : Expr) : Option Bool :=
  match eval x entity e with
  | .ok v => if v.ty = some .boolean then some (asBool v.v) else none
  | .error _ => none

end Verif.OData

import Verif.Json.Text
import Verif.OData.DateLit
import Verif.Auth.Text
/-!
# Model of the JSON form of property values (`pyslet/odata2/core.py`)

Values are those of `OData.Val`; Single and Double values are not modelled (their text is Python's `repr`), nor are fractions of a
second in DateTime and DateTimeOffset values (they go through floats).
-/
namespace Verif.Json
open Verif.Text Verif.OData Verif.Iso

/-! ## Simple values -/

/-- `ticks`, core.py:2753-2754 and 2801-2802: milliseconds since the start of 1970, of the local time. -/
def dateTicks (p : TimePoint) : Option Int := do
  let day ← p.date.getAbsoluteDay
  let secs ← p.time.totalSeconds
  return (day - 719163) * 86400000 + secs * 1000

/-- `'"\\/Date(%s)\\/"' % body`, core.py:2803 and 2819. -/
def dateJson (body : Str) : Str := 34 :: 92 :: 47 :: (chars "Date(" ++ (body ++ [41, 92, 47, 34]))

/-- `simple_value_to_json_str`, core.py:2781-2821, for a property without a precision (so that `to_text` of a Time drops fractions of the
second, csdl.py:1459-1468).  `none`: an exception, or not modelled (Single, Double, DateTime with a fraction of a second). -/
def valJson : Val → Option Str
  | .null => some (chars "null")
  | .bin b => some (dumps (Auth.b64encode b))
  | .bool b => some (if b then chars "true" else chars "false")
  | .byte n => some (decStr n)
  | .sbyte n => some (intStr n)
  | .i16 n => some (intStr n)
  | .i32 n => some (intStr n)
  | .dt p frac => if frac = [] then (dateTicks p).map fun t => dateJson (intStr t) else none
  | .dec neg coef scale =>
    if scale ≤ 29 ∧ (decStr coef).length ≤ 29 + scale then some (dumps (decText neg coef scale)) else none
  | .guid n => some (dumps (guidText n))
  | .i64 n => some (dumps (intStr n))
  | .str s => some (dumps s)
  | .time t _ => (t.string false .none true).map dumps
  | .dto p => do
    let ticks ← dateTicks p
    let off ← p.time.zoff
    return dateJson (intStr ticks ++ (if p.time.zdir = some 1 then 43 else 45) :: fmtInt 4 off)
  | .flt .. => none
  | .binText => none

/-- The simple types. -/
inductive Kind | binary | boolean | byte | sbyte | int16 | int32 | int64 | decimal | guid | string | time | dateTime | dateTimeOffset
  deriving DecidableEq, Repr

/-- `int(text)`; only a sign and digits are modelled (Python also allows white space, underscores and other digits). -/
def pyInt (s : Str) : Option Int :=
  match s with
  | 45 :: r => if r ≠ [] && r.all isDigit then some (-(decVal r : Int)) else none
  | 43 :: r => if r ≠ [] && r.all isDigit then some (decVal r : Int) else none
  | _ => if s ≠ [] && s.all isDigit then some (decVal s : Int) else none

/-- `ticks.split(sep)` where there must be two parts, core.py:2837-2849. -/
def splitTwo (sep : Nat) (s : Str) : Option (Str × Str) :=
  let a := s.takeWhile (· ≠ sep)
  let b := (s.dropWhile (· ≠ sep)).drop 1
  if sep ∈ b then none else some (a, b)

/-- `parse_asp_dot_net_date` after the brackets, core.py:2837-2852: the text of the ticks, the direction and the offset of the zone. -/
def aspParts (t : Str) : Option (Str × Int × Int) :=
  if 43 ∈ t then do
    let (a, b) ← splitTwo 43 t
    let z ← pyInt b
    return (a, 1, z)
  else if 45 ∈ t then do
    let (a, b) ← splitTwo 45 t
    let z ← pyInt b
    return (a, -1, z)
  else some (t, 0, 0)

/-- `parse_asp_dot_net_date`, core.py:2824-2857; ticks that are not whole seconds are not modelled (`none`).  The seconds of the time are
floats in the code. -/
def parseAsp (s : Str) : Option TimePoint :=
  if s.take 6 = chars "/Date(" && s.drop (s.length - 2) = [41, 47] then do
    let (a, zdir, zoff) ← aspParts ((s.drop 6).dropLast.dropLast)
    let n ← pyInt a
    if n % 1000 ≠ 0 then none
    else do
      let (t, overflow) ← (Clock.time ⟨0, 0, 0⟩ .unspecified).offset 0 0 (n / 1000)
      let t ← t.withZone (some zdir) (some (zoff / 60)) (some (zoff % 60))
      let d ← mkDate { absolute := some (719163 + overflow) }
      mkTimePoint d t
  else none

/-- `DateTimeValue.set_from_value` of a TimePoint, csdl.py:1329-1330. -/
def setDateTime (p : TimePoint) : Option Val := do
  let t ← p.time.withZone none none none
  return .dt ⟨p.date, t⟩ []

/-- `DateTimeOffsetValue.set_from_value` of a TimePoint, csdl.py:1417-1427. -/
def setDateTimeOffset (p : TimePoint) : Option Val :=
  if p.time.zone3.1.isNone ∨ p.time.zoneOffset.isNone then none
  else if !p.complete then none
  else some (.dto p)

/-- The range checks of `set_from_value` (csdl.py:1271-1276, 1806-1812, 1831-1841, 1945-1954). -/
def inRange (lo hi : Int) (n : Int) (v : Val) : Option Val := if n < lo ∨ n > hi then none else some v

/-- `Parser.parse_guid_literal` and the end of the text, csdl.py:728-761. -/
def setGuid (s : Str) : Option Val :=
  match ((hexDigits 8 (some 8) s).require).bind fun a s => (expect 45 s).bind fun _ s =>
    ((hexDigits 4 (some 4) s).require).bind fun b s => (expect 45 s).bind fun _ s =>
    ((hexDigits 4 (some 4) s).require).bind fun c s => (expect 45 s).bind fun _ s =>
    ((hexDigits 4 (some 4) s).require).bind fun d s => (expect 45 s).bind fun _ s =>
    ((hexDigits 12 (some 12) s).require).bind fun e s => R.ok (a ++ b ++ c ++ d ++ e) s with
  | .ok h [] => some (.guid (hexNum h))
  | _ => none

/-- `NumericValue.set_from_literal`, csdl.py:1214-1218, for Int64 and Decimal. -/
def setNumeric (f : Numeric → Option Val) (s : Str) : Option Val :=
  match numeric s with
  | .ok n [] => f n
  | _ => none

/-- `TimeValue.set_from_literal`, csdl.py:1470-1472. -/
def setTime (s : Str) : Option Val :=
  match timeBody s with
  | .ok v [] => some v
  | _ => none

/-- The text read for a DateTime that is not in the ASP.NET form, core.py:2880-2886. -/
def isoDateTime (s : Str) : Option Val := do
  let p ← TimePoint.fromStr s none
  if p.time.zone3.1.isSome then do
    let q ← p.shiftZone (some 0) none none
    setDateTime q
  else setDateTime p

/-- The text read for a DateTimeOffset that is not in the ASP.NET form, core.py:2903-2909. -/
def isoDateTimeOffset (s : Str) : Option Val := do
  let p ← TimePoint.fromStr s none
  if p.time.zone3.1.isNone then do
    let t ← p.time.withZone (some 0) none none
    setDateTimeOffset ⟨p.date, t⟩
  else setDateTimeOffset p

/-- `simple_value_from_json`, core.py:2860-2914.  `none`: an exception, or a kind of JSON value the writer never uses there (a number
for a Boolean, a boolean for an integer), which is not modelled. -/
def valFrom : Kind → J → Option Val
  | _, .null => some .null
  | .binary, .str s => if s.all (· < 128) then (Auth.b64decode s).map .bin else none
  | .boolean, .bool b => some (.bool b)
  | .byte, .num n => inRange 0 255 n (.byte n.toNat)
  | .sbyte, .num n => inRange (-128) 127 n (.sbyte n)
  | .int16, .num n => inRange (-32768) 32767 n (.i16 n)
  | .int32, .num n => inRange (-2147483648) 2147483647 n (.i32 n)
  | .dateTime, .str s =>
    if s.take 6 = chars "/Date(" then do
      let p ← parseAsp s
      let q ← p.shiftZone (some 0) none none
      setDateTime q
    else isoDateTime s
  | .dateTimeOffset, .str s =>
    if s.take 6 = chars "/Date(" then do
      let p ← parseAsp s
      setDateTimeOffset p
    else isoDateTimeOffset s
  | .decimal, .str s => setNumeric setDecimal s
  | .int64, .str s => setNumeric setInt64 s
  | .guid, .str s => setGuid s
  | .string, .str s => some (.str s)
  | .time, .str s => setTime s
  | _, _ => none

/-! ## Complex values -/

/-- A property value: simple, or complex with named fields. -/
inductive PV where
  | simple (k : Kind) (v : Val)
  | complex (fields : List (Str × PV))

/-- A property type. -/
inductive PTy where
  | simple (k : Kind)
  | complex (fields : List (Str × PTy))

mutual
/-- `simple_value_to_json_str` or `complex_value_to_json_str`, core.py:2731-2739. -/
def pvJson : PV → Option Str
  | .simple _ v => valJson v
  | .complex fs => (fieldsJson fs).map fun ts => 123 :: commas ts ++ [125]
/-- `simple_property_to_json_str` and `complex_property_to_json_str` of the fields, core.py:2725-2728 and 2775-2778. -/
def fieldsJson : List (Str × PV) → Option (List Str)
  | [] => some []
  | (k, v) :: r => do
    let t ← pvJson v
    let ts ← fieldsJson r
    return (dumps k ++ 58 :: t) :: ts
end

mutual
/-- The value set from a JSON value: core.py:2500-2504.  For a complex value only a JSON object is modelled (null raises TypeError). -/
def pvFrom : PTy → J → Option PV
  | .simple k, j => (valFrom k j).map (.simple k)
  | .complex fs, .obj m => (fieldsFrom fs m).map .complex
  | .complex _, _ => none
/-- `complex_value_from_json`, core.py:2742-2750, and the first loop of `set_from_json_object`, core.py:2498-2506: a property that is not there
is set to NULL if it is simple; a complex value has no `set_from_value` (AttributeError). -/
def fieldsFrom : List (Str × PTy) → List (Str × J) → Option (List (Str × PV))
  | [], _ => some []
  | (k, t) :: r, m => do
    let v ← (match J.get? m k with
      | some j => pvFrom t j
      | none => match t with
        | .simple kd => some (.simple kd .null)
        | .complex _ => none)
    let vs ← fieldsFrom r m
    return (k, v) :: vs
end

end Verif.Json

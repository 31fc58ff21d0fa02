import Verif.Text.Decimal
import Verif.Iso.Strings
import Verif.Uri.Escape
/-!
# Model of OData URI literals: `pyslet/odata2/core.py` (LiteralExpression, Parser.parse_uri_literal) and
`pyslet/odata2/csdl.py` (Parser, the simple value classes)

Text is a list of character codes.  A parser is a function from the text from the current position on; its
result says whether it raised ValueError (`err`), returned None leaving the position where it was (`none`),
or returned a value with the rest of the text (`ok`).
-/
namespace Verif.OData

open Verif.Text
open Verif.Iso (Date Time TimePoint mkDate mkTime mkTimePoint)

/-- Text: a list of character codes. -/
abbrev Str := List Nat

/-- The codes of a literal. -/
def chars (s : String) : Str := s.toList.map Char.toNat

/-- The outcome of a parsing method. -/
inductive R (α : Type) where
  | err
  | none
  | ok (a : α) (rest : Str)
deriving DecidableEq, Repr

/-- Continue with the value and the rest of the text; `none` and `err` pass through. -/
def R.bind {α β : Type} : R α → (α → Str → R β) → R β
  | .err, _ => .err
  | .none, _ => .none
  | .ok a r, f => f a r

/-- `require_production`: None becomes a ParserError (a ValueError). -/
def R.require {α : Type} : R α → R α
  | .none => .err
  | r => r

/-- `require(match_string)` for a single character. -/
def expect (c : Nat) (s : Str) : R Unit :=
  match s with
  | x :: r => if x = c then .ok () r else .err
  | [] => .err

/-- The character classes of `parse_simple_identifier`, core.py:1646-1654: categories L, Nl start an identifier,
those and Nd, Mn, Mc, Pc, Cf continue it.  Only what is known of ASCII is fixed here; the rest of the Unicode
database is arbitrary. -/
structure Ids where
  start : Nat → Bool
  cont : Nat → Bool
  start_cont : ∀ c, start c = true → cont c = true
  start_ascii : ∀ c, c < 128 → start c = Uri.isAlpha c
  cont_ascii : ∀ c, c < 128 → cont c = (Uri.isAlnum c || c == 95)

/-- The loop of `parse_simple_identifier`, core.py:1657-1672; the fuel only has to exceed the length of the text.
A full stop that is not followed by another name makes the whole method return None. -/
def identLoop (ids : Ids) : Nat → Str → Option (Str × Str)
  | 0, _ => none
  | _, [] => none
  | fuel + 1, c :: r =>
    if ids.start c then
      let w := r.takeWhile ids.cont
      let r' := r.dropWhile ids.cont
      match r' with
      | [] => some (c :: w, [])
      | x :: r'' =>
        if x = 46 then (identLoop ids fuel r'').map fun (n, q) => (c :: w ++ 46 :: n, q)
        else some (c :: w, x :: r'')
    else none

/-- `parse_simple_identifier`, core.py:1620-1672. -/
def parseIdent (ids : Ids) (s : Str) : Option (Str × Str) := identLoop ids (s.length + 1) s

/-- `str.lower` restricted to ASCII letters: no other character maps to text that occurs in the keywords. -/
def lower (s : Str) : Str := s.map fun c => if 65 ≤ c ∧ c ≤ 90 then c + 32 else c

/-- The values of simple types.  `flt` stands for Single and Double values, given by the literal they were read
from (conversion to a float is not modelled); `dec` is a Decimal with sign, coefficient and number of decimals;
`dt`, `time`: a TimePoint or Time with whole seconds, and the digits of the fraction of the second.
`binText` is the character string '' that `parse_binary_literal` returns for an empty literal. -/
inductive Val where
  | null
  | bool (b : Bool)
  | byte (n : Nat)
  | sbyte (n : Int)
  | i16 (n : Int)
  | i32 (n : Int)
  | i64 (n : Int)
  | dec (neg : Bool) (coef : Nat) (scale : Nat)
  | flt (single : Bool) (sign ldigits : Str) (rdigits : Option Str) (esign : Str) (edigits : Option Str)
  | str (s : Str)
  | bin (b : List Nat)
  | binText
  | guid (n : Nat)
  | dt (p : TimePoint) (frac : Str)
  | dto (p : TimePoint)
  | time (t : Time) (frac : Str)
deriving DecidableEq, Repr

/-! ### Formatting -/

/-- `str(n)` of an int. -/
def intStr (n : Int) : Str := if n < 0 then 45 :: decStr n.natAbs else decStr n.natAbs

/-- `d.__format__('f')` for sign, coefficient and number of decimals, csdl.py:1543. -/
def decText (neg : Bool) (coef scale : Nat) : Str :=
  (if neg then [45] else []) ++
    (if scale = 0 then decStr coef
     else decStr (coef / 10 ^ scale) ++ 46 :: decPad scale (coef % 10 ^ scale))

/-- "%02X" of a byte. -/
def hex2 (b : Nat) : Str := [Uri.hexDigit (b / 16), Uri.hexDigit (b % 16)]

/-- A lower case hexadecimal digit. -/
def hexLow (n : Nat) : Nat := if n < 10 then 48 + n else 87 + n

/-- The last `w` hexadecimal digits of a number. -/
def hexPad : Nat → Nat → Str
  | 0, _ => []
  | w + 1, n => hexPad w (n / 16) ++ [hexLow (n % 16)]

/-- `str(uuid)`: 8-4-4-4-12 digits. -/
def guidText (n : Nat) : Str :=
  let h := hexPad 32 n
  h.take 8 ++ 45 :: (h.drop 8).take 4 ++ 45 :: (h.drop 12).take 4 ++ 45 :: (h.drop 16).take 4 ++ 45 :: h.drop 20

/-- `"''".join(result.split("'"))`, core.py:931: every quote is doubled. -/
def quoteText (s : Str) : Str := s.flatMap fun c => if c = 39 then [39, 39] else [c]

/-- `text'` + quotes. -/
def wrap (pre : Str) (t : Str) : Str := pre ++ 39 :: t ++ [39]

/-- `DateTimeOffsetValue.__unicode__`, csdl.py:1391-1405: a final Z becomes +00:00. -/
def dtoText (p : TimePoint) : Option Str := do
  let t ← p.string Date.calendarString false .none true
  if t.getLast? = some 90 then return t.dropLast ++ chars "+00:00" else return t

/-- `LiteralExpression.__unicode__`, core.py:906-932, with the `__unicode__` methods of the value classes
(csdl.py:1046-1056, 1120-1131, 1168-1171, 1249-1252, 1310-1319, 1459-1468, 1529-1543, 1761-1764, 1895-1898) for
values without a property definition, so that fractions of a second are dropped.  `none`: an exception is raised
(for `binText`, in `io.BytesIO('')`; for a decimal with more than 29 digits) or, for `flt`, the text is not
modelled. -/
def formatLit : Val → Option Str
  | .null => some (chars "null")
  | .bool b => some (if b then chars "true" else chars "false")
  | .byte n => some (decStr n)
  | .sbyte n => some (intStr n)
  | .i16 n => some (intStr n)
  | .i32 n => some (intStr n)
  | .i64 n => some (intStr n ++ [76])
  | .dec neg coef scale =>
    if scale ≤ 29 ∧ (decStr coef).length ≤ 29 + scale then some (decText neg coef scale ++ [77]) else none
  | .flt .. => none
  | .str s => some (39 :: quoteText s ++ [39])
  | .bin b => some (wrap [88] (b.flatMap hex2))
  | .binText => none
  | .guid n => some (wrap (chars "guid") (guidText n))
  | .dt p _ => (p.string Date.calendarString false .none true).map (wrap (chars "datetime"))
  | .dto p => (dtoText p).map (wrap (chars "datetimeoffset"))
  | .time t _ => (t.string false .none true).map (wrap (chars "time"))

/-! ### Parsing -/

/-- `parse_digits(min, max)`, unicode5.py:1268-1298. -/
def digits (min : Nat) (max : Option Nat) (s : Str) : R Str :=
  let w := s.takeWhile isDigit
  let w := match max with | some m => w.take m | none => w
  if w.length < min then .none else .ok w (s.drop w.length)

/-- `parse_hex_digits(min, max)`, unicode5.py:1358-1386. -/
def hexDigits (min : Nat) (max : Option Nat) (s : Str) : R Str :=
  let w := s.takeWhile Uri.isHex
  let w := match max with | some m => w.take m | none => w
  if w.length < min then .none else .ok w (s.drop w.length)

/-- `parse_integer(min, max, max_digits)`, unicode5.py:1300-1331. -/
def integer (min max : Nat) (maxDigits : Option Nat) (s : Str) : R Nat :=
  (digits 1 maxDigits s).bind fun d r =>
    if decVal d < min ∨ decVal d > max then .none else .ok (decVal d) r

/-- `Numeric`, csdl.py:625. -/
structure Numeric where
  sign : Str
  ldigits : Str
  rdigits : Option Str
  esign : Str
  edigits : Option Str
deriving DecidableEq, Repr

/-- `parse_insensitive` of a lower case word, unicode5.py:1153-1167. -/
def insensitive (word : Str) (s : Str) : Option Str :=
  if lower (s.take word.length) = word then some (s.drop word.length) else none

/-- The exponent of `parse_numeric_literal`, csdl.py:802-806: a plus sign is not accepted. -/
def exponent (sign l : Str) (rd : Option Str) (s : Str) : R Numeric :=
  match s with
  | c :: r =>
    if c = 101 ∨ c = 69 then
      match r with
      | 45 :: r' => .ok ⟨sign, l, rd, [45], some (r'.takeWhile isDigit)⟩ (r'.dropWhile isDigit)
      | _ => .ok ⟨sign, l, rd, [43], some (r.takeWhile isDigit)⟩ (r.dropWhile isDigit)
    else .ok ⟨sign, l, rd, [], none⟩ s
  | [] => .ok ⟨sign, l, rd, [], none⟩ s

/-- `parse_numeric_literal` after the sign, csdl.py:791-807. -/
def numericBody (sign : Str) (s : Str) : R Numeric :=
  match insensitive (chars "inf") s with
  | some r => .ok ⟨sign, chars "inf", none, [], none⟩ r
  | none =>
    match insensitive (chars "nan") s with
    | some r => .ok ⟨sign, chars "nan", none, [], none⟩ r
    | none =>
      let l := s.takeWhile isDigit
      match s.dropWhile isDigit with
      | 46 :: r =>
        let rd := r.takeWhile isDigit
        if l = [] ∧ rd = [] then .none else exponent sign l (some rd) (r.dropWhile isDigit)
      | r => if l = [] then .none else exponent sign l none r

/-- `parse_numeric_literal`, csdl.py:764-807. -/
def numeric (s : Str) : R Numeric :=
  match s with
  | 45 :: r => numericBody [45] r
  | _ => numericBody [] s

/-- `num.ldigits.isalpha()`: only for inf and nan. -/
def Numeric.alpha (n : Numeric) : Bool := n.ldigits == chars "inf" || n.ldigits == chars "nan"

/-- `int(self.join_numeric_literal(num))` for an integer form. -/
def Numeric.int (n : Numeric) : Int := if n.sign = [45] then -(decVal n.ldigits : Int) else decVal n.ldigits

/-- The test shared by the integer classes: left digits only, at most `most` of them (csdl.py:1793-1798,
1820-1827, 1855-1862, 1937-1940). -/
def Numeric.isInt (n : Numeric) (most : Nat) : Bool :=
  !n.ldigits.isEmpty && n.ldigits.length ≤ most && !n.alpha && n.rdigits.isNone && n.edigits.isNone

/-- `Int32Value.set_from_numeric_literal`, csdl.py:1819-1841. -/
def setInt32 (n : Numeric) : Option Val :=
  if n.isInt 10 then
    if n.int < -2147483648 ∨ n.int > 2147483647 then none else some (.i32 n.int)
  else none

/-- `Int64Value.set_from_numeric_literal`, csdl.py:1854-1877. -/
def setInt64 (n : Numeric) : Option Val :=
  if n.isInt 19 then
    if n.int < -9223372036854775808 ∨ n.int > 9223372036854775807 then none else some (.i64 n.int)
  else none

/-- `DecimalValue.set_from_numeric_literal`, csdl.py:1545-1576.  The value is below 10^29, so the final range
check never fails. -/
def setDecimal (n : Numeric) : Option Val :=
  if n.alpha || n.ldigits.length > 29 || (n.rdigits.getD []).length > 29 || n.rdigits == some [] ||
      n.edigits.isSome then none
  else some (.dec (n.sign == [45]) (decVal (n.ldigits ++ n.rdigits.getD [])) (n.rdigits.getD []).length)

/-- The checks on exponent forms, csdl.py:1652-1664 (17 digits, 3 exponent digits) and csdl.py:1714-1730 (9
digits, 2 exponent digits, 8 digits in integer form). -/
def floatShape (single : Bool) (n : Numeric) : Bool :=
  if n.alpha then !(n.ldigits == chars "nan" && !n.sign.isEmpty)
  else if single then
    match n.rdigits, n.edigits with
    | none, _ => n.ldigits.length ≤ 8                     -- the exponent is not looked at
    | some _, none => true
    | some rd, some e => n.ldigits.length + rd.length ≤ 9 && !e.isEmpty && e.length ≤ 2 && !n.ldigits.isEmpty
  else
    match n.rdigits, n.edigits with
    | some _, none => true
    | rd, e => n.ldigits.length + (rd.getD []).length ≤ 17 &&
        (e == none || (e != some [] && (e.getD []).length ≤ 3 && !n.ldigits.isEmpty))

/-- `SingleValue` and `DoubleValue.set_from_numeric_literal`; `float(dstr)` and the range check are not modelled,
except that `float` refuses an exponent without digits. -/
def setFloat (single : Bool) (n : Numeric) : Option Val :=
  if floatShape single n && n.edigits != some [] then
    some (.flt single n.sign n.ldigits n.rdigits n.esign n.edigits)
  else none

/-- A ValueError in `set_from_numeric_literal`. -/
def orErr (v : Option Val) (r : Str) : R Val := match v with | some v => .ok v r | none => .err

/-- The numeric suffixes, core.py:1729-1748. -/
def suffix (n : Numeric) (s : Str) : R Val :=
  match s with
  | c :: r =>
    if c = 68 ∨ c = 100 then orErr (setFloat false n) r
    else if c = 70 ∨ c = 102 then orErr (setFloat true n) r
    else if c = 77 ∨ c = 109 then orErr (setDecimal n) r
    else if c = 76 ∨ c = 108 then orErr (setInt64 n) r
    else orErr (setInt32 n) s
  | [] => orErr (setInt32 n) s

/-- `parse_string_uri_literal` after the first quote, core.py:1674-1697. -/
def stringBody : Str → R Str
  | [] => .err
  | [c] => if c = 39 then .ok [] [] else .err
  | c :: d :: r =>
    if c = 39 then
      if d = 39 then (stringBody r).bind fun t q => .ok (39 :: t) q
      else .ok [] (d :: r)
    else (stringBody (d :: r)).bind fun t q => .ok (c :: t) q

/-- The bytes of an even number of hexadecimal digits, csdl.py:648-652. -/
def hexBytes : Str → List Nat
  | a :: b :: r => (16 * Uri.hexVal a + Uri.hexVal b) :: hexBytes r
  | _ => []

/-- `parse_binary_literal`, csdl.py:637-652. -/
def binary (s : Str) : R Val :=
  match hexDigits 1 none s with
  | .ok h r => if h.length % 2 = 1 then .err else .ok (.bin (hexBytes h)) r
  | _ => .ok .binText s

/-- `int(hex, 16)`. -/
def hexNum (h : Str) : Nat := h.foldl (fun a c => 16 * a + Uri.hexVal c) 0

/-- The guid literal, core.py:1808-1839. -/
def guidLit (s : Str) : R Val :=
  (expect 39 s).bind fun _ s =>
  ((hexDigits 8 (some 8) s).require).bind fun a s => (expect 45 s).bind fun _ s =>
  ((hexDigits 4 (some 4) s).require).bind fun b s => (expect 45 s).bind fun _ s =>
  ((hexDigits 4 (some 4) s).require).bind fun c s => (expect 45 s).bind fun _ s =>
  ((hexDigits 4 (some 4) s).require).bind fun d s =>
  (match s with
   | 45 :: s => ((hexDigits 12 (some 12) s).require).bind fun e s => .ok (a ++ b ++ c ++ d ++ e) s
   | _ => ((hexDigits 8 (some 8) s).require).bind fun e s =>
      .ok (a ++ b ++ c ++ chars "FFFF" ++ d ++ e) s).bind fun h s =>
  (expect 39 s).bind fun _ s => .ok (.guid (hexNum h)) s

/-- The seconds of a time: ":ss" or ":ss.fff" or nothing, csdl.py:692-699, 822-829.  A full stop without digits
raises TypeError. -/
def seconds (s : Str) : R (Nat × Str) :=
  match s with
  | 58 :: s => ((integer 0 60 (some 2) s).require).bind fun sec s =>
    match s with
    | 46 :: s => ((digits 1 (some 7) s).require).bind fun f s => .ok (sec, f) s
    | _ => .ok (sec, []) s
  | _ => .ok (0, []) s

/-- The zone of a datetime literal, which is skipped, csdl.py:700-715: an incomplete offset is left in place. -/
def skipZone (s : Str) : Str :=
  match s with
  | c :: r =>
    if c = 90 ∨ c = 122 then r
    else if c = 43 ∨ c = 45 then
      match (((integer 0 24 none r).require).bind fun _ r => (expect 58 r).bind fun _ r =>
        (integer 0 24 none r).require) with
      | .ok _ r => r
      | _ => s
    else s
  | [] => s

/-- `iso8601.Time(hour, minute, second, zdirection=None)`: a fraction makes 24:00:00 invalid. -/
def timeOf (h m s : Nat) (frac : Str) : Option Time :=
  if h = 24 ∧ decVal frac > 0 then none else mkTime { hour := some (h : Int), minute := some (m : Int), second := some (s : Int) }

/-- `parse_datetime_literal`, csdl.py:671-727, as it is used by `parse_uri_literal` (where None is an error too). -/
def datetimeBody (s : Str) : R Val :=
  (((digits 4 (some 4) s).require).bind fun y s => (expect 45 s).bind fun _ s =>
  ((integer 1 12 none s).require).bind fun mo s => (expect 45 s).bind fun _ s =>
  ((integer 1 31 (some 2) s).require).bind fun d s => (expect 84 s).bind fun _ s =>
  ((integer 0 24 none s).require).bind fun h s => (expect 58 s).bind fun _ s =>
  ((integer 0 60 (some 2) s).require).bind fun mi s => (seconds s).bind fun sf s =>
  let s := skipZone s
  match (do
    let date ← mkDate { century := some ((decVal y / 100 : Nat) : Int), year := some ((decVal y % 100 : Nat) : Int),
                        month := some (mo : Int), day := some (d : Int) }
    let time ← timeOf h mi sf.1 sf.2
    mkTimePoint date time) with
  | some p => .ok (.dt p sf.2) s
  | none => .err)

/-- `parse_time_literal`, csdl.py:809-838. -/
def timeBody (s : Str) : R Val :=
  ((integer 0 24 none s).require).bind fun h s => (expect 58 s).bind fun _ s =>
  ((integer 0 60 (some 2) s).require).bind fun mi s => (seconds s).bind fun sf s =>
  match timeOf h mi sf.1 sf.2 with
  | some t => .ok (.time t sf.2) s
  | none => .err

/-- `DateTimeOffsetValue.set_from_literal`, csdl.py:1407-1427. -/
def setDto (t : Str) : Option Val := do
  let p ← TimePoint.fromStr t none
  if p.time.zone3.1.isNone ∨ p.time.zoneOffset.isNone then none
  else if !p.complete then none
  else return .dto p

/-- A quoted literal: quote, body, quote. -/
def quoted (body : Str → R Val) (s : Str) : R Val :=
  (expect 39 s).bind fun _ s => (body s).require.bind fun v s => (expect 39 s).bind fun _ s => .ok v s

/-- The datetimeoffset body: `parse_until("'")`, core.py:1761-1763. -/
def dtoBody (s : Str) : R Val :=
  match setDto (s.takeWhile (· ≠ 39)) with
  | some v => .ok v (s.dropWhile (· ≠ 39))
  | none => .err

/-- The keywords, core.py:1719-1842; `nothing`: it is not a literal. -/
def keyword (name : Str) (r : Str) : R Val :=
  let low := lower name
  if low = chars "null" then .ok .null r
  else if low = chars "true" then .ok (.bool true) r
  else if low = chars "false" then .ok (.bool false) r
  else if low = chars "datetimeoffset" then quoted dtoBody r
  else if low = chars "datetime" then quoted datetimeBody r
  else if low = chars "time" then quoted timeBody r
  else if name = [88] ∨ low = chars "binary" then quoted binary r
  else if low = chars "nand" then .ok (.flt false [] (chars "nan") none [] none) r
  else if low = chars "nanf" then .ok (.flt true [] (chars "nan") none [] none) r
  else if low = chars "infd" then .ok (.flt false [] (chars "inf") none [] none) r
  else if low = chars "inff" then .ok (.flt true [] (chars "inf") none [] none) r
  else if low = chars "guid" then guidLit r
  else .none

/-- `parse_uri_literal`, core.py:1700-1842. -/
def parseLit (ids : Ids) (s : Str) : R Val :=
  match parseIdent ids s with
  | some (name, r) => keyword name r
  | none =>
    match s with
    | [] => .none
    | c :: r =>
      if c = 39 then (stringBody r).bind fun t q => .ok (.str t) q
      else if c = 45 ∨ c = 46 ∨ isDigit c then (numeric s).bind suffix
      else .none

end Verif.OData

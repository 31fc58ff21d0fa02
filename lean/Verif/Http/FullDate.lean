import Verif.Http.Params
import Verif.Iso.Strings
/-!
# Model of `FullDate` and `require_fulldate`, `pyslet/http/params.py:289-353, 813-909`
-/
namespace Verif.Http
open Text (isDigit decVal)
open Iso (TimePoint fmtInt mkDate mkTime mkTimePoint)

/-- `ParameterParser.wkday`, params.py:813: Mon, Tue, Wed, Thu, Fri, Sat, Sun. -/
def wkdayNames : List Bytes :=
  [[77, 111, 110], [84, 117, 101], [87, 101, 100], [84, 104, 117], [70, 114, 105], [83, 97, 116], [83, 117, 110]]
/-- `ParameterParser.weekday`, params.py:816-817: Monday, Tuesday, Wednesday, Thursday, Friday, Saturday, Sunday. -/
def weekdayNames : List Bytes :=
  [[77, 111, 110, 100, 97, 121], [84, 117, 101, 115, 100, 97, 121], [87, 101, 100, 110, 101, 115, 100, 97, 121],
   [84, 104, 117, 114, 115, 100, 97, 121], [70, 114, 105, 100, 97, 121], [83, 97, 116, 117, 114, 100, 97, 121],
   [83, 117, 110, 100, 97, 121]]
/-- `ParameterParser.month`, params.py:822-823: Jan, Feb, Mar, Apr, May, Jun, Jul, Aug, Sep, Oct, Nov, Dec. -/
def monthNames : List Bytes :=
  [[74, 97, 110], [70, 101, 98], [77, 97, 114], [65, 112, 114], [77, 97, 121], [74, 117, 110],
   [74, 117, 108], [65, 117, 103], [83, 101, 112], [79, 99, 116], [78, 111, 118], [68, 101, 99]]

/-- `_wkdayTable.get`, params.py:819, 1022-1025. -/
def wkdayIndex (t : Bytes) : Option Nat :=
  match (weekdayNames.map lowerBytes).findIdx? (· == t) with
  | some i => some i
  | none => (wkdayNames.map lowerBytes).findIdx? (· == t)
/-- `_monthTable.get`, params.py:825, 1026-1027. -/
def monthIndex (t : Bytes) : Option Nat := (monthNames.map lowerBytes).findIdx? (· == t)

/-- `parser_error` when the key is not in the table. -/
def orBad {α : Type} : Option α → Except Err α
  | some i => .ok i
  | none => .error .badSyntax

/-- What was read of the date, params.py:832-839 (`century` and `year` may still be None). -/
structure DateParts where
  century : Option Nat
  year : Option Nat
  month : Nat
  day : Nat
  deriving DecidableEq, Repr

/-- `self.is_token() and is_digits(self.the_word)`, params.py:848. -/
def isDigitToken : List Word → Bool
  | .text t :: ws => isToken (.text t :: ws) && isDigits t
  | _ => false

/-- RFC 1123 date, params.py:851-860. -/
def rfc1123Date (ws : List Word) : Except Err (DateParts × List Word) := do
  let (day, ws) ← requireInteger ws
  let (token, ws) ← requireToken (parseSp ws)
  let month ← orBad (monthIndex (lowerBytes token))
  let (year, ws) ← requireInteger (parseSp ws)
  return (⟨some (year / 100), some (year % 100), month, day⟩, ws)

/-- The checks on `DD-MMM-YY`, params.py:864-872. -/
def rfc850Parts : List Bytes → Except Err DateParts
  | [a, b, c] => if isDigits a && isDigits c then do
      let month ← orBad (monthIndex (lowerBytes b))
      return ⟨none, some (decVal c), month, decVal a⟩
    else .error .badSyntax
  | _ => .error .badSyntax

/-- RFC 850 date, params.py:863-872. -/
def rfc850Date (ws : List Word) : Except Err (DateParts × List Word) := do
  let (token, ws) ← requireToken ws
  let p ← rfc850Parts (splitByte 45 token)
  return (p, ws)

/-- The date of the format of `asctime`, params.py:875-880. -/
def asctimeDate (ws : List Word) : Except Err (DateParts × List Word) := do
  let (token, ws) ← requireToken ws
  let month ← orBad (monthIndex (lowerBytes token))
  let (day, ws) ← requireInteger (parseSp ws)
  return (⟨none, none, month, day⟩, ws)

/-- The three formats of the date, params.py:846-880. -/
def fullDateParts (ws : List Word) : Except Err (DateParts × List Word) :=
  match parseSep 44 ws with
  | (true, ws) => if isDigitToken (parseSp ws) then rfc1123Date (parseSp ws) else rfc850Date (parseSp ws)
  | (false, ws) => asctimeDate ws

/-- The time, params.py:881-887. -/
def fullDateTime (ws : List Word) : Except Err ((Nat × Nat × Nat) × List Word) := do
  let (hour, ws) ← requireInteger (parseSp ws)
  let ws ← requireSep 58 ws
  let (minute, ws) ← requireInteger ws
  let ws ← requireSep 58 ws
  let (second, ws) ← requireInteger ws
  return ((hour, minute, second), parseSp ws)

/-- The year or the time zone that follow the time, params.py:888-900: century and year. -/
def fullDateYear (p : DateParts) (ws : List Word) : Except Err ((Nat × Nat) × List Word) :=
  match p.year with
  | none => do
    let (year, ws) ← requireInteger ws
    return ((year / 100, year % 100), ws)
  | some year => do
    let (token, ws) ← requireToken ws
    if upperBytes token = [85, 84, 67] ∨ upperBytes token = [71, 77, 84] then
      match p.century with
      | some c => .ok ((c, year), ws)
      | none => .ok ((if year < 90 then 20 else 19, year), ws)
    else .error .badSyntax

/-- The FullDate object and the check of the day of the week, params.py:901-909. -/
def mkFullDate (century year month day hour minute second dayofweek : Nat) : Except Err TimePoint :=
  match mkDate { century := some (century : Int), year := some (year : Int), month := some ((month : Int) + 1),
                 day := some (day : Int) } with
  | none => .error .dateTime
  | some d => match mkTime { hour := some (hour : Int), minute := some (minute : Int), second := some (second : Int),
                             zdir := some 0 } with
    | none => .error .dateTime
    | some t => match mkTimePoint d t with
      | none => .error .dateTime
      | some tp => match tp.date.getWeekDay with
        | some (_, _, _, _, dow) => if dow ≠ some ((dayofweek : Int) + 1) then .error .badSyntax else .ok tp
        | none => .error .dateTime

/-- `require_fulldate`, params.py:827-909. -/
def requireFullDate (ws : List Word) : Except Err (TimePoint × List Word) := do
  let (token, ws) ← requireToken (parseSp ws)
  let dayofweek ← orBad (wkdayIndex (lowerBytes token))
  let (p, ws) ← fullDateParts (parseSp ws)
  let ((hour, minute, second), ws) ← fullDateTime ws
  let ((century, year), ws) ← fullDateYear p ws
  let tp ← mkFullDate century year p.month p.day hour minute second dayofweek
  return (tp, ws)

/-- `FullDate.from_http_str`, params.py:318-333. -/
def fullDateFromStr (s : Bytes) : Except Err TimePoint := do
  let (tp, ws) ← requireFullDate (← openWords true s)
  requireEnd (parseSp ws)
  return tp

/-- `FullDate.to_bytes`, params.py:335-353: `none` when it raises. -/
def fullDateToBytes (tp : TimePoint) : Option Bytes := do
  let z ← tp.shiftZone (some 0) none none
  let year ← z.date.year
  let month ← z.date.month
  let day ← z.date.day
  let minute ← z.time.minute
  let second ← z.time.second
  let (_, _, _, _, dow) ← z.date.getWeekDay
  let dow ← dow
  let wk ← wkdayNames[(dow - 1).toNat]?
  let mo ← monthNames[(month - 1).toNat]?
  return wk ++ [44, 32] ++ fmtInt 2 day ++ [32] ++ mo ++ [32] ++ fmtInt 4 (z.date.century * 100 + year) ++ [32] ++
    fmtInt 2 z.time.hour ++ [58] ++ fmtInt 2 minute ++ [58] ++ fmtInt 2 second ++ [32, 71, 77, 84]

end Verif.Http

import Verif.Iso.Time
import Verif.Text.Decimal
/-!
# Model of the string forms in `pyslet/iso8601.py`: formatting and `ISO8601Parser`

Text is a list of character codes.  A parser state is the text not yet consumed: `the_char` is its head and
`next_char` drops it (unicode5.py:1038-1046); the parser never goes back.  Exceptions (DateTimeError,
ParserError, and the AttributeError raised because `self.BadSyntax` does not exist) are `none`.
Fractions (floats) are not modelled: a decimal sign makes the model parser fail.
-/
namespace Verif.Iso
open Verif.Text

/-- `"%0wi" % n`. -/
def fmtInt (w : Nat) (n : Int) : List Nat :=
  if n < 0 then 45 :: decPad (w - 1) n.natAbs else decPad w n.natAbs

/-- Truncation, iso8601.py:26-44 (only the values the formatting methods distinguish). -/
inductive Truncation | none | century | decade | year | month | week | hour | minute
deriving DecidableEq, Repr

/-- "-" -/
def hyphen : List Nat := [45]
/-- "W" -/
def W : List Nat := [87]
/-- ":" -/
def colon : List Nat := [58]

/-- `get_calendar_string`, iso8601.py:749-821. -/
def Date.calendarString (d : Date) (basic : Bool) (tr : Truncation) : Option (List Nat) :=
  match d.day with
  | Option.none =>
    match d.month with
    | Option.none =>
      if truthy d.week then Option.none
      else match d.year with
        | Option.none => if tr = .none then some (fmtInt 2 d.century) else Option.none
        | some y =>
          if tr = .none then some (fmtInt 2 d.century ++ fmtInt 2 y)
          else if tr = .century then some (hyphen ++ fmtInt 2 y)
          else Option.none
    | some m => do
      let y ← d.year
      if tr = .none then some (fmtInt 2 d.century ++ fmtInt 2 y ++ hyphen ++ fmtInt 2 m)
      else if tr = .century then
        if basic then some (hyphen ++ fmtInt 2 y ++ fmtInt 2 m)
        else some (hyphen ++ fmtInt 2 y ++ hyphen ++ fmtInt 2 m)
      else if tr = .year then some (hyphen ++ hyphen ++ fmtInt 2 m)
      else Option.none
  | some day => do
    let y ← d.year
    let m ← d.month
    if tr = .none then
      if basic then some (fmtInt 2 d.century ++ fmtInt 2 y ++ fmtInt 2 m ++ fmtInt 2 day)
      else some (fmtInt 2 d.century ++ fmtInt 2 y ++ hyphen ++ fmtInt 2 m ++ hyphen ++ fmtInt 2 day)
    else if tr = .century then
      if basic then some (fmtInt 2 y ++ fmtInt 2 m ++ fmtInt 2 day)
      else some (fmtInt 2 y ++ hyphen ++ fmtInt 2 m ++ hyphen ++ fmtInt 2 day)
    else if tr = .year then
      if basic then some (hyphen ++ hyphen ++ fmtInt 2 m ++ fmtInt 2 day)
      else some (hyphen ++ hyphen ++ fmtInt 2 m ++ hyphen ++ fmtInt 2 day)
    else if tr = .month then some (hyphen ++ hyphen ++ hyphen ++ fmtInt 2 day)
    else Option.none

/-- `get_ordinal_string`, iso8601.py:823-856. -/
def Date.ordinalString (d : Date) (basic : Bool) (tr : Truncation) : Option (List Nat) := do
  let (c, y, o) ← d.getOrdinalDay
  match o with
  | Option.none => d.calendarString basic tr
  | some o => do
    let y ← y
    if tr = .none then
      if basic then some (fmtInt 2 c ++ fmtInt 2 y ++ fmtInt 3 o)
      else some (fmtInt 2 c ++ fmtInt 2 y ++ hyphen ++ fmtInt 3 o)
    else if tr = .century then
      if basic then some (fmtInt 2 y ++ fmtInt 3 o) else some (fmtInt 2 y ++ hyphen ++ fmtInt 3 o)
    else if tr = .year then some (hyphen ++ fmtInt 3 o)
    else Option.none

/-- `get_week_string`, iso8601.py:858-927. -/
def Date.weekString (d : Date) (basic : Bool) (tr : Truncation) : Option (List Nat) := do
  let (c, dec, y, w, wd) ← d.getWeekDay
  match wd with
  | Option.none =>
    match w with
    | Option.none => d.calendarString basic tr
    | some w => do
      let dec ← dec
      let y ← y
      if tr = .none then
        if basic then some (fmtInt 2 c ++ fmtInt 0 dec ++ fmtInt 0 y ++ W ++ fmtInt 2 w)
        else some (fmtInt 2 c ++ fmtInt 0 dec ++ fmtInt 0 y ++ hyphen ++ W ++ fmtInt 2 w)
      else if tr = .century then
        if basic then some (fmtInt 0 dec ++ fmtInt 0 y ++ W ++ fmtInt 2 w)
        else some (fmtInt 0 dec ++ fmtInt 0 y ++ hyphen ++ W ++ fmtInt 2 w)
      else if tr = .decade then
        if basic then some (hyphen ++ fmtInt 0 y ++ W ++ fmtInt 2 w)
        else some (hyphen ++ fmtInt 0 y ++ hyphen ++ W ++ fmtInt 2 w)
      else if tr = .year then some (hyphen ++ W ++ fmtInt 2 w)
      else Option.none
  | some wd => do
    let w ← w
    let dec ← dec
    let y ← y
    if tr = .none then
      if basic then some (fmtInt 2 c ++ fmtInt 0 dec ++ fmtInt 0 y ++ W ++ fmtInt 2 w ++ fmtInt 0 wd)
      else some (fmtInt 2 c ++ fmtInt 0 dec ++ fmtInt 0 y ++ hyphen ++ W ++ fmtInt 2 w ++ hyphen ++ fmtInt 0 wd)
    else if tr = .century then
      if basic then some (fmtInt 0 dec ++ fmtInt 0 y ++ W ++ fmtInt 2 w ++ fmtInt 0 wd)
      else some (fmtInt 0 dec ++ fmtInt 0 y ++ hyphen ++ W ++ fmtInt 2 w ++ hyphen ++ fmtInt 0 wd)
    else if tr = .decade then
      if basic then some (hyphen ++ fmtInt 0 y ++ W ++ fmtInt 2 w ++ fmtInt 0 wd)
      else some (hyphen ++ fmtInt 0 y ++ hyphen ++ W ++ fmtInt 2 w ++ hyphen ++ fmtInt 0 wd)
    else if tr = .year then
      if basic then some (hyphen ++ W ++ fmtInt 2 w ++ fmtInt 0 wd)
      else some (hyphen ++ W ++ fmtInt 2 w ++ hyphen ++ fmtInt 0 wd)
    else if tr = .week then some (hyphen ++ W ++ hyphen ++ fmtInt 0 wd)
    else Option.none

/-- Parsers on the rest of the text. -/
abbrev PM (α : Type) := List Nat → Option (α × List Nat)

/-- `match_digit`, unicode5.py:1253-1258. -/
def atDigit (r : List Nat) : Bool := match r with | c :: _ => isDigit c | [] => false
/-- `self.the_char == c`. -/
def atChar (c : Nat) (r : List Nat) : Bool := match r with | x :: _ => x == c | [] => false

/-- `require_digit_value`, iso8601.py:3449-3451, then the continuation. -/
def digit {α : Type} (r : List Nat) (k : Int → List Nat → Option α) : Option α :=
  match r with
  | c :: r' => if isDigit c then k ((c : Int) - 48) r' else none
  | [] => none

/-- `v = self.require_digit_value(); v = v * 10 + self.require_digit_value()`. -/
def digit2 {α : Type} (r : List Nat) (k : Int → List Nat → Option α) : Option α :=
  digit r fun a r => digit r fun b r => k (a * 10 + b) r

/-- A finished date: the constructor call, the name of the format and the rest of the text. -/
def done (a : Args) (f : String) (r : List Nat) : Option (Date × String × List Nat) :=
  (mkDate a).map fun d => (d, f, r)

/-- `parse_date_format` after two digits, iso8601.py:2919-3039. -/
def parseYY (base : Option Date) (v1 : Int) (r : List Nat) : Option (Date × String × List Nat) :=
  if atDigit r then
    digit2 r fun v2 r =>
    if atDigit r then
      digit r fun v3 r =>
      if atDigit r then
        digit r fun e r =>
        let v3 := v3 * 10 + e
        if atDigit r then
          digit r fun v4 r =>
          if atDigit r then
            digit r fun e r =>
            let v4 := v4 * 10 + e
            done { century := some v1, year := some v2, month := some v3, day := some v4, base := base } "YYYYMMDD" r
          else done { century := some v1, year := some v2, ordinal := some (v3 * 10 + v4), base := base } "YYYYDDD" r
        else done { year := some v1, month := some v2, day := some v3, base := base } "YYMMDD" r
      else done { year := some v1, ordinal := some (v2 * 10 + v3), base := base } "YYDDD" r
    else if atChar 45 r then
      let r := r.tail
      if atDigit r then
        digit2 r fun v3 r =>
        if atDigit r then
          digit r fun e r =>
          done { century := some v1, year := some v2, ordinal := some (v3 * 10 + e), base := base } "YYYY-DDD" r
        else if atChar 45 r then
          digit2 r.tail fun v4 r =>
          done { century := some v1, year := some v2, month := some v3, day := some v4, base := base } "YYYY-MM-DD" r
        else done { century := some v1, year := some v2, month := some v3, base := base } "YYYY-MM" r
      else if atChar 87 r then
        digit2 r.tail fun v3 r =>
        if atChar 45 r then
          digit r.tail fun v4 r =>
          done { century := some v1, decade := some (v2 / 10), year := some (v2 % 10), week := some v3,
                 weekday := some v4, base := base } "YYYY-Www-D" r
        else done { century := some v1, decade := some (v2 / 10), year := some (v2 % 10), week := some v3,
                    base := base } "YYYY-Www" r
      else none
    else if atChar 87 r then
      digit2 r.tail fun v3 r =>
      if atDigit r then
        digit r fun v4 r =>
        done { century := some v1, decade := some (v2 / 10), year := some (v2 % 10), week := some v3,
               weekday := some v4, base := base } "YYYYWwwD" r
      else done { century := some v1, decade := some (v2 / 10), year := some (v2 % 10), week := some v3,
                  base := base } "YYYYWww" r
    else done { century := some v1, year := some v2, base := base } "YYYY" r
  else if atChar 45 r then
    let r := r.tail
    if atDigit r then
      digit2 r fun v2 r =>
      if atDigit r then
        digit r fun e r =>
        done { year := some v1, ordinal := some (v2 * 10 + e), base := base } "YY-DDD" r
      else if atChar 45 r then
        digit2 r.tail fun v3 r =>
        done { year := some v1, month := some v2, day := some v3, base := base } "YY-MM-DD" r
      else none
    else if atChar 87 r then
      digit2 r.tail fun v2 r =>
      if atChar 45 r then
        digit r.tail fun v3 r =>
        done { decade := some (v1 / 10), year := some (v1 % 10), week := some v2, weekday := some v3,
               base := base } "YY-Www-D" r
      else done { decade := some (v1 / 10), year := some (v1 % 10), week := some v2, base := base } "YY-Www" r
    else none
  else if atChar 87 r then
    digit2 r.tail fun v2 r =>
    if atDigit r then
      digit r fun v3 r =>
      done { decade := some (v1 / 10), year := some (v1 % 10), week := some v2, weekday := some v3,
             base := base } "YYWwwD" r
    else done { decade := some (v1 / 10), year := some (v1 % 10), week := some v2, base := base } "YYWww" r
  else done { century := some v1, base := base } "YY" r

/-- `parse_date_format` after a hyphen, iso8601.py:3041-3130. -/
def parseHyphen (base : Option Date) (r : List Nat) : Option (Date × String × List Nat) :=
  if atDigit r then
    digit r fun v1 r =>
    if atDigit r then
      digit r fun e r =>
      let v1 := v1 * 10 + e
      if atDigit r then
        digit r fun v2 r =>
        if atDigit r then
          digit r fun e r =>
          done { year := some v1, month := some (v2 * 10 + e), base := base } "-YYMM" r
        else done { ordinal := some (v1 * 10 + v2), base := base } "-DDD" r
      else if atChar 45 r then
        digit2 r.tail fun v2 r =>
        done { year := some v1, month := some v2, base := base } "-YY-MM" r
      else done { year := some v1, base := base } "-YY" r
    else if atChar 45 r then
      let r := r.tail
      if atChar 87 r then
        digit2 r.tail fun v2 r =>
        if atChar 45 r then
          digit r.tail fun v3 r =>
          done { year := some v1, week := some v2, weekday := some v3, base := base } "-Y-Www-D" r
        else done { year := some v1, week := some v2, base := base } "-Y-Www" r
      else none
    else if atChar 87 r then
      digit2 r.tail fun v2 r =>
      if atDigit r then
        digit r fun v3 r =>
        done { year := some v1, week := some v2, weekday := some v3, base := base } "-YWwwD" r
      else done { year := some v1, week := some v2, base := base } "-YWww" r
    else none
  else if atChar 45 r then
    let r := r.tail
    if atDigit r then
      digit2 r fun v1 r =>
      if atDigit r then
        digit2 r fun v2 r =>
        done { month := some v1, day := some v2, base := base } "--MMDD" r
      else if atChar 45 r then
        digit2 r.tail fun v2 r =>
        done { month := some v1, day := some v2, base := base } "--MM-DD" r
      else done { month := some v1, base := base } "--MM" r
    else if atChar 45 r then
      digit2 r.tail fun v1 r =>
      done { day := some v1, base := base } "---DD" r
    else none
  else if atChar 87 r then
    let r := r.tail
    if atDigit r then
      digit2 r fun v1 r =>
      if atDigit r then
        digit r fun v2 r =>
        done { week := some v1, weekday := some v2, base := base } "-WwwD" r
      else if atChar 45 r then
        digit r.tail fun v2 r =>
        done { week := some v1, weekday := some v2, base := base } "-Www-D" r
      else done { week := some v1, base := base } "-Www" r
    else if atChar 45 r then
      digit r.tail fun v1 r =>
      done { weekday := some v1, base := base } "-W-D" r
    else none
  else none

/-- `parse_date_format`, iso8601.py:2911-3132: the date, the format name and the rest of the text. -/
def parseDateFormat (base : Option Date) (r : List Nat) : Option (Date × String × List Nat) :=
  if atDigit r then digit2 r fun v1 r => parseYY base v1 r
  else if atChar 45 r then parseHyphen base r.tail
  else none

/-- `Date.from_str`, iso8601.py:711-719: the rest of the text is ignored. -/
def Date.fromStr (src : List Nat) (base : Option Date) : Option Date := (parseDateFormat base src).map (·.1)

/-- `get_zone_string`, iso8601.py:1767-1805; `full` is zone_precision = Complete. -/
def Time.zoneString (t : Time) (basic full : Bool) : Option (List Nat) :=
  match t.zdir with
  | none => some []
  | some z =>
    if z = 0 then some [90]
    else do
      let o ← t.zoff
      let sign := if z > 0 then 43 else 45
      if full ∨ o % 60 > 0 then
        if basic then return sign :: (fmtInt 2 (o / 60) ++ fmtInt 2 (o % 60))
        else return sign :: (fmtInt 2 (o / 60) ++ colon ++ fmtInt 2 (o % 60))
      else return sign :: fmtInt 2 (o / 60)

/-- `get_string`, iso8601.py:1671-1765, with `ndp=0`. -/
def Time.string (t : Time) (basic : Bool) (tr : Truncation) (full : Bool) : Option (List Nat) := do
  let stem ← (match t.second with
    | none => match t.minute with
      | none => if tr = .none then some (fmtInt 2 t.hour) else none
      | some m =>
        if tr = .none then
          if basic then some (fmtInt 2 t.hour ++ fmtInt 2 m) else some (fmtInt 2 t.hour ++ colon ++ fmtInt 2 m)
        else if tr = .hour then some (hyphen ++ fmtInt 2 m)
        else none
    | some s =>
      if tr = .minute then some (hyphen ++ hyphen ++ fmtInt 2 s)
      else do
        let m ← t.minute
        if tr = .none then
          if basic then some (fmtInt 2 t.hour ++ fmtInt 2 m ++ fmtInt 2 s)
          else some (fmtInt 2 t.hour ++ colon ++ fmtInt 2 m ++ colon ++ fmtInt 2 s)
        else if tr = .hour then
          if basic then some (hyphen ++ fmtInt 2 m ++ fmtInt 2 s)
          else some (hyphen ++ fmtInt 2 m ++ colon ++ fmtInt 2 s)
        else none                              -- `stem` is unbound
    : Option (List Nat))
  if tr = .none then do
    let z ← t.zoneString basic full
    return stem ++ z
  else return stem

/-- `BasicDateFormats`, iso8601.py:2730-2753. -/
def basicDateFormats : List String := [
  "YYYYMMDD", "YYYY-MM", "YYYY", "YY", "YYMMDD", "-YYMM", "-YY", "--MMDD", "--MM", "---DD", "YYYYDDD",
  "YYDDD", "-DDD", "YYYYWwwD", "YYYYWww", "YYWwwD", "YYWww", "-YWwwD", "-YWww", "-WwwD", "-Www",
  "-W-D"]

/-- `ExtendedDateFormats`, iso8601.py:2755-2778. -/
def extendedDateFormats : List String := [
  "YYYY-MM-DD", "YYYY-MM", "YYYY", "YY", "YY-MM-DD", "-YY-MM", "-YY", "--MM-DD", "--MM", "---DD",
  "YYYY-DDD", "YY-DDD", "-DDD", "YYYY-Www-D", "YYYY-Www", "YY-Www-D", "YY-Www", "-Y-Www-D", "-Y-Www",
  "-Www-D", "-Www", "-W-D"]

/-- `BasicTimeFormats`, iso8601.py:2780-2825. -/
def basicTimeFormats : List String := [
  "hhmmss", "hhmm", "hh", "hhmmss,s", "hhmmss.s", "hhmm,m", "hhmm.m", "hh,h", "hh.h", "hhmmssZ",
  "hhmmZ", "hhZ", "hhmmss,sZ", "hhmmss.sZ", "hhmm,mZ", "hhmm.mZ", "hh,hZ", "hh.hZ", "hhmmss+hhmm",
  "hhmm+hhmm", "hh+hhmm", "hhmmss,s+hhmm", "hhmmss.s+hhmm", "hhmm,m+hhmm", "hhmm.m+hhmm", "hh,h+hhmm",
  "hh.h+hhmm", "hhmmss+hh", "hhmm+hh", "hh+hh", "hhmmss,s+hh", "hhmmss.s+hh", "hhmm,m+hh",
  "hhmm.m+hh", "hh,h+hh", "hh.h+hh", "-mmss", "-mm", "--ss", "-mmss,s", "-mm,m", "-mm.m", "--ss,s",
  "--ss.s"]

/-- `ExtendedTimeFormats`, iso8601.py:2827-2873. -/
def extendedTimeFormats : List String := [
  "hh:mm:ss", "hh:mm", "hh", "hh:mm:ss,s", "hh:mm:ss.s", "hh:mm,m", "hh:mm.m", "hh,h", "hh.h",
  "hh:mm:ssZ", "hh:mmZ", "hhZ", "hh:mm:ss,sZ", "hh:mm:ss.sZ", "hh:mm,mZ", "hh:mm.mZ", "hh,hZ",
  "hh.hZ", "hh:mm:ss+hh:mm", "hh:mm+hh:mm", "hh+hh:mm", "hh:mm:ss,s+hh:mm", "hh:mm:ss.s+hh:mm",
  "hh:mm,m+hh:mm", "hh:mm.m+hh:mm", "hh,h+hh:mm", "hh.h+hh:mm", "hh:mm:ss+hh", "hh:mm+hh", "hh+hh",
  "hh:mm:ss,s+hh", "hh:mm:ss.s+hh", "hh:mm,m+hh", "hh:mm.m+hh", "hh,h+hh", "hh.h+hh", "-mm:ss", "-mm",
  "--ss", "-mm:ss,s", "-mm:ss.s", "-mm,m", "-mm.m", "--ss,s", "--ss.s"]

/-- The decimal sign of a fraction: not modelled. -/
def atPoint (r : List Nat) : Bool := atChar 46 r || atChar 44 r

/-- `parse_time_zone_format`, iso8601.py:3278-3305 (called with `the_char` in "Z+-"). -/
def parseZone {α : Type} (r : List Nat)
    (k : Int → Option Int → Option Int → String → List Nat → Option α) : Option α :=
  if atChar 90 r then k 0 (some 0) (some 0) "Z" r.tail
  else if atChar 43 r ∨ atChar 45 r then
    let v1 : Int := if atChar 43 r then 1 else -1
    digit2 r.tail fun v2 r =>
    if atDigit r then digit2 r fun v3 r => k v1 (some v2) (some v3) "+hhmm" r
    else if atChar 58 r then digit2 r.tail fun v3 r => k v1 (some v2) (some v3) "+hh:mm" r
    else k v1 (some v2) none "+hh" r
  else none

/-- The end of `parse_time_format` for times that are not truncated, iso8601.py:3260-3276. -/
def timeEnd (base : Option Time) (h : Int) (m s : Option Int) (f : String) (r : List Nat) :
    Option (Time × Int × String × List Nat) :=
  if atChar 90 r ∨ atChar 43 r ∨ atChar 45 r then
    parseZone r fun zd zh zm zf r => do
      let f := f ++ zf
      if !(basicTimeFormats.contains f || extendedTimeFormats.contains f) then none
      else
        let t ← mkTime { hour := some h, minute := m, second := s, zdir := some zd, zhour := zh, zminute := zm }
        return (t, 0, f, r)
  else match base with
    | some b => do
      let (t, o) ← b.extend (some h) m s
      return (t, o, f, r)
    | none => do
      let t ← mkTime { hour := some h, minute := m, second := s }
      return (t, 0, f, r)

/-- The end for truncated times, iso8601.py:3256-3257: `base` must not be None. -/
def timeEndTruncated (base : Option Time) (m s : Option Int) (f : String) (r : List Nat) :
    Option (Time × Int × String × List Nat) := do
  let b ← base
  let (t, o) ← b.extend none m s
  return (t, o, f, r)

/-- `parse_time_format`, iso8601.py:3140-3276, with time designator "T". -/
def parseTimeFormat (base : Option Time) (r : List Nat) : Option (Time × Int × String × List Nat) :=
  if r.isEmpty then none                      -- `None in "T"` raises TypeError
  else
  let t := atChar 84 r
  let r := if t then r.tail else r
  if atDigit r then
    digit2 r fun v1 r =>
    if atDigit r then
      digit2 r fun v2 r =>
      if atDigit r then
        digit2 r fun v3 r =>
        if atPoint r then none else timeEnd base v1 (some v2) (some v3) "hhmmss" r
      else if atPoint r then none
      else timeEnd base v1 (some v2) none "hhmm" r
    else if atPoint r then none
    else if atChar 58 r then
      digit2 r.tail fun v2 r =>
      if atChar 58 r then
        digit2 r.tail fun v3 r =>
        if atPoint r then none else timeEnd base v1 (some v2) (some v3) "hh:mm:ss" r
      else if atPoint r then none
      else timeEnd base v1 (some v2) none "hh:mm" r
    else timeEnd base v1 none none "hh" r
  else if atChar 45 r then
    if t then none
    else
      let r := r.tail
      if atDigit r then
        digit2 r fun v1 r =>
        if atDigit r then
          digit2 r fun v2 r =>
          if atPoint r then none else timeEndTruncated base (some v1) (some v2) "-mmss" r
        else if atPoint r then none
        else if atChar 58 r then
          digit2 r.tail fun v2 r =>
          if atPoint r then none else timeEndTruncated base (some v1) (some v2) "-mm:ss" r
        else timeEndTruncated base (some v1) none "-mm" r
      else if atChar 45 r then
        digit2 r.tail fun v1 r =>
        if atPoint r then none else timeEndTruncated base none (some v1) "--ss" r
      else none
  else none

/-- `parse_time_point_format`, iso8601.py:2885-2903, with time designator "T". -/
def parseTimePointFormat (base : Option Date) (r : List Nat) : Option (TimePoint × String × List Nat) := do
  let (d, df, r) ← parseDateFormat base r
  if !d.complete then none
  else if !(atChar 84 r) then none
  else do
    let (t, overflow, tf, r) ← parseTimeFormat none r
    let d ← (if overflow ≠ 0 then d.offset 0 0 0 0 overflow else some d)
    if !((extendedTimeFormats.contains tf && extendedDateFormats.contains df) ||
         (basicTimeFormats.contains tf && basicDateFormats.contains df)) then none
    else do
      let p ← mkTimePoint d t
      return (p, df ++ "T" ++ tf, r)

/-- `TimePoint.from_str`, iso8601.py:2245-2254. -/
def TimePoint.fromStr (src : List Nat) (base : Option Date) : Option TimePoint :=
  (parseTimePointFormat base src).map (·.1)

/-- `TimePoint.get_calendar_string`, `get_ordinal_string`, `get_week_string`, iso8601.py:2281-2359, with `ndp=0`
and time designator "T". -/
def TimePoint.string (dateString : Date → Bool → Truncation → Option (List Nat)) (p : TimePoint) (basic : Bool)
    (tr : Truncation) (full : Bool) : Option (List Nat) := do
  let d ← dateString p.date basic tr
  let t ← p.time.string basic .none full
  return d ++ [84] ++ t

end Verif.Iso

/-!
# Model of `pyslet/iso8601.py` class `Date`

Fields that may be None are `Option Int`.  Any exception (DateTimeError, ValueError, or the TypeError
of computing with None in Python 3) is `none`.  Integers are unbounded; `//` and `%` have
positive divisors everywhere, where Lean's `Int` `/` and `%` agree with Python's.
-/
namespace Verif.Iso

/-- iso8601.py:52 -/
def monthSizes : List Int := [31, 28, 31, 30, 31, 30, 31, 31, 30, 31, 30, 31]
/-- iso8601.py:53 -/
def monthSizesLeap : List Int := [31, 29, 31, 30, 31, 30, 31, 31, 30, 31, 30, 31]
/-- iso8601.py:54 -/
def monthOffsets : List Int := [0, 31, 59, 90, 120, 151, 181, 212, 243, 273, 304, 334]

/-- `leap_year`, iso8601.py:57-70. -/
def leapYear (year : Int) : Bool :=
  if year % 4 ≠ 0 then false
  else if year % 100 ≠ 0 then true
  else if year % 400 ≠ 0 then false
  else true

/-- `MONTH_SIZES_LEAPYEAR if leap else MONTH_SIZES`. -/
def sizes (leap : Bool) : List Int := if leap then monthSizesLeap else monthSizes

/-- `MONTH_OFFSETS[month - 1]`, only used for months 1..12. -/
def monthOffset (month : Int) : Int := monthOffsets.getD (month - 1).toNat 0

/-- `day_of_week`, iso8601.py:73-83. -/
def dayOfWeek (year month day : Int) : Int :=
  let num := year * 365
  let num := num + year / 4 + 1
  let num := num - (year / 100 + 1)
  let num := num + year / 400 + 1
  let num := if month < 3 ∧ leapYear year then num - 1 else num
  (num + monthOffset month + day + 4) % 7 + 1

/-- `week_count`, iso8601.py:86-97. -/
def weekCount (year : Int) : Int :=
  let weekday := dayOfWeek year 1 1
  if weekday = 4 then 53
  else if weekday = 3 ∧ leapYear year then 53
  else 52

/-- A Date object, iso8601.py:152-264. -/
structure Date where
  century : Int
  year : Option Int
  month : Option Int
  week : Option Int
  day : Option Int
deriving DecidableEq, Repr

/-- Python truth value of an `int` or None. -/
def truthy (x : Option Int) : Bool := match x with | some v => v ≠ 0 | none => false

/-- The loop `for m in msizes: if day > m: ... else: break`, iso8601.py:417-423, 544-550, 970-976:
returns (month, day). -/
def monthLoop : List Int → Int → Int → Int × Int
  | [], month, day => (month, day)
  | m :: ms, month, day => if day > m then monthLoop ms (month + 1) (day - m) else (month, day)

/-- `Date.leap_year`, iso8601.py:1013-1030, for a date with a year. -/
def leapCY (century year : Int) : Bool :=
  if year % 4 ≠ 0 then false
  else if year ≠ 0 then true
  else if century % 4 ≠ 0 then false
  else true

/-- `Date._check_date`, iso8601.py:979-1011: the date itself if it passes. -/
def checkDate (d : Date) : Option Date :=
  if d.century < 0 ∨ d.century > 99 then none
  else match d.year with
    | none => some d
    | some y =>
      if y < 0 ∨ y > 99 then none
      else if y = 0 ∧ d.century = 0 then none
      else
        let year := d.century * 100 + y
        match d.week with
        | some w =>
          if w ≠ 0 then
            if w < 1 ∨ w > weekCount year then none
            else if d.month.isSome then none
            else some d
          else checkMonth d year
        | none => checkMonth d year
where
  checkMonth (d : Date) (year : Int) : Option Date :=
    match d.month with
    | none => some d
    | some m =>
      if m < 1 ∨ m > 12 then none
      else match d.day with
        | none => some d
        | some dd =>
          if dd < 1 ∨ dd > (sizes (leapYear year)).getD (m - 1).toNat 0 then none
          else some d

/-- `complete`, iso8601.py:1032-1035. -/
def Date.complete (d : Date) : Bool := d.day.isSome

/-- `_add_century`, iso8601.py:364-367 (on century). -/
def addCentury (century : Int) : Option Int := if century ≥ 99 then none else some (century + 1)
/-- `_add_year`, iso8601.py:369-374 (on century, year). -/
def addYear (century year : Int) : Option (Int × Int) :=
  if year ≥ 99 then (addCentury century).map (fun c => (c, 0)) else some (century, year + 1)
/-- `_add_month`, iso8601.py:376-381 (on century, year, month). -/
def addMonth (century year month : Int) : Option (Int × Int × Int) :=
  if month ≥ 12 then (addYear century year).map (fun p => (p.1, p.2, 1))
  else some (century, year, month + 1)
/-- `_add_week`, iso8601.py:555-560 (on century, year, week). -/
def addWeek (century year week : Int) : Option (Int × Int × Int) :=
  if week ≥ weekCount (century * 100 + year) then (addYear century year).map (fun p => (p.1, p.2, 1))
  else some (century, year, week + 1)

/-- `get_ordinal_day`, iso8601.py:425-440: `none` if it raises; the third item None if the
precision is year or century.  For day precision the month is present (checked dates). -/
def Date.getOrdinalDay (d : Date) : Option (Int × Option Int × Option Int) :=
  match d.day with
  | none =>
    if d.month.isNone ∧ d.week.isNone then some (d.century, d.year, none) else none
  | some day => do
    let y ← d.year
    let m ← d.month
    let ms := sizes (leapCY d.century y)
    return (d.century, some y, some ((ms.take (m - 1).toNat).foldl (· + ·) day))

/-- `get_absolute_day`, iso8601.py:303-312. -/
def Date.getAbsoluteDay (d : Date) : Option Int :=
  if d.complete then do
    let y ← d.year
    let absYear := d.century * 100 + y - 1
    let (_, _, o) ← d.getOrdinalDay
    let od ← o
    return (absYear / 4) - (absYear / 100) + (absYear / 400) + (absYear * 365) + od
  else none

/-- `get_week_day`, iso8601.py:562-605: (century, decade, year, week, weekday). -/
def Date.getWeekDay (d : Date) : Option (Int × Option Int × Option Int × Option Int × Option Int) :=
  match d.day with
  | none =>
    if truthy d.week then do
      let y ← d.year
      return (d.century, some (y / 10), some (y % 10), d.week, none)
    else if d.month.isNone then
      match d.year with
      | none => some (d.century, none, none, none, none)
      | some y => some (d.century, some (y / 10), some (y % 10), none, none)
    else none
  | some day => do
    let (century, oy, oo) ← d.getOrdinalDay
    let y ← oy
    let ordinal ← oo
    let m ← d.month
    let year := y + century * 100
    let yearLength : Int := if leapYear year then 366 else 365
    let weekday := dayOfWeek year m day
    let thursday := ordinal + 4 - weekday
    let (year, week) : Int × Int :=
      if thursday < 1 then (year - 1, weekCount (year - 1))
      else if thursday > yearLength then (year + 1, 1)
      else (year, (ordinal - (5 - dayOfWeek year 1 4)) / 7 + 1)
    return (year / 100, some ((year % 100) / 10), some (year % 10), some week, some weekday)

/-- `_set_from_ordinal_day`, iso8601.py:387-423. -/
def setFromOrdinalDay (century year : Option Int) (ordinal : Int) (base : Option Date) : Option Date := do
  let (c, y) ← (match century with
    | some c => do
      let y ← year            -- leap_year() raises without a year
      return (c, y)
    | none => do
      let b ← base
      if !b.complete then none
      let (bc, bye, boe) ← b.getOrdinalDay
      let by_ ← bye
      let bo ← boe
      match year with
      | none => if ordinal < bo then addYear bc by_ else some (bc, by_)
      | some y =>
        if y < by_ ∨ (y = by_ ∧ ordinal < bo) then do
          let c ← addCentury bc
          return (c, y)
        else some (bc, y) : Option (Int × Int))
  let (m, d) := monthLoop (sizes (leapCY c y)) 1 ordinal
  return { century := c, year := some y, month := some m, week := none, day := some d }

/-- `_set_from_absolute_day`, iso8601.py:266-301. -/
def setFromAbsoluteDay (n : Int) : Option Date :=
  let quadCentury := 146097
  let century := 36524
  let quadYear := 1461
  let absDay := n - 1
  let absYear := 400 * (absDay / quadCentury)
  let absDay := absDay % quadCentury
  let (absYear, absDay) : Int × Int :=
    if absDay = quadCentury - 1 then (absYear + 399, 365)
    else
      let absYear := absYear + 100 * (absDay / century)
      let absDay := absDay % century
      let absYear := absYear + 4 * (absDay / quadYear)
      let absDay := absDay % quadYear
      if absDay = quadYear - 1 then (absYear + 3, 365)
      else (absYear + absDay / 365, absDay % 365)
  let absYear := absYear + 1
  setFromOrdinalDay (some (absYear / 100)) (some (absYear % 100)) (absDay + 1) none

/-- `_set_from_calendar_day`, iso8601.py:314-362. -/
def setFromCalendarDay (century year month day : Option Int) (base : Option Date) : Option Date :=
  match century with
  | some c => some { century := c, year := year, month := month, week := none, day := day }
  | none => do
    let b ← base
    if !b.complete then none
    let bc := b.century
    let by_ ← b.year
    -- base_day = None if day is None, base_month = None if also month is None
    let bday := if day.isNone then none else b.day
    let bmonth := if day.isNone ∧ month.isNone then none else b.month
    match year with
    | none =>
      match month with
      | none => do
        let d ← day
        let bd ← bday
        let bm ← bmonth
        let (c, y, m) ← (if d < bd then addMonth bc by_ bm else some (bc, by_, bm))
        return { century := c, year := some y, month := some m, week := none, day := some d }
      | some m => do
        let bm ← bmonth
        let before ← (if m < bm then some true
          else if m = bm then
            match day with
            | none => some false
            | some d => bday.map (fun bd => decide (d < bd))
          else some false)
        let (c, y) ← (if before then addYear bc by_ else some (bc, by_))
        return { century := c, year := some y, month := some m, week := none, day := day }
    | some y => do
      let before ← (if y < by_ then some true
        else if y = by_ then
          match month with
          | none => some false
          | some m => do
            let bm ← bmonth
            if m < bm then return true
            else if m = bm then
              match day with
              | none => return false
              | some d => bday.map (fun bd => decide (d < bd))
            else return false
        else some false)
      let c ← (if before then addCentury bc else some bc)
      return { century := c, year := some y, month := month, week := none, day := day }

/-- The conversion of a week date to a calendar date at the end of `_set_from_week_day`,
iso8601.py:515-553: (century, year in century, week, weekday). -/
def weekToCalendar (c y w wd : Int) : Option Date :=
  let year := c * 100 + y
  if w > weekCount year then none
  else
    let day := 4 - dayOfWeek year 1 4 + (w - 1) * 7 + wd
    let (year, day) : Int × Int :=
      if day < 1 then
        (year - 1, day + (if leapYear (year - 1) then 366 else 365))
      else
        let yearLength : Int := if leapYear year then 366 else 365
        if day > yearLength then (year + 1, day - yearLength) else (year, day)
    let (m, d) := monthLoop (sizes (leapYear year)) 1 day
    some { century := year / 100, year := some (year % 100), month := some m, week := none, day := some d }

/-- `_set_from_week_day`, iso8601.py:442-553. -/
def setFromWeekDay (century decade year week weekday : Option Int) (base : Option Date) : Option Date := do
  match weekday with
  | none => if week.isNone then none
  | some wd => if wd ≤ 0 ∨ wd > 7 then none
  match week with
  | some w => if w < 0 ∨ w > 53 then none
  | none => pure ()
  match year with
  | some y => if y < 0 ∨ y > 9 then none
  | none => pure ()
  match decade with
  | some x => if x < 0 ∨ x > 9 then none
  | none => pure ()
  let (c, y, w) ← (match century with
    | some c => do
      let dec ← decade
      let y ← year
      return (c, dec * 10 + y, week)
    | none => do
      let b ← base
      if !b.complete then none
      let (bc, bdece, bye, bwe, bwde) ← b.getWeekDay
      let bdec ← bdece
      let by_ ← bye
      let bw ← bwe
      let bwd ← bwde
      -- `self.day is not None and self.day < base_weekday`
      let dayBefore : Bool := match weekday with
        | some wd => decide (wd < bwd)
        | none => false
      match decade with
      | none =>
        match year with
        | none =>
          match week with
          | none => do
            let (c, y, w) ← (if dayBefore then addWeek bc (bdec * 10 + by_) bw
              else some (bc, bdec * 10 + by_, bw))
            return (c, y, some w)
          | some w => do
            let (c, y) ← (if w < bw ∨ (w = bw ∧ dayBefore) then addYear bc (bdec * 10 + by_)
              else some (bc, bdec * 10 + by_))
            return (c, y, some w)
        | some y => do
          let w ← (if y < by_ then some week   -- the week is not looked at
            else if y = by_ then week.map some else some week)
          let before : Bool := match w with
            | some w => decide (y < by_ ∨ (y = by_ ∧ (w < bw ∨ (w = bw ∧ dayBefore))))
            | none => decide (y < by_)
          return (bc, y + (if before then (bdec + 1) * 10 else bdec * 10), w)
      | some dec => do
        let y0 ← year
        let y := dec * 10 + y0
        let by2 := by_ + bdec * 10
        let w ← (if y < by2 then some week
          else if y = by2 then week.map some else some week)
        let before : Bool := match w with
          | some w => decide (y < by2 ∨ (y = by2 ∧ (w < bw ∨ (w = bw ∧ dayBefore))))
          | none => decide (y < by2)
        let c ← (if before then addCentury bc else some bc)
        return (c, y, w) : Option (Int × Int × Option Int))
  match weekday with
  | none => return { century := c, year := some y, month := none, week := w, day := none }
  | some wd => do
    let w ← w
    weekToCalendar c y w wd

/-- The arguments of the constructor (keyword arguments; `src` is a copy and not modelled). -/
structure Args where
  base : Option Date := none
  century : Option Int := none
  decade : Option Int := none
  year : Option Int := none
  month : Option Int := none
  day : Option Int := none
  week : Option Int := none
  weekday : Option Int := none
  ordinal : Option Int := none
  absolute : Option Int := none

/-- `Date.__init__` with `src=None`, iso8601.py:219-256. -/
def mkDate (a : Args) : Option Date := do
  let d ← (
    if truthy a.absolute then do
      let n ← a.absolute
      setFromAbsoluteDay n
    else if truthy a.decade ∨ truthy a.week ∨ truthy a.weekday then
      setFromWeekDay a.century a.decade a.year a.week a.weekday a.base
    else if truthy a.ordinal then do
      let o ← a.ordinal
      setFromOrdinalDay a.century a.year o a.base
    else if a.century.isNone ∧ a.base.isNone then
      if a.year.isSome ∨ a.month.isSome ∨ a.day.isSome then none
      else some { century := 0, year := some 1, month := some 1, week := none, day := some 1 }
    else setFromCalendarDay a.century a.year a.month a.day a.base)
  checkDate d

/-- `get_precision`, iso8601.py:1037-1054 (century is never None in a checked date). -/
inductive Precision | century | year | month | week | complete
deriving DecidableEq, Repr

def Date.precision (d : Date) : Precision :=
  match d.day with
  | some _ => .complete
  | none =>
    match d.month with
    | some _ => .month
    | none =>
      match d.year with
      | none => .century
      | some _ => if d.week.isNone then .year else .week

/-- The week adjustment loop of `offset`, iso8601.py:666-677.  `fuel` bounds the
iterations (at most `|week|` + 1 are needed since every iteration but the last moves
`week` by 52 or 53 towards the range; `weekLoop_spec`). -/
def weekLoop : Nat → Int → Int → Option (Int × Int)
  | 0, _, _ => none
  | fuel + 1, year, week =>
    if week < 1 then weekLoop fuel (year - 1) (week + weekCount (year - 1))
    else if week > weekCount year then weekLoop fuel (year + 1) (week - weekCount year)
    else some (year, week)

/-- `offset`, iso8601.py:629-709.  (A century precision date falls through all branches and the
method returns None; here that is `none` too.) -/
def Date.offset (d : Date) (centuries years months weeks days : Int) : Option Date :=
  match d.precision with
  | .complete =>
    if months = 0 ∧ years = 0 ∧ centuries = 0 then do
      let b ← d.getAbsoluteDay
      mkDate { absolute := some (b + (days + 7 * weeks)) }
    else none
  | .week =>
    if days = 0 ∧ months = 0 ∧ years = 0 ∧ centuries = 0 then do
      let w0 ← d.week
      let y0 ← d.year
      let week := w0 + weeks
      let (year, week) ← weekLoop (week.natAbs + 2) (y0 + 100 * d.century) week
      let century := year / 100
      let year := year % 100
      mkDate { century := some century, decade := some (year / 10), year := some (year % 10), week := some week }
    else none
  | .month =>
    if days = 0 ∧ weeks = 0 then do
      let m0 ← d.month
      let y0 ← d.year
      let month := m0 + months
      let (years, month) : Int × Int :=
        if month > 12 ∨ month < 1 then (years + (month - 1) / 12, (month - 1) % 12 + 1)
        else (years, month)
      let year := y0 + years
      let (centuries, year) : Int × Int :=
        if year > 99 ∨ year < 0 then (centuries + year / 100, year % 100) else (centuries, year)
      mkDate { century := some (d.century + centuries), year := some year, month := some month }
    else none
  | .year =>
    if days = 0 ∧ weeks = 0 ∧ months = 0 then do
      let y0 ← d.year
      let year := y0 + years
      let (centuries, year) : Int × Int :=
        if year > 99 ∨ year < 0 then (centuries + year / 100, year % 100) else (centuries, year)
      mkDate { century := some (d.century + centuries), year := some year }
    else none
  | .century => none

/-- `from_julian`, iso8601.py:930-940. -/
def fromJulian (year month day : Int) : Option Date :=
  let ms := sizes (decide (year % 4 = 0))
  let year := year - 1
  let day := (ms.take (month - 1).toNat).foldl (· + ·) day
  mkDate { absolute := some (year / 4 + year * 365 + day - 2) }

/-- `get_julian_day`, iso8601.py:942-977. -/
def Date.getJulianDay (d : Date) : Option (Int × Int × Int) := do
  let n ← d.getAbsoluteDay
  let quadYear := 1461
  let day := n + 1
  let year := 4 * (day / quadYear)
  let day := day % quadYear
  let (year, day) : Int × Int :=
    if day = quadYear - 1 then (year + 3, 365) else (year + day / 365, day % 365)
  let year := year + 1
  let day := day + 1
  let (m, dd) := monthLoop (sizes (decide (year % 4 = 0))) 1 day
  return (year, m, dd)

/-- `sortkey`, iso8601.py:1056-1057. -/
def Date.sortkey (d : Date) : List (Option Int) := [some d.century, d.year, d.month, d.week, d.day]

/-- Python `<` on tuples whose items are None or ints: the first difference decides (comparing None
with an int raises; dates of equal precision have None in the same places). -/
def lexLt : List (Option Int) → List (Option Int) → Bool
  | some a :: as, some b :: bs => if a = b then lexLt as bs else a < b
  | none :: as, none :: bs => lexLt as bs
  | _, _ => false

/-- `__lt__`, py2.py:381-390 with `otherkey`, iso8601.py:1059-1065: `none` is NotImplemented
(a TypeError in the end). -/
def Date.lt (a b : Date) : Option Bool :=
  if a.precision = b.precision then some (lexLt a.sortkey b.sortkey) else none

/-- `__eq__`, py2.py:365-371: NotImplemented (different precision) makes `==` fall
back to identity, i.e. False for distinct objects. -/
def Date.eq (a b : Date) : Bool := if a.precision = b.precision then a.sortkey == b.sortkey else false

end Verif.Iso

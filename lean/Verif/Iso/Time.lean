import Verif.Iso.Date
/-!
# Model of `pyslet/iso8601.py` classes `Time` and `TimePoint`

Fractional (float) components are not modelled: every component is an `int` or None, so the
`isinstance(..., float)` branches are dead.  Exceptions are `none`.
-/
namespace Verif.Iso

/-- A Time object, iso8601.py:1169-1281.  `hour` is never None in a checked time. -/
structure Time where
  hour : Int
  minute : Option Int
  second : Option Int
  zdir : Option Int
  zoff : Option Int
deriving DecidableEq, Repr

/-- `_check_time`, iso8601.py:1912-1943. -/
def checkTime (t : Time) : Option Time :=
  match t.zdir with
  | none => checkHMS t
  | some z =>
    if z < -1 ∨ z > 1 then none
    else if z ≠ 0 then
      match t.zoff with
      | none => none
      | some o => if o ≥ 1440 then none else checkHMS t
    else checkHMS t
where
  checkHMS (t : Time) : Option Time :=
    if t.hour < 0 ∨ t.hour > 24 then none
    else if t.hour = 24 ∧ ((∃ m ∈ t.minute, m > 0) ∨ (∃ s ∈ t.second, s > 0)) then none
    else match t.minute with
      | none => some t
      | some m =>
        if m < 0 ∨ m > 59 then none
        else match t.second with
          | none => some t
          | some s => if s < 0 ∨ s ≥ 61 then none else some t

/-- Keyword arguments of `Time(...)` (without `src` and `total_seconds`). -/
structure TArgs where
  hour : Option Int := none
  minute : Option Int := none
  second : Option Int := none
  zdir : Option Int := none
  zhour : Option Int := none
  zminute : Option Int := none

/-- The zone offset computed by `_set_from_values`, iso8601.py:1309-1320. -/
def zoneOffset (zdir zhour zminute : Option Int) : Option (Option Int) :=
  match zdir with
  | none => some none
  | some z =>
    if z = 0 then some (some 0)
    else match zhour with
      | none => none
      | some h => match zminute with
        | none => some (some (h * 60))
        | some m => some (some (h * 60 + m))

/-- `Time.__init__` with `src=None`, `total_seconds=None`, iso8601.py:1261-1273, and `_set_from_values`,
iso8601.py:1304-1320 (a missing hour raises in `_check_time`). -/
def mkTime (a : TArgs) : Option Time :=
  if a.hour.isNone ∧ a.minute.isNone ∧ a.second.isNone then
    some ⟨0, some 0, some 0, none, none⟩
  else do
    let zo ← zoneOffset a.zdir a.zhour a.zminute
    let h ← a.hour
    checkTime ⟨h, a.minute, a.second, a.zdir, zo⟩

/-- `complete`, iso8601.py:1807-1815. -/
def Time.complete (t : Time) : Bool := t.minute.isSome && t.second.isSome

/-- `get_zone_offset`, iso8601.py:1339-1346. -/
def Time.zoneOffset (t : Time) : Option Int := do
  let z ← t.zdir
  let o ← t.zoff
  return z * o

/-- `get_zone3`, iso8601.py:1348-1362. -/
def Time.zone3 (t : Time) : Option Int × Option Int × Option Int :=
  match t.zdir with
  | none => (none, none, none)
  | some z =>
    if z = 0 then (some 0, some 0, some 0)
    else (some z, t.zoff.map (· / 60), t.zoff.map (· % 60))

/-- `get_total_seconds`, iso8601.py:1293-1302. -/
def Time.totalSeconds (t : Time) : Option Int := do
  let m ← t.minute
  let s ← t.second
  if s = 60 then return 59 + m * 60 + t.hour * 3600
  else return s + m * 60 + t.hour * 3600

/-- `offset`, iso8601.py:1447-1507, for int arguments: the new time and the days carried. -/
def Time.offset (t : Time) (hours minutes seconds : Int) : Option (Time × Int) := do
  let (second, minutes) ← (if seconds ≠ 0 then do
      let s ← t.second
      return (some ((s + seconds) % 60), minutes + (s + seconds) / 60)
    else some (t.second, minutes) : Option (Option Int × Int))
  let (minute, hours) ← (if minutes ≠ 0 then do
      let m ← t.minute
      return (some ((m + minutes) % 60), hours + (m + minutes) / 60)
    else some (t.minute, hours) : Option (Option Int × Int))
  let (hour, days) : Int × Int :=
    if hours ≠ 0 then ((t.hour + hours) % 24, (t.hour + hours) / 24) else (t.hour, 0)
  let (zd, zh, zm) := t.zone3
  let t' ← mkTime { hour := some hour, minute := minute, second := second, zdir := zd, zhour := zh, zminute := zm }
  return (t', days)

/-- `Time()`: iso8601.py:1261-1269. -/
def Time.zero : Time := ⟨0, some 0, some 0, none, none⟩

/-- `Time(total_seconds=n)`, iso8601.py:1255-1260,1283-1291. -/
def mkTimeTotal (n : Int) : Option Time := do
  let (t, overflow) ← Time.zero.offset 0 0 n
  if overflow ≠ 0 then none
  else return ⟨t.hour, t.minute, t.second, none, none⟩

/-- `with_zone`, iso8601.py:1509-1525. -/
def Time.withZone (t : Time) (zdir zhour zminute : Option Int) : Option Time :=
  mkTime { hour := some t.hour, minute := t.minute, second := t.second, zdir := zdir, zhour := zhour, zminute := zminute }

/-- `shift_zone`, iso8601.py:1527-1581: the new time and the overflow in days. -/
def Time.shiftZone (t : Time) (zdir zhour zminute : Option Int) : Option (Time × Int) := do
  let z ← t.zoneOffset                      -- raises without a zone
  let zd ← zdir
  if zd ≠ 0 ∧ zhour.isNone then none
  else
    let newOffset := zd * (zhour.getD 0 * 60 + zminute.getD 0)
    let zshift := newOffset - z
    if t.second.isNone ∧ t.minute.isNone ∧ zshift % 60 ≠ 0 then none
    else
      let (minute, hour) : Option Int × Int := match t.minute with
        | none => (none, t.hour)
        | some m =>
          let m := m + zshift % 60
          if m > 59 then (some (m - 60), t.hour + 1)
          else if m < 0 then (some (m + 60), t.hour - 1)
          else (some m, t.hour)
      let hour := hour + zshift / 60
      let (hour, overflow) : Int × Int :=
        if hour > 23 then (hour - 24, 1) else if hour < 0 then (hour + 24, -1) else (hour, 0)
      let t' ← mkTime { hour := some hour, minute := minute, second := t.second, zdir := zdir, zhour := zhour,
                        zminute := zminute }
      return (t', overflow)

/-- `extend`, iso8601.py:1388-1445, with integer components: comparing with None raises TypeError. -/
def Time.extend (t : Time) (hour minute second : Option Int) : Option (Time × Int) := do
  if !t.complete then none
  else
    let bm ← t.minute
    let bs ← t.second
    let (h, m, s, addHour, addMinute) ← (match hour with
      | some h => some (h, minute, second, 0, 0)
      | none =>
        match minute with
        | none =>
          match second with
          | none => none
          | some s => some (t.hour, some bm, some s, 0, if s < bs then 1 else 0)
        | some m =>
          if m < bm then some (t.hour, some m, second, 1, 0)
          else if m = bm then
            match second with
            | none => none              -- None < None
            | some s => some (t.hour, some m, some s, if s < bs then 1 else 0, 0)
          else some (t.hour, some m, second, 0, 0)
      : Option (Int × Option Int × Option Int × Int × Int))
    let (zd, zh, zm) := t.zone3
    let t' ← mkTime { hour := some h, minute := m, second := s, zdir := zd, zhour := zh, zminute := zm }
    if addHour ≠ 0 ∨ addMinute ≠ 0 then t'.offset addHour addMinute 0
    else return (t', 0)

/-- `Time.get_precision`, iso8601.py:1817-1829. -/
inductive TPrecision | hour | minute | complete
deriving DecidableEq, Repr
def Time.precision (t : Time) : TPrecision :=
  if t.second.isSome then .complete else if t.minute.isSome then .minute else .hour

/-- `Time.sortkey`, iso8601.py:1945-1950. -/
def Time.sortkey (t : Time) : List (Option Int) :=
  match t.zoneOffset with
  | none => [some t.hour, t.minute, t.second]
  | some z => [some t.hour, t.minute, t.second, some z]

/-- A TimePoint object, iso8601.py:2116-2162. -/
structure TimePoint where
  date : Date
  time : Time
deriving DecidableEq, Repr

/-- `TimePoint(date=d, time=t)` with `_check_time_point`, iso8601.py:2145-2157,2428-2433. -/
def mkTimePoint (d : Date) (t : Time) : Option TimePoint := do
  let d' ← checkDate d
  let t' ← checkTime t
  if d'.precision ≠ .complete then none else return ⟨d', t'⟩

/-- `TimePoint.shift_zone`, iso8601.py:2211-2225. -/
def TimePoint.shiftZone (p : TimePoint) (zdir zhour zminute : Option Int) : Option TimePoint := do
  let (t, overflow) ← p.time.shiftZone zdir zhour zminute
  let d ← (if overflow ≠ 0 then p.date.offset 0 0 0 0 overflow else some p.date)
  mkTimePoint d t

/-- `TimePoint.complete`, iso8601.py:2403-2412. -/
def TimePoint.complete (p : TimePoint) : Bool := p.date.complete && p.time.complete

/-- `pytime.gmtime(0)` is 1970-01-01 00:00:00: `Date.from_struct_time` (iso8601.py:607-611) and
`Time.from_struct_time` (iso8601.py:1583-1588) of it. -/
def epochDate : Date := { century := 19, year := some 70, month := some 1, week := none, day := some 1 }

/-- `get_unixtime`, iso8601.py:2374-2387; `EPOCH` (iso8601.py:3454) is `gmtime(0)` in UTC. -/
def TimePoint.unixtime (p : TimePoint) : Option Int := do
  if !p.complete then none
  else
    let z ← p.time.zoneOffset
    let zt ← (if z = 0 then some p else p.shiftZone (some 0) none none)
    let d ← zt.date.getAbsoluteDay
    let e ← epochDate.getAbsoluteDay
    let s ← zt.time.totalSeconds
    return 86400 * (d - e) + (s - 0)

/-- `from_unix_time`, iso8601.py:2361-2372. -/
def fromUnixTime (n : Int) : Option TimePoint := do
  let t0 ← mkTime { hour := some 0, minute := some 0, second := some 0 }
  let (t, overflow) ← t0.offset 0 0 n
  let d ← epochDate.offset 0 0 0 0 overflow
  let t' ← t.withZone (some 0) none none
  mkTimePoint d t'

/-- `TimePoint.sortkey`, iso8601.py:2435-2441 (the recursive call is on a time with offset 0). -/
def TimePoint.sortkey (p : TimePoint) : Option (List (Option Int)) :=
  match p.time.zoneOffset with
  | some z =>
    if z ≠ 0 then (p.shiftZone (some 0) none none).map (fun q => q.date.sortkey ++ q.time.sortkey)
    else some (p.date.sortkey ++ p.time.sortkey)
  | none => some (p.date.sortkey ++ p.time.sortkey)

/-- `__lt__` (py2.py:381-390) with `otherkey`, iso8601.py:2443-2454; `none`: raises. -/
def TimePoint.lt (p q : TimePoint) : Option Bool :=
  if p.time.precision = q.time.precision ∧ p.time.zoneOffset.isNone = q.time.zoneOffset.isNone then do
    let a ← p.sortkey
    let b ← q.sortkey
    return lexLt a b
  else none

/-- `__eq__` (py2.py:365-371) with `otherkey`; `some none` is NotImplemented. -/
def TimePoint.eq (p q : TimePoint) : Option Bool := do
  let a ← p.sortkey
  if p.time.precision = q.time.precision ∧ p.time.zoneOffset.isNone = q.time.zoneOffset.isNone then
    let b ← q.sortkey
    return a == b
  else return false

end Verif.Iso

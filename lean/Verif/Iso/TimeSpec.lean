import Verif.Iso.Time
import Verif.Iso.DateSpec
/-!
# Specification of times of day, zones and instants

A clock reading is hours, minutes and seconds; a zone is nothing, UTC, or a number of minutes east or west
of Greenwich; an instant is counted in seconds from the start of the day before 0001-01-01 UTC (leap
seconds count as the first second of the next minute, as in `Time.offset`).
-/
namespace Verif.Iso

/-- A reading of the clock with complete precision. -/
structure Clock where
  h : Int
  m : Int
  s : Int
deriving DecidableEq, Repr

/-- 00:00:00 to 23:59:60, and 24:00:00. -/
def Clock.Valid (c : Clock) : Prop :=
  0 ≤ c.h ∧ c.h ≤ 24 ∧ 0 ≤ c.m ∧ c.m ≤ 59 ∧ 0 ≤ c.s ∧ c.s ≤ 60 ∧ (c.h = 24 → c.m = 0 ∧ c.s = 0)
instance (c : Clock) : Decidable c.Valid := by unfold Clock.Valid; infer_instance

/-- Seconds since midnight. -/
def Clock.seconds (c : Clock) : Int := 3600 * c.h + 60 * c.m + c.s

/-- The start of the minute (used to say whether a reading is in the calendar without treating a leap
second as part of the next minute). -/
def Clock.onMinute (c : Clock) : Clock := ⟨c.h, c.m, 0⟩

/-- The zone of a time. -/
inductive Zone where
  | unspecified
  | utc
  | east (minutes : Int)
  | west (minutes : Int)
deriving DecidableEq, Repr

/-- Zones are less than a day from Greenwich. -/
def Zone.Valid : Zone → Prop
  | .unspecified => True
  | .utc => True
  | .east n => 0 ≤ n ∧ n < 1440
  | .west n => 0 ≤ n ∧ n < 1440
instance (z : Zone) : Decidable z.Valid := by unfold Zone.Valid; cases z <;> infer_instance

/-- Minutes east of Greenwich (0 for local times). -/
def Zone.minutes : Zone → Int
  | .unspecified => 0
  | .utc => 0
  | .east n => n
  | .west n => -n

/-- The arguments `zdirection, zhour, zminute` that name the zone. -/
def Zone.args : Zone → Option Int × Option Int × Option Int
  | .unspecified => (none, none, none)
  | .utc => (some 0, some 0, some 0)
  | .east n => (some 1, some (n / 60), some (n % 60))
  | .west n => (some (-1), some (n / 60), some (n % 60))

/-- The arguments `zdirection, zhour, zminute` name the zone (the minutes may be omitted, and for UTC all
but the direction are ignored). -/
def Zone.Named (zd zh zm : Option Int) : Zone → Prop
  | .unspecified => zd = none
  | .utc => zd = some 0
  | .east n => zd = some 1 ∧ ∃ h, zh = some h ∧ 60 * h + zm.getD 0 = n
  | .west n => zd = some (-1) ∧ ∃ h, zh = some h ∧ 60 * h + zm.getD 0 = n

/-- The Time object for a reading in a zone. -/
def Clock.time (c : Clock) : Zone → Time
  | .unspecified => ⟨c.h, some c.m, some c.s, none, none⟩
  | .utc => ⟨c.h, some c.m, some c.s, some 0, some 0⟩
  | .east n => ⟨c.h, some c.m, some c.s, some 1, some n⟩
  | .west n => ⟨c.h, some c.m, some c.s, some (-1), some n⟩

/-- The TimePoint object for a reading on a date in a zone. -/
def timePoint (d : YMD) (c : Clock) (z : Zone) : TimePoint := ⟨d.date, c.time z⟩

/-- Seconds from the local start of the calendar. -/
def localSeconds (d : YMD) (c : Clock) : Int := 86400 * d.number + c.seconds

/-- The instant. -/
def instant (d : YMD) (c : Clock) (z : Zone) : Int := localSeconds d c - 60 * z.minutes

end Verif.Iso

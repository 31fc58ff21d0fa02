import Verif.Iso.Date
/-!
# Specification: the proleptic Gregorian calendar

Written independently of the code: leap years, month lengths, the next day, counting.
-/
namespace Verif.Iso

/-- Gregorian leap years. -/
def Leap (y : Int) : Prop := y % 4 = 0 ∧ (y % 100 ≠ 0 ∨ y % 400 = 0)
instance (y : Int) : Decidable (Leap y) := by unfold Leap; infer_instance

/-- Thirty days have September, April, June and November ... -/
def monthLen (y m : Int) : Int :=
  if m = 4 ∨ m = 6 ∨ m = 9 ∨ m = 11 then 30
  else if m = 2 then (if Leap y then 29 else 28)
  else 31

/-- Days in a year. -/
def yearLen (y : Int) : Int := if Leap y then 366 else 365

/-- A date of the calendar (years 1 to 9999, as ISO 8601 dates have four digits). -/
structure YMD where
  y : Int
  m : Int
  d : Int
deriving DecidableEq, Repr

def YMD.Valid (t : YMD) : Prop :=
  1 ≤ t.y ∧ t.y ≤ 9999 ∧ 1 ≤ t.m ∧ t.m ≤ 12 ∧ 1 ≤ t.d ∧ t.d ≤ monthLen t.y t.m
instance (t : YMD) : Decidable t.Valid := by unfold YMD.Valid; infer_instance

/-- The next day. -/
def YMD.next (t : YMD) : YMD :=
  if t.d < monthLen t.y t.m then ⟨t.y, t.m, t.d + 1⟩
  else if t.m < 12 then ⟨t.y, t.m + 1, 1⟩
  else ⟨t.y + 1, 1, 1⟩

/-- Calendar order. -/
def YMD.lt (s t : YMD) : Prop :=
  s.y < t.y ∨ (s.y = t.y ∧ (s.m < t.m ∨ (s.m = t.m ∧ s.d < t.d)))

/-- The Date object for a calendar date. -/
def YMD.date (t : YMD) : Date :=
  { century := t.y / 100, year := some (t.y % 100), month := some t.m, week := none, day := some t.d }

/-- Days of the year before month `m` begins, by counting. -/
def daysBefore (y : Int) : Nat → Int
  | 0 => 0
  | n + 1 => daysBefore y n + monthLen y (n + 1)

/-- The ordinal day, by counting days. -/
def YMD.ordinal (t : YMD) : Int := daysBefore t.y (t.m - 1).toNat + t.d

/-- Days before year `n + 1` begins, counting from year 1. -/
def daysBeforeYear : Nat → Int
  | 0 => 0
  | n + 1 => daysBeforeYear n + yearLen (n + 1)

/-- The day number counting 0001-01-01 as 1. -/
def YMD.number (t : YMD) : Int := daysBeforeYear (t.y - 1).toNat + t.ordinal

/-- The last day number, 9999-12-31. -/
def maxDay : Int := 3652059

end Verif.Iso

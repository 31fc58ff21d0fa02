import Verif.Iso.DateSpec
/-! # Specification: the Julian calendar

A leap year every four years; written independently of the code. -/
namespace Verif.Iso.Julian

def monthLen (y m : Int) : Int :=
  if m = 4 ∨ m = 6 ∨ m = 9 ∨ m = 11 then 30
  else if m = 2 then (if y % 4 = 0 then 29 else 28)
  else 31

/-- A date of the Julian calendar. -/
def Valid (y m d : Int) : Prop := 1 ≤ y ∧ 1 ≤ m ∧ m ≤ 12 ∧ 1 ≤ d ∧ d ≤ monthLen y m
instance (y m d : Int) : Decidable (Valid y m d) := by unfold Valid; infer_instance

def daysBefore (y : Int) : Nat → Int
  | 0 => 0
  | n + 1 => daysBefore y n + monthLen y (n + 1)

def daysBeforeYear : Nat → Int
  | 0 => 0
  | n + 1 => daysBeforeYear n + (if ((n : Int) + 1) % 4 = 0 then 366 else 365)

/-- The day number with the Julian date 0001-01-03 being the Gregorian 0001-01-01 (day 1). -/
def number (y m d : Int) : Int := daysBeforeYear (y - 1).toNat + daysBefore y (m - 1).toNat + d - 2

end Verif.Iso.Julian

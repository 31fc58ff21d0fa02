import Verif.Iso.DateSpec
/-! # Specification: weekdays and ISO weeks -/
namespace Verif.Iso

/-- Monday is 1 ... Sunday is 7; day 1 (0001-01-01) is a Monday in the proleptic Gregorian calendar. -/
def YMD.weekday (t : YMD) : Int := (t.number - 1) % 7 + 1

/-- ISO 8601: a week belongs to the year that contains its Thursday and weeks are numbered by
their Thursdays: `t` lies in week `w` of year `y`. -/
def YMD.InWeek (t : YMD) (y w : Int) : Prop :=
  ∃ u : YMD, u.Valid ∧ u.number = t.number + (4 - t.weekday) ∧ u.y = y ∧ (u.ordinal - 1) / 7 + 1 = w

/-- The number of Thursdays of a year, by counting its days. -/
def thursdays (y : Int) : Nat :=
  ((List.range (yearLen y).toNat).filter (fun i : Nat => (daysBeforeYear (y - 1).toNat + (i : Int)) % 7 == 3)).length

-- the moon landing was on a Sunday, 2000-01-01 on a Saturday
example : (⟨1969, 7, 20⟩ : YMD).weekday = 7 ∧ (⟨2000, 1, 1⟩ : YMD).weekday = 6 := by decide +kernel

end Verif.Iso

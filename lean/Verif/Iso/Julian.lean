import Verif.Iso.Week
import Verif.Iso.JulianSpec
/-! # Julian calendar conversions -/
namespace Verif.Iso

theorem jul_daysBeforeYear (n : Nat) : Julian.daysBeforeYear n = (n : Int) / 4 + n * 365 := by
  induction n with
  | zero => simp [Julian.daysBeforeYear]
  | succ n ih =>
    rw [Julian.daysBeforeYear, ih]
    have hc : ((n + 1 : Nat) : Int) = (n : Int) + 1 := by omega
    rw [hc]
    split <;> omega

theorem jul_take_sum (y m : Int) (h1 : 1 ≤ m) (h2 : m ≤ 12) :
    ((sizes (decide (y % 4 = 0))).take (m - 1).toNat).sum = Julian.daysBefore y (m - 1).toNat := by
  by_cases hl : y % 4 = 0 <;>
    rcases months h1 h2 with h | h | h | h | h | h | h | h | h | h | h | h <;> subst h <;>
    simp [sizes, monthSizes, monthSizesLeap, Julian.daysBefore, Julian.monthLen, hl]

theorem jul_get (y m : Int) (h1 : 1 ≤ m) (h2 : m ≤ 12) :
    (sizes (decide (y % 4 = 0))).getD (m - 1).toNat 0 = Julian.monthLen y m := by
  by_cases hl : y % 4 = 0 <;>
    rcases months h1 h2 with h | h | h | h | h | h | h | h | h | h | h | h <;> subst h <;>
    simp [sizes, monthSizes, monthSizesLeap, Julian.monthLen, hl]

def jyl (y : Int) : Int := if y % 4 = 0 then 366 else 365

theorem jul_ordinal_range {y m d : Int} (h : Julian.Valid y m d) :
    1 ≤ Julian.daysBefore y (m - 1).toNat + d ∧ Julian.daysBefore y (m - 1).toNat + d ≤ jyl y := by
  obtain ⟨_, h1, h2, h3, h4⟩ := h
  unfold jyl
  by_cases hl : y % 4 = 0 <;>
    rcases months h1 h2 with h | h | h | h | h | h | h | h | h | h | h | h <;> subst h <;>
    simp [Julian.monthLen, hl, Julian.daysBefore] at h4 ⊢ <;> omega

theorem jul_number {y m d : Int} (h : Julian.Valid y m d) :
    Julian.number y m d = (y - 1) / 4 + (y - 1) * 365 + (Julian.daysBefore y (m - 1).toNat + d) - 2 := by
  have : ((y - 1).toNat : Int) = y - 1 := by have := h.1; omega
  unfold Julian.number
  rw [jul_daysBeforeYear, this]; omega

theorem fromJulian_eq {y m d : Int} (h : Julian.Valid y m d) :
    fromJulian y m d = mkDate { absolute := some (Julian.number y m d) } := by
  unfold fromJulian
  dsimp only
  rw [foldl_add, jul_take_sum _ _ h.2.1 h.2.2.1, jul_number h]
  congr 3; omega

/-- `get_julian_day` on a day number. -/
theorem getJulian_eq {t : YMD} (ht : t.Valid) {y m d : Int} (h : Julian.Valid y m d)
    (hn : t.number = Julian.number y m d) : t.date.getJulianDay = some (y, m, d) := by
  have ho := jul_ordinal_range h
  have hj := jul_number h
  have hm := monthLoop_inv (sizes (decide (y % 4 = 0))) (sizes_pos _) 1 (m - 1).toNat d
    (by rw [sizes_length]; have := h.2.2.1; omega) h.2.2.2.1
    (by rw [jul_get _ _ h.2.1 h.2.2.1]; exact h.2.2.2.2)
  rw [jul_take_sum _ _ h.2.1 h.2.2.1] at hm
  simp only [Date.getJulianDay, getAbsoluteDay_date ht, Option.bind_eq_bind, Option.bind_some, Option.pure_def]
  generalize hO : Julian.daysBefore y (m - 1).toNat + d = o at *
  have fin : ∀ y' o', y' = y → o' = o →
      some (y', (monthLoop (sizes (decide (y' % 4 = 0))) 1 o').1, (monthLoop (sizes (decide (y' % 4 = 0))) 1 o').2) =
      some (y, m, d) := by
    intro y' o' e1 e2; subst e1 e2; rw [hm]
    have : (1 : Int) + ((m - 1).toNat : Int) = m := by have := h.2.1; omega
    simp only [this]
  unfold jyl at ho
  rw [hn, hj]
  generalize hq : (((y - 1) / 4 + (y - 1) * 365 + o - 2 + 1) / 1461) = q
  generalize hr : (((y - 1) / 4 + (y - 1) * 365 + o - 2 + 1) % 1461) = r
  have hqr : (y - 1) / 4 + (y - 1) * 365 + o - 2 + 1 = 1461 * q + r := by omega
  have hr0 : 0 ≤ r ∧ r < 1461 := by omega
  clear hq hr
  generalize hk : (y - 1) / 4 = k at *
  generalize hk2 : (y - 1) % 4 = k2
  have hy : y = 4 * k + k2 + 1 := by omega
  have hk20 : 0 ≤ k2 ∧ k2 < 4 := by omega
  have hleap : y % 4 = 0 ↔ k2 = 3 := by omega
  clear hk hk2
  have ho1 : o ≤ 366 := by split at ho <;> omega
  have ho2 : k2 ≠ 3 → o ≤ 365 := by intro hne; rw [if_neg (by omega)] at ho; omega
  subst hy
  have hq' : q = k := by omega
  subst hq'
  have hr' : r = 365 * k2 + o - 1 := by omega
  by_cases c : r = 1461 - 1
  · rw [if_pos c]; apply fin <;> simp only <;> omega
  · rw [if_neg c]; apply fin <;> simp only <;> omega

/-- Every day number from 1 on is the number of a Julian date. -/
theorem exists_julian {n : Int} (h1 : 1 ≤ n) : ∃ y m d : Int, Julian.Valid y m d ∧ Julian.number y m d = n := by
  -- year and ordinal day
  have hyo : ∃ y o : Int, 1 ≤ y ∧ 1 ≤ o ∧ o ≤ jyl y ∧ (y - 1) / 4 + (y - 1) * 365 + o - 2 = n := by
    generalize hq : (n + 1) / 1461 = q
    generalize hr : (n + 1) % 1461 = r
    by_cases c : r = 1460
    · refine ⟨4 * q + 4, 366, by omega, by omega, ?_, by omega⟩
      unfold jyl; rw [if_pos (by omega)]; omega
    · refine ⟨4 * q + r / 365 + 1, r % 365 + 1, by omega, by omega, ?_, by omega⟩
      unfold jyl; split <;> omega
  obtain ⟨y, o, hy, ho1, ho2, e⟩ := hyo
  have hs : (sizes (decide (y % 4 = 0))).sum = jyl y := by
    rw [sizes_sum]; unfold jyl; by_cases h : y % 4 = 0 <;> simp [h]
  obtain ⟨i, hi, _, hd1, hd2⟩ := monthLoop_spec (sizes (decide (y % 4 = 0))) 1 o ho1 (by omega)
  rw [sizes_length] at hi
  have hget := jul_get y (i + 1) (by omega) (by omega)
  have htk := jul_take_sum y (i + 1) (by omega) (by omega)
  have hi' : (((i : Int) + 1) - 1).toNat = i := by omega
  rw [hi'] at hget htk
  have hv : Julian.Valid y (i + 1) (o - ((sizes (decide (y % 4 = 0))).take i).sum) :=
    ⟨hy, by omega, by omega, by omega, by omega⟩
  refine ⟨y, i + 1, _, hv, ?_⟩
  rw [jul_number hv, hi']
  omega

/-- A day number has one Julian date. -/
theorem julian_inj {y m d y' m' d' : Int} (h : Julian.Valid y m d) (h' : Julian.Valid y' m' d')
    (hn : Julian.number y m d = Julian.number y' m' d') (h1 : 1 ≤ Julian.number y m d)
    (h2 : Julian.number y m d ≤ maxDay) : y = y' ∧ m = m' ∧ d = d' := by
  obtain ⟨t, hv, hnum⟩ := exists_of_number h1 h2
  have e1 := getJulian_eq hv h hnum
  have e2 := getJulian_eq hv h' (by rw [hnum, hn])
  rw [e1] at e2
  simpa using e2

end Verif.Iso

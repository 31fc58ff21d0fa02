import Verif.Iso.Offset
import Verif.Iso.WeekSpec
/-! # Property theorems C07-C12 about dates -/
namespace Verif.Iso

/-- The complete dates the constructor's checks accept are exactly the dates of the calendar. -/
theorem C07_complete_dates (c y m d : Int) :
    checkDate { century := c, year := some y, month := some m, week := none, day := some d } =
      some { century := c, year := some y, month := some m, week := none, day := some d } ↔
    0 ≤ y ∧ y ≤ 99 ∧ YMD.Valid ⟨100 * c + y, m, d⟩ := by
  constructor
  · intro h
    unfold checkDate checkDate.checkMonth at h
    dsimp only at h
    by_cases c1 : c < 0 ∨ c > 99
    · rw [if_pos c1] at h; cases h
    rw [if_neg c1] at h
    by_cases c2 : y < 0 ∨ y > 99
    · rw [if_pos c2] at h; cases h
    rw [if_neg c2] at h
    by_cases c3 : y = 0 ∧ c = 0
    · rw [if_pos c3] at h; cases h
    rw [if_neg c3] at h
    by_cases c4 : m < 1 ∨ m > 12
    · rw [if_pos c4] at h; cases h
    rw [if_neg c4] at h
    rw [sizes_get _ _ (by omega) (by omega)] at h
    by_cases c5 : d < 1 ∨ d > monthLen (c * 100 + y) m
    · rw [if_pos c5] at h; cases h
    refine ⟨by omega, by omega, by simp only; omega, by simp only; omega, by simp only; omega,
      by simp only; omega, by simp only; omega, ?_⟩
    simp only
    rw [show 100 * c + y = c * 100 + y by omega]
    omega
  · rintro ⟨h1, h2, hv⟩
    have := checkDate_date hv
    simp only [YMD.date] at this
    rw [show (100 * c + y) / 100 = c by omega, show (100 * c + y) % 100 = y by omega] at this
    exact this

/-- C07: `Date(absolute_day=n)` and `get_absolute_day` are inverse bijections between the day numbers
1..3652059 (9999-12-31) and the dates of the calendar, the number being the count of days. -/
theorem C07_absolute_day_bijection :
    (∀ n, 1 ≤ n → n ≤ maxDay → ∃ t : YMD, t.Valid ∧ mkDate { absolute := some n } = some t.date ∧
      t.date.getAbsoluteDay = some n) ∧
    (∀ t : YMD, t.Valid → t.date.getAbsoluteDay = some t.number ∧ 1 ≤ t.number ∧ t.number ≤ maxDay ∧
      mkDate { absolute := some t.number } = some t.date) ∧
    (∀ n, n < 0 ∨ maxDay < n → mkDate { absolute := some n } = none) := by
  refine ⟨?_, ?_, ?_⟩
  · intro n h1 h2
    obtain ⟨t, hv, hn, e⟩ := mkDate_absolute_in h1 h2
    exact ⟨t, hv, e, by rw [getAbsoluteDay_date hv, hn]⟩
  · intro t hv
    have hr := number_range hv
    obtain ⟨u, hu, hn, e⟩ := mkDate_absolute_in hr.1 hr.2
    have := number_inj hu hv hn
    subst this
    exact ⟨getAbsoluteDay_date hv, hr.1, hr.2, e⟩
  · intro n h
    exact mkDate_absolute_out (by unfold maxDay at h; omega) (by omega)

/-- Violation found: day number 0 is falsy, so the argument is ignored and 0001-01-01, whose number is 1,
is returned instead of an error. -/
theorem C07_zero_violation : mkDate { absolute := some 0 } = some (YMD.date ⟨1, 1, 1⟩) ∧
    (YMD.date ⟨1, 1, 1⟩).getAbsoluteDay = some 1 := by decide +kernel

/-- The last day number is 9999-12-31. -/
theorem C07_last_day : (⟨9999, 12, 31⟩ : YMD).number = maxDay := by
  rw [number_eq (by decide)]; decide

/-- `(⟨2024, 2, 29⟩ : YMD)` is a valid date; its number. -/
example : (⟨2024, 2, 29⟩ : YMD).Valid ∧ (YMD.date ⟨2024, 2, 29⟩).getAbsoluteDay = some 738945 := by
  decide +kernel

/-- C08: the next day of the calendar has the next number, and calendar order is number order. -/
theorem C08_days_count_and_order :
    (∀ t : YMD, t.Valid → t ≠ ⟨9999, 12, 31⟩ → t.next.Valid ∧
      ∃ n, t.date.getAbsoluteDay = some n ∧ t.next.date.getAbsoluteDay = some (n + 1)) ∧
    (∀ s t : YMD, s.Valid → t.Valid → ∃ n m, s.date.getAbsoluteDay = some n ∧ t.date.getAbsoluteDay = some m ∧
      (s.lt t ↔ n < m) ∧ (s = t ↔ n = m)) := by
  refine ⟨?_, ?_⟩
  · intro t hv hne
    have hv' := next_valid hv hne
    exact ⟨hv', t.number, getAbsoluteDay_date hv, by rw [getAbsoluteDay_date hv', number_next hv hv']⟩
  · intro s t hs ht
    exact ⟨s.number, t.number, getAbsoluteDay_date hs, getAbsoluteDay_date ht, number_lt_iff hs ht,
      fun e => by rw [e], number_inj hs ht⟩

/-- C08: `<` and `==` on complete Date objects are calendar order and equality. -/
theorem C08_comparison (s t : YMD) (hs : s.Valid) (ht : t.Valid) :
    (∃ b, s.date.lt t.date = some b ∧ (b = true ↔ s.lt t)) ∧ (s.date.eq t.date = true ↔ s = t) := by
  rcases s with ⟨y1, m1, d1⟩
  rcases t with ⟨y2, m2, d2⟩
  constructor
  · refine ⟨_, rfl, ?_⟩
    simp only [Date.sortkey, YMD.date, lexLt, YMD.lt]
    by_cases e1 : y1 / 100 = y2 / 100 <;> by_cases e2 : y1 % 100 = y2 % 100 <;> by_cases e3 : m1 = m2 <;>
      by_cases e4 : d1 = d2 <;> simp [e1, e2, e3, e4] <;> omega
  · simp only [Date.eq, Date.precision, YMD.date, Date.sortkey, YMD.mk.injEq]
    simp
    omega

example : (⟨1999, 12, 31⟩ : YMD).next = ⟨2000, 1, 1⟩ ∧ (⟨1900, 2, 28⟩ : YMD).next = ⟨1900, 3, 1⟩ := by decide

/-- C09: `day_of_week` is the true weekday, for every date. -/
theorem C09_day_of_week (t : YMD) (h : t.Valid) :
    dayOfWeek t.y t.m t.d = t.weekday ∧ 1 ≤ dayOfWeek t.y t.m t.d ∧ dayOfWeek t.y t.m t.d ≤ 7 ∧
    (t ≠ ⟨9999, 12, 31⟩ → dayOfWeek t.next.y t.next.m t.next.d =
      if dayOfWeek t.y t.m t.d = 7 then 1 else dayOfWeek t.y t.m t.d + 1) := by
  have e := dow_valid h
  refine ⟨e, by omega, by omega, fun hne => ?_⟩
  have hv' := next_valid h hne
  rw [dow_valid hv', e, number_next h hv']
  split <;> omega

example : dayOfWeek 2024 2 29 = 4 := by decide

/-- C10: `get_week_day` gives the ISO week the date lies in, and the constructor inverts it. -/
theorem C10_week_round_trip (t : YMD) (h : t.Valid) : ∃ y w : Int, t.InWeek y w ∧ 1 ≤ w ∧ w ≤ weekCount y ∧
    1 ≤ y ∧ y ≤ 9999 ∧
    t.date.getWeekDay = some (y / 100, some (y % 100 / 10), some (y % 10), some w, some t.weekday) ∧
    mkDate { century := some (y / 100), decade := some (y % 100 / 10), year := some (y % 10), week := some w,
             weekday := some t.weekday } = some t.date := by
  obtain ⟨u, hu, hun, e⟩ := getWeekDay_date h
  have ou := ordinal_range hu
  have nu := number_dby hu
  have hw : (u.ordinal - 1) / 7 + 1 ≤ weekCount u.y := by
    rw [weekCount_eq]
    rcases yearLen_cases u.y with ⟨_, e⟩ | ⟨_, e⟩ <;> rw [e] at ou ⊢ <;>
      generalize dby u.y = D at * <;> split <;> omega
  have hY : u.y / 100 * 100 + (u.y % 100 / 10 * 10 + u.y % 10) = u.y := by omega
  refine ⟨u.y, _, ⟨u, hu, by unfold YMD.weekday; omega, rfl, rfl⟩, by omega, hw, hu.1, hu.2.1, e, ?_⟩
  apply mkDate_week h (by omega) (by omega) (by rw [hY]; exact hw) (by omega)
    (by unfold YMD.weekday; omega)
  rw [hY]
  unfold YMD.weekday
  generalize dby u.y = D at *
  omega

/-- C10: conversely every week date with its day in the calendar is the week date of the constructed date;
later days (in 10000) raise. -/
theorem C10_week_dates (y w wd : Int) (hy : 1 ≤ y ∧ y ≤ 9999) (hw : 1 ≤ w ∧ w ≤ weekCount y)
    (hwd : 1 ≤ wd ∧ wd ≤ 7) :
    (∃ t : YMD, t.Valid ∧ t.InWeek y w ∧ t.weekday = wd ∧
      mkDate { century := some (y / 100), decade := some (y % 100 / 10), year := some (y % 10), week := some w,
               weekday := some wd } = some t.date) ∨
    (y = 9999 ∧ w = 52 ∧ 5 < wd) := by
  have hr := weekCount_range y
  by_cases c : y = 9999 ∧ w = 52 ∧ 5 < wd
  · exact Or.inr c
  · left
    have hY : y / 100 * 100 + (y % 100 / 10 * 10 + y % 10) = y := by omega
    have w9999 : weekCount 9999 = 52 := by decide
    have d9999 : dby 9999 = 3651694 := by decide
    have hmono : y ≤ 9998 → dby y ≤ dby 9999 - 365 := by intro _; unfold dby; omega
    have hmono1 : 0 ≤ dby y := by unfold dby; omega
    have h1mon : 1 ≤ mon y w := by
      unfold mon
      by_cases c1 : y = 1
      · subst c1; have : dby 1 = 0 := by decide
        omega
      · have : 365 ≤ dby y := by unfold dby; omega
        omega
    have h1 : mon y w + wd - 1 ≤ maxDay := by
      unfold mon maxDay
      by_cases hy9 : y = 9999
      · subst hy9; omega
      · have := hmono (by omega)
        have hq := weekCount_eq y
        split at hq <;> omega
    obtain ⟨t, hv, hn⟩ := exists_of_number (n := mon y w + wd - 1) (by omega) h1
    have hk : t.number = dby y + 4 - ((dby y + 3) % 7 + 1) + (w - 1) * 7 + wd := by
      rw [hn]; unfold mon; omega
    have hwk : t.weekday = wd := by unfold YMD.weekday; rw [hk]; generalize dby y = D at *; omega
    refine ⟨t, hv, ?_, hwk, ?_⟩
    · -- the Thursday
      have hord : 1 ≤ 4 - ((dby y + 3) % 7 + 1) + (w - 1) * 7 + 4 ∧
          4 - ((dby y + 3) % 7 + 1) + (w - 1) * 7 + 4 ≤ yearLen y := by
        have hq := weekCount_eq y
        rcases yearLen_cases y with ⟨_, e⟩ | ⟨_, e⟩ <;> rw [e] at hq ⊢ <;>
          generalize dby y = D at * <;> split at hq <;> omega
      obtain ⟨u, hu, huy, huo⟩ := exists_of_ordinal hy.1 hy.2 hord.1 hord.2
      have nu := number_dby hu
      rw [huy] at nu
      exact ⟨u, hu, by rw [hwk]; omega, huy, by generalize dby y = D at *; omega⟩
    · apply mkDate_week hv (by omega) (by omega) (by rw [hY]; exact hw.2) (by omega) hwd
      rw [hY]; exact hk

/-- C10: `week_count` is the number of Thursdays, i.e. of ISO weeks, of every year. -/
theorem C10_week_count (y : Int) (h : 1 ≤ y) : weekCount y = thursdays y := by
  have hD : daysBeforeYear (y - 1).toNat = dby y := by
    rw [daysBeforeYear_eq]
    have : ((y - 1).toNat : Int) = y - 1 := by omega
    rw [this]; rfl
  have hf : (fun i : Nat => (daysBeforeYear (y - 1).toNat + (i : Int)) % 7 == 3) =
      (fun i : Nat => (dby y % 7 + (i : Int)) % 7 == 3) := by
    funext i; rw [hD, Bool.eq_iff_iff]; simp only [beq_iff_eq]; omega
  unfold thursdays
  rw [hf, weekCount_eq]
  have h7 : dby y % 7 = 0 ∨ dby y % 7 = 1 ∨ dby y % 7 = 2 ∨ dby y % 7 = 3 ∨ dby y % 7 = 4 ∨ dby y % 7 = 5 ∨
      dby y % 7 = 6 := by omega
  rcases yearLen_cases y with ⟨_, e⟩ | ⟨_, e⟩ <;> rw [e] <;>
    rcases h7 with h | h | h | h | h | h | h <;> rw [h] <;> decide +kernel

example : (⟨2010, 1, 3⟩ : YMD).date.getWeekDay = some (20, some 0, some 9, some 53, some 7) := by decide +kernel

/-- C11: the ordinal day constructor and `get_ordinal_day` are inverse: the ordinal is the
count of days in the year; other ordinals raise. -/
theorem C11_ordinal (t : YMD) (h : t.Valid) :
    t.date.getOrdinalDay = some (t.y / 100, some (t.y % 100), some t.ordinal) ∧
    mkDate { century := some (t.y / 100), year := some (t.y % 100), ordinal := some t.ordinal } = some t.date := by
  refine ⟨getOrdinalDay_date h, ?_⟩
  have ho : t.ordinal ≠ 0 := by have := (ordinal_range h).1; omega
  simp [mkDate, truthy, ho, setFromOrdinal_date h, checkDate_date h]

theorem C11_ordinal_constructor (y o : Int) (hy : 1 ≤ y ∧ y ≤ 9999) (ho : o ≠ 0) :
    (1 ≤ o ∧ o ≤ yearLen y → ∃ t : YMD, t.Valid ∧ t.y = y ∧ t.ordinal = o ∧
      mkDate { century := some (y / 100), year := some (y % 100), ordinal := some o } = some t.date) ∧
    (¬ (1 ≤ o ∧ o ≤ yearLen y) →
      mkDate { century := some (y / 100), year := some (y % 100), ordinal := some o } = none) := by
  constructor
  · intro h
    obtain ⟨t, hv, hty, hto, _⟩ := setFromOrdinal_spec hy.1 hy.2 h.1 h.2
    refine ⟨t, hv, hty, hto, ?_⟩
    have := (C11_ordinal t hv).2
    rwa [hty, hto] at this
  · intro h
    have e1 : mkDate { century := some (y / 100), year := some (y % 100), ordinal := some o } =
        checkDate ⟨y / 100, some (y % 100), some (monthLoop (sizes (leapYear y)) 1 o).1, none,
          some (monthLoop (sizes (leapYear y)) 1 o).2⟩ := by
      simp [mkDate, truthy, ho, setFromOrdinalDay, leapCY_eq]
    rw [e1]
    have hb : ∃ m d : Int, monthLoop (sizes (leapYear y)) 1 o = (m, d) ∧ (m = 13 ∨ d < 1) := by
      by_cases c : o < 1
      · refine ⟨1, o, ?_, Or.inr c⟩
        rcases yearLen_cases y with ⟨e, _⟩ | ⟨e, _⟩ <;> rw [e] <;>
          simp only [sizes, monthSizes, monthSizesLeap, if_true, Bool.false_eq_true, if_false, monthLoop] <;>
          rw [if_neg (by omega)]
      · refine ⟨13, o - yearLen y, ?_, Or.inl rfl⟩
        rcases yearLen_cases y with ⟨e, e2⟩ | ⟨e, e2⟩ <;> rw [e, e2] <;> rw [e2] at h <;>
          simp only [sizes, monthSizes, monthSizesLeap, if_true, Bool.false_eq_true, if_false, monthLoop] <;>
          (repeat rw [if_pos (by omega)]) <;> simp only [Prod.mk.injEq] <;> omega
    obtain ⟨m, d, e, hmd⟩ := hb
    rw [e]
    unfold checkDate checkDate.checkMonth
    dsimp only
    rw [if_neg (by omega), if_neg (by omega), if_neg (by omega)]
    by_cases c1 : m < 1 ∨ m > 12
    · rw [if_pos c1]
    · rw [if_neg c1, if_pos (by omega)]

/-- Violation found: ordinal day 0 is falsy and ignored, giving a year instead of an error. -/
theorem C11_ordinal_zero_violation :
    mkDate { century := some 19, year := some 99, ordinal := some 0 } = some (yearDate 1999) := by decide

/-- C11: `from_julian` and `get_julian_day` are inverse, for all dates of the calendar. -/
theorem C11_julian :
    (∀ y m d, Julian.Valid y m d → 1 ≤ Julian.number y m d → Julian.number y m d ≤ maxDay →
      ∃ t : YMD, t.Valid ∧ t.number = Julian.number y m d ∧ fromJulian y m d = some t.date ∧
        t.date.getJulianDay = some (y, m, d)) ∧
    (∀ t : YMD, t.Valid → ∃ y m d, Julian.Valid y m d ∧ Julian.number y m d = t.number ∧
      t.date.getJulianDay = some (y, m, d) ∧ fromJulian y m d = some t.date) ∧
    (∀ y m d, Julian.Valid y m d → Julian.number y m d < 0 ∨ maxDay < Julian.number y m d →
      fromJulian y m d = none) := by
  refine ⟨?_, ?_, ?_⟩
  · intro y m d hj h1 h2
    obtain ⟨t, hv, hn, e⟩ := mkDate_absolute_in h1 h2
    exact ⟨t, hv, hn, by rw [fromJulian_eq hj, e], getJulian_eq hv hj hn⟩
  · intro t hv
    obtain ⟨y, m, d, hj, hn⟩ := exists_julian (number_range hv).1
    refine ⟨y, m, d, hj, hn, getJulian_eq hv hj hn.symm, ?_⟩
    rw [fromJulian_eq hj, hn]
    exact (C07_absolute_day_bijection.2.1 t hv).2.2.2
  · intro y m d hj h
    rw [fromJulian_eq hj]
    exact C07_absolute_day_bijection.2.2 _ h

/-- The Gregorian reform: Julian 5 October 1582 is Gregorian 15 October 1582; and the violation inherited
from day number 0. -/
example : fromJulian 1582 10 5 = some (YMD.date ⟨1582, 10, 15⟩) := by decide +kernel
theorem C11_julian_zero_violation : Julian.Valid 1 1 2 ∧ Julian.number 1 1 2 = 0 ∧
    fromJulian 1 1 2 = some (YMD.date ⟨1, 1, 1⟩) ∧ (YMD.date ⟨1, 1, 1⟩).getJulianDay = some (1, 1, 3) := by
  decide +kernel

/-- C12 at full strength for complete dates: offset adds exactly `a + 7 w` days or raises. -/
def OffsetAddsDays (t : YMD) (w a : Int) : Prop :=
  (1 ≤ t.number + a + 7 * w ∧ t.number + a + 7 * w ≤ maxDay →
    ∃ u : YMD, u.Valid ∧ u.number = t.number + a + 7 * w ∧ t.date.offset 0 0 0 w a = some u.date) ∧
  (¬ (1 ≤ t.number + a + 7 * w ∧ t.number + a + 7 * w ≤ maxDay) → t.date.offset 0 0 0 w a = none)

theorem C12_offset_days (t : YMD) (h : t.Valid) (w a : Int) (h0 : t.number + a + 7 * w ≠ 0) :
    OffsetAddsDays t w a := by
  have e : t.number + (a + 7 * w) = t.number + a + 7 * w := by omega
  unfold OffsetAddsDays
  rw [offset_complete h, e]
  refine ⟨?_, ?_⟩
  · rintro ⟨h1, h2⟩
    obtain ⟨u, hu, hn, e⟩ := mkDate_absolute_in h1 h2
    exact ⟨u, hu, hn, e⟩
  · intro hc
    exact mkDate_absolute_out h0 (by omega)

/-- Violation found: the day before 0001-01-01 is computed as 0001-01-01 itself instead of raising. -/
theorem C12_offset_violation : ¬ OffsetAddsDays ⟨1, 1, 1⟩ 0 (-1) := by
  intro h
  have := h.2 (by decide +kernel)
  revert this; decide +kernel

/-- C12: offsets compose and are undone by the opposite offset. -/
theorem C12_offset_compose (t u : YMD) (ht : t.Valid) (hu : u.Valid) (w a w' a' : Int)
    (h0 : t.number + a + 7 * w ≠ 0)
    (e : t.date.offset 0 0 0 w a = some u.date) :
    u.date.offset 0 0 0 w' a' = t.date.offset 0 0 0 (w + w') (a + a') ∧
    u.date.offset 0 0 0 (-w) (-a) = some t.date := by
  have key : u.number = t.number + a + 7 * w := by
    have hd := C12_offset_days t ht w a h0
    by_cases hr : 1 ≤ t.number + a + 7 * w ∧ t.number + a + 7 * w ≤ maxDay
    · obtain ⟨v, hv, hn, ev⟩ := hd.1 hr
      rw [e] at ev
      have : u.number = v.number := by
        have a1 := getAbsoluteDay_date hu
        have a2 := getAbsoluteDay_date hv
        rw [Option.some.inj ev, a2] at a1
        exact (Option.some.inj a1).symm
      omega
    · rw [hd.2 hr] at e; cases e
  rw [offset_complete hu, offset_complete ht, offset_complete hu, key]
  constructor
  · congr 3; omega
  · rw [show t.number + a + 7 * w + (-a + 7 * -w) = t.number by omega]
    exact (C07_absolute_day_bijection.2.1 t ht).2.2.2

/-- C12: with month precision the month count moves by exactly the amount asked, or the call raises
because the year leaves 1..9999. -/
theorem C12_offset_months (y m : Int) (hm : 1 ≤ m ∧ m ≤ 12) (centuries years months : Int) :
    ∃ y' m' : Int, 1 ≤ m' ∧ m' ≤ 12 ∧ 12 * y' + m' = 12 * y + m + months + 12 * years + 1200 * centuries ∧
      (monthDate y m).offset centuries years months 0 0 =
        if 1 ≤ y' ∧ y' ≤ 9999 then some (monthDate y' m') else none := by
  refine ⟨_, _, ?_, ?_, ?_, offset_month y m hm centuries years months⟩ <;> omega

theorem C12_offset_years (y centuries years : Int) :
    (yearDate y).offset centuries years 0 0 0 =
      if 1 ≤ y + years + 100 * centuries ∧ y + years + 100 * centuries ≤ 9999
      then some (yearDate (y + years + 100 * centuries)) else none := offset_year y centuries years

/-- C12: with week precision, the Mondays of the two weeks (as constructed by the API) are exactly
`7 * weeks` days apart, or the year leaves the range and the call raises. -/
theorem C12_offset_weeks (y w k : Int) (hy : 1 ≤ y ∧ y ≤ 9999) (hw : 1 ≤ w ∧ w ≤ weekCount y) :
    ∃ y' w' : Int, 1 ≤ w' ∧ w' ≤ weekCount y' ∧
      (weekDate y w).offset 0 0 0 k 0 = (if 1 ≤ y' ∧ y' ≤ 9999 then some (weekDate y' w') else none) ∧
      (1 ≤ y' ∧ y' ≤ 9999 → ∃ t u : YMD, t.Valid ∧ u.Valid ∧ t.InWeek y w ∧ t.weekday = 1 ∧
        u.InWeek y' w' ∧ u.weekday = 1 ∧ u.number = t.number + 7 * k) := by
  obtain ⟨y', w', h1, h2, h3, e⟩ := offset_week y w k
  refine ⟨y', w', h1, h2, e, fun hr => ?_⟩
  have num : ∀ (y w : Int) (t : YMD), t.Valid → t.InWeek y w → t.weekday = 1 → t.number = mon y w := by
    rintro y w t ht ⟨u, hu, hun, rfl, rfl⟩ hwd
    rw [hwd] at hun
    have nu := number_dby hu
    unfold YMD.weekday at hwd
    unfold mon
    generalize dby u.y = D at *
    omega
  rcases C10_week_dates y w 1 hy hw (by omega) with ⟨t, ht, hin, hwd, _⟩ | ⟨_, _, hbad⟩
  · rcases C10_week_dates y' w' 1 hr ⟨h1, h2⟩ (by omega) with ⟨u, hu, hin', hwd', _⟩ | ⟨_, _, hbad⟩
    · refine ⟨t, u, ht, hu, hin, hwd, hin', hwd', ?_⟩
      rw [num _ _ _ ht hin hwd, num _ _ _ hu hin' hwd', h3]
    · omega
  · omega

example : (weekDate 2009 53).offset 0 0 0 1 0 = some (weekDate 2010 1) ∧
    (monthDate 1999 11).offset 0 0 3 0 0 = some (monthDate 2000 2) ∧
    (YMD.date ⟨2000, 2, 28⟩).offset 0 0 0 1 (-6) = some (YMD.date ⟨2000, 2, 29⟩) := by decide +kernel

end Verif.Iso

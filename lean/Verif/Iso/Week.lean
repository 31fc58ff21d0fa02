import Verif.Iso.AbsDay
/-! # Weekdays and ISO weeks -/
namespace Verif.Iso

/-- Days before year `y`, as a formula. -/
def dby (y : Int) : Int := (y - 1) / 4 - (y - 1) / 100 + (y - 1) / 400 + (y - 1) * 365

theorem number_dby {t : YMD} (h : t.Valid) : t.number = dby t.y + t.ordinal := number_eq h

theorem dby_succ (y : Int) : dby (y + 1) = dby y + yearLen y := by
  unfold dby yearLen
  by_cases hl : Leap y
  · rw [if_pos hl]; unfold Leap at hl; omega
  · rw [if_neg hl]; unfold Leap at hl; omega

theorem dby_pred (y : Int) : dby y = dby (y - 1) + yearLen (y - 1) := by
  have := dby_succ (y - 1)
  rwa [Int.sub_add_cancel] at this

theorem yearLen_cases (y : Int) : (leapYear y = true ∧ yearLen y = 366) ∨ (leapYear y = false ∧ yearLen y = 365) := by
  have := leapYear_iff y
  unfold yearLen
  cases hb : leapYear y <;> rw [hb] at this <;> simp at this <;> simp [this]

theorem yearLen_if (y : Int) : (if leapYear y then (366 : Int) else 365) = yearLen y := by
  rcases yearLen_cases y with ⟨h, e⟩ | ⟨h, e⟩ <;> simp [h, e]

/-- `day_of_week` in terms of the ordinal formula. -/
theorem dayOfWeek_eq (y m d : Int) (h1 : 1 ≤ m) (h2 : m ≤ 12) :
    dayOfWeek y m d = (dby y + (monthOffset m + (if 2 < m ∧ Leap y then 1 else 0) + d) - 1) % 7 + 1 := by
  have hd := dby_succ y
  unfold dayOfWeek
  dsimp only
  have hl := leapYear_iff y
  generalize monthOffset m = mo
  have e : dby (y + 1) = y / 4 - y / 100 + y / 400 + y * 365 := by
    unfold dby; rw [Int.add_sub_cancel]
  rw [e] at hd
  unfold yearLen at hd
  by_cases hL : Leap y
  · rw [if_pos hL] at hd
    have : leapYear y = true := hl.2 hL
    by_cases h3 : m < 3
    · rw [if_pos ⟨h3, this⟩, if_neg (by omega)]; omega
    · rw [if_neg (by simp [h3]), if_pos ⟨by omega, hL⟩]; omega
  · rw [if_neg hL] at hd
    have : leapYear y = false := by cases hb : leapYear y; rfl; exact absurd (hl.1 hb) hL
    rw [if_neg (by simp [this]), if_neg (by simp [hL])]; omega

theorem dow_valid {t : YMD} (h : t.Valid) : dayOfWeek t.y t.m t.d = (t.number - 1) % 7 + 1 := by
  rw [dayOfWeek_eq _ _ _ h.2.2.1 h.2.2.2.1, number_dby h, ordinal_eq h]

theorem dow_jan1 (y : Int) : dayOfWeek y 1 1 = dby y % 7 + 1 := by
  rw [dayOfWeek_eq _ _ _ (by omega) (by omega), if_neg (by omega)]
  have : monthOffset 1 = 0 := rfl
  omega

theorem dow_jan4 (y : Int) : dayOfWeek y 1 4 = (dby y + 3) % 7 + 1 := by
  rw [dayOfWeek_eq _ _ _ (by omega) (by omega), if_neg (by omega)]
  have : monthOffset 1 = 0 := rfl
  omega

theorem weekCount_eq (y : Int) : weekCount y = if dby y % 7 = 3 ∨ (dby y % 7 = 2 ∧ yearLen y = 366) then 53 else 52 := by
  unfold weekCount
  dsimp only
  rw [dow_jan1]
  rcases yearLen_cases y with ⟨h, e⟩ | ⟨h, e⟩ <;> rw [h, e] <;>
    by_cases h1 : dby y % 7 = 3 <;> by_cases h2 : dby y % 7 = 2 <;> simp [h1, h2] <;> omega

/-- A year and an ordinal day in it give a valid date. -/
theorem exists_of_ordinal {y o : Int} (h1 : 1 ≤ y) (h2 : y ≤ 9999) (h3 : 1 ≤ o) (h4 : o ≤ yearLen y) :
    ∃ t : YMD, t.Valid ∧ t.y = y ∧ t.ordinal = o := by
  obtain ⟨t, hv, hy, ho, _⟩ := setFromOrdinal_spec h1 h2 h3 h4
  exact ⟨t, hv, hy, ho⟩

theorem number_range {t : YMD} (h : t.Valid) : 1 ≤ t.number ∧ t.number ≤ maxDay := by
  have ho := ordinal_range h
  have h1 := h.1
  have h2 := h.2.1
  rw [number_dby h]
  constructor
  · unfold dby; omega
  · have : dby (t.y + 1) ≤ maxDay := by unfold dby maxDay; omega
    rw [dby_succ] at this; omega

/-- The date of a day number. -/
theorem exists_of_number {n : Int} (h1 : 1 ≤ n) (h2 : n ≤ maxDay) : ∃ t : YMD, t.Valid ∧ t.number = n := by
  obtain ⟨t, hv, hn, _⟩ := mkDate_absolute_in h1 h2
  exact ⟨t, hv, hn⟩

/-- `get_week_day` of a complete date. -/
theorem getWeekDay_date {t : YMD} (h : t.Valid) : ∃ u : YMD, u.Valid ∧
    u.number = t.number + 4 - ((t.number - 1) % 7 + 1) ∧
    t.date.getWeekDay = some (u.y / 100, some (u.y % 100 / 10), some (u.y % 10),
      some ((u.ordinal - 1) / 7 + 1), some ((t.number - 1) % 7 + 1)) := by
  have hn := number_range h
  have hmax : ((t.number - 1) % 7 + 1) ≤ 7 := by omega
  obtain ⟨u, hu, hun⟩ := exists_of_number (n := t.number + 4 - ((t.number - 1) % 7 + 1))
    (by omega) (by unfold maxDay at *; omega)
  refine ⟨u, hu, hun, ?_⟩
  have hd : t.date.day = some t.d := rfl
  have hm : t.date.month = some t.m := rfl
  simp only [Date.getWeekDay, hd, hm, getOrdinalDay_date h, Option.bind_eq_bind, Option.bind_some,
    Option.pure_def]
  have hy : t.y % 100 + t.y / 100 * 100 = t.y := by omega
  rw [hy, yearLen_if, dow_valid h]
  generalize hwd : (t.number - 1) % 7 + 1 = wd at *
  have hnt := number_dby h
  have hnu := number_dby hu
  have ot := ordinal_range h
  have ou := ordinal_range hu
  have hyl : ∀ y, yearLen y = 365 ∨ yearLen y = 366 := fun y => by
    rcases yearLen_cases y with h | h
    · exact Or.inr h.2
    · exact Or.inl h.2
  have key : ∀ y' w' : Int, u.y = y' → (u.ordinal - 1) / 7 + 1 = w' →
      some (y' / 100, some (y' % 100 / 10), some (y' % 10), some w', some wd) =
      some (u.y / 100, some (u.y % 100 / 10), some (u.y % 10), some ((u.ordinal - 1) / 7 + 1), some wd) := by
    intro y' w' e1 e2; rw [← e1, ← e2]
  by_cases c1 : t.ordinal + 4 - wd < 1
  · rw [if_pos c1]
    have e := dby_pred t.y
    have huy : u.y = t.y - 1 := by
      have a := year_of_number (y1 := u.y) (o1 := u.ordinal) (y2 := t.y - 1) (o2 := yearLen (t.y - 1)) ou
        (by have := hyl (t.y - 1); omega) (by unfold dby at *; omega)
      have b := year_of_number (y2 := u.y) (o2 := u.ordinal) (y1 := t.y - 1) (o1 := yearLen (t.y - 1) - 3)
        (by have := hyl (t.y - 1); omega) ou (by unfold dby at *; omega)
      omega
    apply key _ _ huy
    rw [weekCount_eq, ← huy]
    rw [← huy] at e
    have := hyl u.y
    generalize dby u.y = D at *
    generalize dby t.y = D2 at *
    split <;> omega
  · rw [if_neg c1]
    by_cases c2 : t.ordinal + 4 - wd > yearLen t.y
    · rw [if_pos c2]
      have e := dby_succ t.y
      have huy : u.y = t.y + 1 := by
        have a := year_of_number (y2 := u.y) (o2 := u.ordinal) (y1 := t.y + 1) (o1 := 1)
          (by have := hyl (t.y + 1); omega) ou (by unfold dby at *; omega)
        have b := year_of_number (y1 := u.y) (o1 := u.ordinal) (y2 := t.y + 1) (o2 := 3) ou
          (by have := hyl (t.y + 1); omega) (by unfold dby at *; omega)
        omega
      apply key _ _ huy
      rw [← huy] at e
      generalize dby u.y = D at *
      generalize dby t.y = D2 at *
      omega
    · rw [if_neg c2]
      have huy : u.y = t.y := by
        have a := year_of_number (y1 := u.y) (o1 := u.ordinal) (y2 := t.y) (o2 := t.ordinal + 4 - wd) ou
          (by omega) (by unfold dby at *; omega)
        have b := year_of_number (y2 := u.y) (o2 := u.ordinal) (y1 := t.y) (o1 := t.ordinal + 4 - wd)
          (by omega) ou (by unfold dby at *; omega)
        omega
      apply key _ _ huy
      rw [dow_jan4]
      rw [huy] at hnu
      generalize dby t.y = D at *
      omega

/-- The month loop on a valid date's ordinal. -/
theorem monthLoop_date {t : YMD} (h : t.Valid) : monthLoop (sizes (leapYear t.y)) 1 t.ordinal = (t.m, t.d) := by
  have := setFromOrdinal_date h
  simp only [setFromOrdinalDay, Option.bind_eq_bind, Option.bind_some, Option.pure_def, Option.some.injEq, leapCY_eq,
    YMD.date, Date.mk.injEq] at this
  obtain ⟨_, _, h1, _, h2⟩ := this
  generalize monthLoop (sizes (leapYear t.y)) 1 t.ordinal = p at *
  rcases p with ⟨a, b⟩
  simp at h1 h2 ⊢
  exact ⟨h1, h2⟩

/-- Conversion of a week date: the day numbered `Jan 4's Monday + 7 (w - 1) + (wd - 1)`. -/
theorem weekToCalendar_date {c y w wd : Int} {t : YMD} (h : t.Valid) (hw : w ≤ weekCount (c * 100 + y)) (hw1 : 0 ≤ w)
    (hwd : 1 ≤ wd ∧ wd ≤ 7)
    (hn : t.number = dby (c * 100 + y) + 4 - ((dby (c * 100 + y) + 3) % 7 + 1) + (w - 1) * 7 + wd) :
    weekToCalendar c y w wd = some t.date := by
  unfold weekToCalendar
  dsimp only
  rw [if_neg (by omega)]
  rw [dow_jan4]
  simp only [yearLen_if]
  generalize hY : c * 100 + y = Y at *
  have hnt := number_dby h
  have ot := ordinal_range h
  have hyl : ∀ y, yearLen y = 365 ∨ yearLen y = 366 := fun y => by
    rcases yearLen_cases y with h | h
    · exact Or.inr h.2
    · exact Or.inl h.2
  have hw53 : w ≤ 53 := by
    rw [weekCount_eq] at hw; split at hw <;> omega
  have fin : ∀ (y' o' : Int), t.y = y' → t.ordinal = o' →
      some ({ century := y' / 100, year := some (y' % 100),
              month := some (monthLoop (sizes (leapYear y')) 1 o').1, week := none,
              day := some (monthLoop (sizes (leapYear y')) 1 o').2 } : Date) = some t.date := by
    intro y' o' e1 e2
    subst e1 e2
    rw [monthLoop_date h]; rfl
  by_cases c1 : 4 - ((dby Y + 3) % 7 + 1) + (w - 1) * 7 + wd < 1
  · rw [if_pos c1]
    have e := dby_pred Y
    have := hyl (Y - 1)
    have hy : t.y = Y - 1 := by
      have a := year_of_number (y1 := t.y) (o1 := t.ordinal) (y2 := Y - 1) (o2 := yearLen (Y - 1)) ot
        (by omega) (by unfold dby at *; omega)
      have b := year_of_number (y2 := t.y) (o2 := t.ordinal) (y1 := Y - 1) (o1 := yearLen (Y - 1) - 15)
        (by omega) ot (by unfold dby at *; omega)
      omega
    apply fin _ _ hy
    rw [← hy] at e this ⊢
    generalize dby Y = D at *
    omega
  · rw [if_neg c1]
    by_cases c2 : 4 - ((dby Y + 3) % 7 + 1) + (w - 1) * 7 + wd > yearLen Y
    · rw [if_pos c2]
      have e := dby_succ Y
      have := hyl (Y + 1)
      have hylY := hyl Y
      have hy : t.y = Y + 1 := by
        have a := year_of_number (y2 := t.y) (o2 := t.ordinal) (y1 := Y + 1) (o1 := 1)
          (by omega) ot (by unfold dby at *; omega)
        have b := year_of_number (y1 := t.y) (o1 := t.ordinal) (y2 := Y + 1) (o2 := 20) ot
          (by omega) (by unfold dby at *; omega)
        omega
      apply fin _ _ hy
      rw [hy] at hnt
      generalize dby (Y + 1) = D2 at *
      generalize dby Y = D at *
      omega
    · rw [if_neg c2]
      have hy : t.y = Y := by
        have a := year_of_number (y1 := t.y) (o1 := t.ordinal) (y2 := Y) (o2 := t.number - dby Y) ot
          (by omega) (by unfold dby at *; omega)
        have b := year_of_number (y2 := t.y) (o2 := t.ordinal) (y1 := Y) (o1 := t.number - dby Y)
          (by omega) ot (by unfold dby at *; omega)
        omega
      apply fin _ _ hy
      rw [hy] at hnt
      omega

/-- Constructor with a full week date. -/
theorem mkDate_week {c dec y w wd : Int} {t : YMD} (h : t.Valid) (hdec : 0 ≤ dec ∧ dec ≤ 9) (hy : 0 ≤ y ∧ y ≤ 9)
    (hw : w ≤ weekCount (c * 100 + (dec * 10 + y))) (hw1 : 0 ≤ w) (hwd : 1 ≤ wd ∧ wd ≤ 7)
    (hn : t.number = dby (c * 100 + (dec * 10 + y)) + 4 - ((dby (c * 100 + (dec * 10 + y)) + 3) % 7 + 1) +
      (w - 1) * 7 + wd) :
    mkDate { century := some c, decade := some dec, year := some y, week := some w, weekday := some wd } =
      some t.date := by
  have hwd0 : wd ≠ 0 := by omega
  have hw53 : w ≤ 53 := by
    rw [weekCount_eq] at hw; split at hw <;> omega
  have e := weekToCalendar_date (c := c) (y := dec * 10 + y) h hw hw1 hwd hn
  simp only [mkDate, truthy, hwd0, ne_eq, Bool.false_eq_true, if_false,
    decide_true, or_true, if_true, setFromWeekDay, not_false_eq_true]
  rw [if_neg (by omega), if_neg (by omega), if_neg (by omega), if_neg (by omega)]
  simp only [Option.bind_eq_bind, Option.bind_some, Option.pure_def, e, checkDate_date h]

end Verif.Iso

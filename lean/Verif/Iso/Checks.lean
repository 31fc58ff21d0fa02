import Verif.Iso.Truncated
/-! # Property C37: which dates the constructor accepts; C36 for week dates -/
namespace Verif.Iso

/-- C37, calendar forms: with century and year given (`y` is the full year), exactly the valid years,
months and days are accepted, and the object has these components. -/
theorem C37_calendar (c y m d : Int) :
    (mkDate { century := some c } = if 0 ≤ c ∧ c ≤ 99 then some ⟨c, none, none, none, none⟩ else none) ∧
    (mkDate { century := some c, year := some y } =
      if 0 ≤ y ∧ y ≤ 99 ∧ 1 ≤ 100 * c + y ∧ 100 * c + y ≤ 9999 then some (yearDate (100 * c + y)) else none) ∧
    (mkDate { century := some c, year := some y, month := some m } =
      if 0 ≤ y ∧ y ≤ 99 ∧ 1 ≤ 100 * c + y ∧ 100 * c + y ≤ 9999 ∧ 1 ≤ m ∧ m ≤ 12
      then some (monthDate (100 * c + y) m) else none) ∧
    (mkDate { century := some c, year := some y, month := some m, day := some d } =
      if 0 ≤ y ∧ y ≤ 99 ∧ YMD.Valid ⟨100 * c + y, m, d⟩ then some (YMD.date ⟨100 * c + y, m, d⟩) else none) := by
  refine ⟨?_, ?_, ?_, ?_⟩
  · simp only [mkDate, truthy, Bool.false_eq_true, if_false, or_self, Option.isNone_some, false_and,
      setFromCalendarDay, Option.bind_eq_bind, Option.bind_some, checkDate]
    by_cases h : 0 ≤ c ∧ c ≤ 99
    · rw [if_pos h, if_neg (by omega)]
    · rw [if_neg h, if_pos (by omega)]
  · by_cases hy : 0 ≤ y ∧ y ≤ 99
    · rw [mkDate_yearPrec c y hy]; simp [hy.1, hy.2]
    · rw [if_neg (by omega)]
      simp only [mkDate, truthy, Bool.false_eq_true, if_false, or_self, Option.isNone_some, false_and,
        setFromCalendarDay, Option.bind_eq_bind, Option.bind_some, checkDate]
      by_cases h : c < 0 ∨ c > 99
      · rw [if_pos h]
      · rw [if_neg h, if_pos (by omega)]
  · by_cases hy : 0 ≤ y ∧ y ≤ 99
    · by_cases hm : 1 ≤ m ∧ m ≤ 12
      · rw [mkDate_monthPrec c y m hy hm]; simp [hy.1, hy.2, hm.1, hm.2]
      · rw [if_neg (by omega)]
        simp only [mkDate, truthy, Bool.false_eq_true, if_false, or_self, Option.isNone_some, false_and,
          setFromCalendarDay, Option.bind_eq_bind, Option.bind_some, checkDate, checkDate.checkMonth]
        by_cases h : c < 0 ∨ c > 99
        · rw [if_pos h]
        · rw [if_neg h, if_neg (by omega)]
          by_cases h2 : y = 0 ∧ c = 0
          · rw [if_pos h2]
          · rw [if_neg h2, if_pos (by omega)]
    · rw [if_neg (by omega)]
      simp only [mkDate, truthy, Bool.false_eq_true, if_false, or_self, Option.isNone_some, false_and,
        setFromCalendarDay, Option.bind_eq_bind, Option.bind_some, checkDate]
      by_cases h : c < 0 ∨ c > 99
      · rw [if_pos h]
      · rw [if_neg h, if_pos (by omega)]
  · rw [← checkDate_complete]
    simp [mkDate, truthy, setFromCalendarDay]

/-- C37, week forms: a week of a week-year is accepted exactly when the year has that week (for `w ≠ 0`). -/
theorem C37_week_precision (c dec y w : Int) (hw0 : w ≠ 0) :
    mkDate { century := some c, decade := some dec, year := some y, week := some w } =
      if 0 ≤ dec ∧ dec ≤ 9 ∧ 0 ≤ y ∧ y ≤ 9 ∧ 1 ≤ 100 * c + 10 * dec + y ∧ 100 * c + 10 * dec + y ≤ 9999 ∧
        1 ≤ w ∧ w ≤ weekCount (100 * c + 10 * dec + y)
      then some (weekDate (100 * c + 10 * dec + y) w) else none := by
  have key : mkDate { century := some c, decade := some dec, year := some y, week := some w } =
      if w < 0 ∨ w > 53 then none else if y < 0 ∨ y > 9 then none else if dec < 0 ∨ dec > 9 then none
      else checkDate ⟨c, some (dec * 10 + y), none, some w, none⟩ := by
    simp only [mkDate, truthy, hw0, ne_eq, not_false_eq_true, decide_true, Bool.false_eq_true, if_false,
      true_or, or_true, if_true, setFromWeekDay, Option.isNone_some]
    by_cases h1 : w < 0 ∨ w > 53
    · simp [h1]
    · by_cases h2 : y < 0 ∨ y > 9
      · simp [h1, h2]
      · by_cases h3 : dec < 0 ∨ dec > 9
        · simp [h1, h2, h3]
        · simp [h1, h2, h3]
  rw [key]
  have hr := weekCount_range (100 * c + 10 * dec + y)
  by_cases h1 : w < 0 ∨ w > 53
  · rw [if_pos h1, if_neg (by omega)]
  by_cases h2 : y < 0 ∨ y > 9
  · rw [if_neg h1, if_pos h2, if_neg (by omega)]
  by_cases h3 : dec < 0 ∨ dec > 9
  · rw [if_neg h1, if_neg h2, if_pos h3, if_neg (by omega)]
  rw [if_neg h1, if_neg h2, if_neg h3]
  unfold checkDate
  dsimp only
  by_cases h4 : c < 0 ∨ c > 99
  · rw [if_pos h4, if_neg (by omega)]
  rw [if_neg h4, if_neg (by omega)]
  by_cases h5 : dec * 10 + y = 0 ∧ c = 0
  · rw [if_pos h5, if_neg (by omega)]
  rw [if_neg h5, if_pos hw0]
  rw [show c * 100 + (dec * 10 + y) = 100 * c + 10 * dec + y by omega]
  by_cases h6 : w < 1 ∨ w > weekCount (100 * c + 10 * dec + y)
  · rw [if_pos h6, if_neg (by omega)]
  rw [if_neg h6, if_neg (by simp)]
  rw [if_pos (by omega)]
  simp only [weekDate, Option.some.injEq, Date.mk.injEq]
  refine ⟨by omega, by omega, trivial, trivial, trivial⟩

/-- C37: `week_count` bounds weeks of week dates with a weekday too: a week the year does not have raises. -/
theorem C37_week_too_large (c dec y w wd : Int) (hwd : wd ≠ 0) (hw : w > weekCount (100 * c + 10 * dec + y)) :
    mkDate { century := some c, decade := some dec, year := some y, week := some w, weekday := some wd } = none := by
  simp only [mkDate, truthy, hwd, ne_eq, not_false_eq_true, decide_true, Bool.false_eq_true, if_false,
    true_or, or_true, if_true, setFromWeekDay]
  by_cases h0 : wd ≤ 0 ∨ wd > 7
  · simp [h0]
  by_cases h1 : w < 0 ∨ w > 53
  · simp [h0, h1]
  by_cases h2 : y < 0 ∨ y > 9
  · simp [h0, h1, h2]
  by_cases h3 : dec < 0 ∨ dec > 9
  · simp [h0, h1, h2, h3]
  have e : 100 * c + 10 * dec + y = c * 100 + (dec * 10 + y) := by omega
  rw [e] at hw
  simp [h0, h1, h2, h3, weekToCalendar, hw]

/-- Violations found: the constructor accepts week 0 both with week precision and, with a weekday, as
the week before week 1; a day without a month; a month without a year. -/
theorem C37_violations :
    mkDate { century := some 20, decade := some 1, year := some 0, week := some 0 } = some (weekDate 2010 0) ∧
    mkDate { century := some 20, decade := some 1, year := some 0, week := some 0, weekday := some 1 } =
      some (YMD.date ⟨2009, 12, 28⟩) ∧
    mkDate { century := some 20, year := some 10, day := some 77 } = some ⟨20, some 10, none, none, some 77⟩ ∧
    mkDate { century := some 20, month := some 77 } = some ⟨20, none, some 77, none, none⟩ := by
  decide +kernel

/-! ## C36 for week dates -/

theorem inWeek_exists {t : YMD} (h : t.Valid) : ∃ y w, t.InWeek y w ∧ 1 ≤ w ∧ w ≤ weekCount y ∧ 1 ≤ y ∧ y ≤ 9999 := by
  obtain ⟨y, w, h1, h2, h3, h4, h5, _⟩ := C10_week_round_trip t h
  exact ⟨y, w, h1, h2, h3, h4, h5⟩

theorem inWeek_facts {t : YMD} {y w : Int} (h : t.InWeek y w) :
    t.number = mon y w + t.weekday - 1 ∧ 1 ≤ w ∧ w ≤ weekCount y ∧ 1 ≤ y ∧ y ≤ 9999 ∧ 1 ≤ t.weekday ∧ t.weekday ≤ 7 := by
  obtain ⟨u, hu, hun, rfl, rfl⟩ := h
  have nu := number_dby hu
  have ou := ordinal_range hu
  have hwd : t.weekday = (t.number - 1) % 7 + 1 := rfl
  refine ⟨?_, by omega, ?_, hu.1, hu.2.1, by omega, by omega⟩
  · unfold mon; generalize dby u.y = D at *; omega
  · rw [weekCount_eq]
    rcases yearLen_cases u.y with ⟨_, e⟩ | ⟨_, e⟩ <;> rw [e] at ou ⊢ <;>
      generalize dby u.y = D at * <;> split <;> omega

theorem mon_mono {y y' w w' : Int} (hy : y < y') (hw : w ≤ weekCount y) (hw' : 1 ≤ w') : mon y w + 7 ≤ mon y' w' := by
  obtain ⟨k, hk⟩ : ∃ k : Nat, y' = y + 1 + k := ⟨(y' - y - 1).toNat, by omega⟩
  subst hk
  have step : ∀ (z : Int), mon (z + 1) 1 ≥ mon z 1 + 7 := by
    intro z
    rw [mon_succ]
    have := weekCount_range z
    unfold mon; omega
  have base : ∀ k : Nat, mon (y + 1 + k) 1 ≥ mon (y + 1) 1 := by
    intro k
    induction k with
    | zero => simp
    | succ k ih =>
      have := step (y + 1 + k)
      rw [show y + 1 + ((k + 1 : Nat) : Int) = y + 1 + (k : Int) + 1 by omega]
      omega
  have h1 := base k
  have h2 : mon (y + 1) 1 = mon y (1 + weekCount y) := mon_succ y 1
  have h3 : mon (y + 1 + k) w' ≥ mon (y + 1 + k) 1 := by unfold mon; omega
  have h4 : mon y (1 + weekCount y) ≥ mon y w + 7 := by unfold mon; omega
  omega

/-- Lexicographic order of week dates. -/
def wlt (y w wd y' w' wd' : Int) : Prop := y < y' ∨ (y = y' ∧ (w < w' ∨ (w = w' ∧ wd < wd')))

theorem number_lt_week {s t : YMD} {y w y' w' : Int} (hs : s.InWeek y w) (ht : t.InWeek y' w') :
    s.number < t.number ↔ wlt y w s.weekday y' w' t.weekday := by
  have fs := inWeek_facts hs
  have ft := inWeek_facts ht
  unfold wlt
  constructor
  · intro h
    rcases Int.lt_trichotomy y y' with h1 | h1 | h1
    · exact Or.inl h1
    · subst h1
      right; refine ⟨rfl, ?_⟩
      have e1 := fs.1; have e2 := ft.1
      unfold mon at e1 e2; omega
    · have := mon_mono h1 ft.2.2.1 fs.2.1
      omega
  · rintro (h | ⟨rfl, h⟩)
    · have := mon_mono h fs.2.2.1 ft.2.1
      omega
    · have e1 := fs.1; have e2 := ft.1
      unfold mon at e1 e2; omega

theorem inWeek_inj {s t : YMD} {y w : Int} (hs : s.Valid) (ht : t.Valid) (h1 : s.InWeek y w) (h2 : t.InWeek y w)
    (h : s.weekday = t.weekday) : s = t := by
  apply number_inj hs ht
  rw [(inWeek_facts h1).1, (inWeek_facts h2).1, h]

theorem inWeek_unique {t : YMD} {y w y' w' : Int} (h1 : t.InWeek y w) (h2 : t.InWeek y' w') : y = y' ∧ w = w' := by
  have a := number_lt_week h1 h2
  have b := number_lt_week h2 h1
  unfold wlt at a b
  omega

/-- Constructor at a given week date: the date, or none when there is no such date. -/
theorem weekToCalendar_check (c y w wd : Int) (hw : 1 ≤ w) (hwd : 1 ≤ wd ∧ wd ≤ 7) (hpos : 1 ≤ c * 100 + y) :
    (∀ t : YMD, t.Valid → t.InWeek (c * 100 + y) w → t.weekday = wd →
      (weekToCalendar c y w wd).bind checkDate = some t.date) ∧
    ((∀ t : YMD, t.Valid → t.InWeek (c * 100 + y) w → t.weekday = wd → False) →
      (weekToCalendar c y w wd).bind checkDate = none) := by
  constructor
  · intro t ht hin hwk
    have f := inWeek_facts hin
    rw [weekToCalendar_date ht f.2.2.1 (by omega) hwd (by rw [f.1, hwk]; unfold mon; omega), Option.bind_some,
      checkDate_date ht]
  · intro hno
    by_cases hc : w > weekCount (c * 100 + y)
    · simp [weekToCalendar, hc]
    · -- the day lies beyond 9999-12-31
      by_cases hY : c * 100 + y ≤ 9999
      · rcases C10_week_dates (c * 100 + y) w wd ⟨hpos, hY⟩ ⟨hw, by omega⟩ hwd with ⟨t, h1, h2, h3, _⟩ | ⟨h1, h2, h3⟩
        · exact (hno t h1 h2 h3).elim
        · have hwd67 : wd = 6 ∨ wd = 7 := by omega
          unfold weekToCalendar
          rw [h1, h2]
          rcases hwd67 with rfl | rfl <;> decide +kernel
      · -- years from 10000 on
        unfold weekToCalendar
        dsimp only
        rw [if_neg hc, dow_jan4]
        simp only [yearLen_if]
        have wc := weekCount_range (c * 100 + y)
        have fin : ∀ (y' o' : Int), 10000 ≤ y' →
            (some ({ century := y' / 100, year := some (y' % 100),
                     month := some (monthLoop (sizes (leapYear y')) 1 o').1, week := none,
                     day := some (monthLoop (sizes (leapYear y')) 1 o').2 } : Date)).bind checkDate = none := by
          intro y' o' h
          rw [Option.bind_some]
          unfold checkDate
          rw [if_pos (by simp only; omega)]
        by_cases c1 : 4 - ((dby (c * 100 + y) + 3) % 7 + 1) + (w - 1) * 7 + wd < 1
        · rw [if_pos c1]
          apply fin
          have : c * 100 + y ≠ 10000 := by
            intro e
            rw [e] at c1
            have : dby 10000 = 3652059 := by decide
            omega
          simp only; omega
        · rw [if_neg c1]
          by_cases c2 : 4 - ((dby (c * 100 + y) + 3) % 7 + 1) + (w - 1) * 7 + wd > yearLen (c * 100 + y)
          · rw [if_pos c2]; apply fin; simp only; omega
          · rw [if_neg c2]; apply fin; simp only; omega

theorem resolveW {b : YMD} {P near : YMD → Prop} {r : Option Date} {by_ bw : Int} (hb : b.InWeek by_ bw)
    (cy cw cd : Int)
    (hr : (∀ t : YMD, t.Valid → t.InWeek cy cw → t.weekday = cd → r = some t.date) ∧
      ((∀ t : YMD, t.Valid → t.InWeek cy cw → t.weekday = cd → False) → r = none))
    (hge : ¬ wlt cy cw cd by_ bw b.weekday)
    (hP : ∀ t : YMD, t.Valid → t.InWeek cy cw → t.weekday = cd → P t)
    (hmin : ∀ (u : YMD) (y w : Int), u.Valid → u.InWeek y w → ¬ wlt y w u.weekday by_ bw b.weekday → P u →
      ¬ wlt y w u.weekday cy cw cd)
    (hnear : ∀ (u : YMD) (y w : Int), u.Valid → u.InWeek y w → ¬ wlt y w u.weekday by_ bw b.weekday → P u → near u →
      ∃ s : YMD, s.Valid ∧ s.InWeek cy cw ∧ s.weekday = cd) :
    Resolves b P near r := by
  have conv : ∀ (u : YMD) (y w : Int), u.InWeek y w → (b.number ≤ u.number ↔ ¬ wlt y w u.weekday by_ bw b.weekday) := by
    intro u y w hu
    rw [← number_lt_week hu hb]; omega
  constructor
  · intro x e
    by_cases hex : ∃ t : YMD, t.Valid ∧ t.InWeek cy cw ∧ t.weekday = cd
    · obtain ⟨t, ht, h1, h2⟩ := hex
      refine ⟨t, ⟨ht, (conv t _ _ h1).2 (by rw [h2]; exact hge), hP t ht h1 h2, fun u hu hbu hPu => ?_⟩, ?_⟩
      · obtain ⟨y, w, hin, _⟩ := inWeek_exists hu
        have := hmin u y w hu hin ((conv u _ _ hin).1 hbu) hPu
        have h3 := number_lt_week hin h1
        rw [h2] at h3
        have : ¬ u.number < t.number := by rw [h3]; exact this
        omega
      · rw [hr.1 t ht h1 h2] at e; exact (Option.some.inj e).symm
    · rw [hr.2 (fun t ht h1 h2 => hex ⟨t, ht, h1, h2⟩)] at e; cases e
  · rintro t ⟨hv, hge', hPt, hmint⟩ hn
    obtain ⟨y, w, hin, _⟩ := inWeek_exists hv
    have hge2 := (conv t _ _ hin).1 hge'
    obtain ⟨s, hs, e1, e2⟩ := hnear t y w hv hin hge2 hPt hn
    have l1 := hmint s hs ((conv s _ _ e1).2 (by rw [e2]; exact hge)) (hP s hs e1 e2)
    have l2 := hmin t y w hv hin hge2 hPt
    rw [← e2, ← number_lt_week hin e1] at l2
    have : t = s := number_inj hv hs (by omega)
    subst this
    exact hr.1 t hv e1 e2

/-- A week date before an existing date exists. -/
theorem exists_cand {u : YMD} {y w cy cw cd : Int} (hu : u.Valid) (hin : u.InWeek y w)
    (hle : ¬ wlt y w u.weekday cy cw cd) (h1 : 1 ≤ cy) (hw : 1 ≤ cw ∧ cw ≤ weekCount cy) (hwd : 1 ≤ cd ∧ cd ≤ 7) :
    ∃ s : YMD, s.Valid ∧ s.InWeek cy cw ∧ s.weekday = cd := by
  have f := inWeek_facts hin
  have hcy : cy ≤ 9999 := by unfold wlt at hle; omega
  rcases C10_week_dates cy cw cd ⟨h1, hcy⟩ hw hwd with ⟨s, a, b, c, _⟩ | ⟨e1, e2, e3⟩
  · exact ⟨s, a, b, c⟩
  · exfalso
    have w9 : weekCount 9999 = 52 := by decide
    subst e1 e2
    have hy : y = 9999 := by unfold wlt at hle; omega
    subst hy
    have hw52 : w = 52 := by unfold wlt at hle; omega
    subst hw52
    have hm : mon 9999 52 = 3652055 := by decide
    have := (number_range hu).2
    unfold wlt maxDay at *
    omega

theorem addWeek_eq (y w : Int) (h : 1 ≤ y ∧ y ≤ 9999) (hw : w ≤ weekCount y) :
    addWeek (y / 100) (y % 100) w = if w = weekCount y then
      (if y = 9999 then none else some ((y + 1) / 100, (y + 1) % 100, 1)) else some (y / 100, y % 100, w + 1) := by
  unfold addWeek
  rw [cy]
  by_cases c : w ≥ weekCount y
  · rw [if_pos c, if_pos (by omega), addYear_eq y h]
    by_cases c2 : y = 9999
    · simp [c2]
    · simp [c2]
  · rw [if_neg c, if_neg (by omega)]

/-- C36, weekday (`-W-D`). -/
theorem C36_weekday (b : YMD) (hb : b.Valid) (wd : Int) (hwd : 1 ≤ wd ∧ wd ≤ 7) :
    Resolves b (fun u => u.weekday = wd) (fun _ => True)
      (mkDate { base := some b.date, weekday := some wd }) := by
  have hbc : b.date.complete = true := rfl
  have hwd0 : wd ≠ 0 := by omega
  obtain ⟨y, w, hin, h1, h2, h3, h4, hg, _⟩ := C10_week_round_trip b hb
  have hyy : y % 100 / 10 * 10 + y % 10 = y % 100 := by omega
  have e : mkDate { base := some b.date, weekday := some wd } =
      (if wd < b.weekday then addWeek (y / 100) (y % 100) w else some (y / 100, y % 100, w)).bind
        (fun p => (weekToCalendar p.1 p.2.1 p.2.2 wd).bind checkDate) := by
    simp only [mkDate, truthy, hwd0, ne_eq, not_false_eq_true, decide_true, Bool.false_eq_true, if_false,
      true_or, or_true, if_true, setFromWeekDay]
    rw [if_neg (by omega)]
    by_cases c : wd < b.weekday <;> simp [hbc, hg, hyy, c, Option.bind_assoc]
  rw [e]
  have fb := inWeek_facts hin
  by_cases c : wd < b.weekday
  · rw [if_pos c, addWeek_eq y w ⟨h3, h4⟩ h2]
    by_cases c2 : w = weekCount y
    · rw [if_pos c2]
      refine resolveW hin (y + 1) 1 wd ?_ ?_ (fun _ _ _ h => h) ?_ ?_
      · by_cases c3 : y = 9999
        · rw [if_pos c3]
          refine ⟨fun t ht hi _ => ?_, fun _ => rfl⟩
          have := (inWeek_facts hi).2.2.2.2.1; omega
        · rw [if_neg c3, Option.bind_some]
          have := weekToCalendar_check ((y + 1) / 100) ((y + 1) % 100) 1 wd (by omega) hwd (by omega)
          rwa [cy] at this
      · unfold wlt; omega
      · intro u y' w' hu hi hge hP
        have := inWeek_facts hi
        unfold wlt at *
        have hcase : y' = y → w' ≤ weekCount y := by intro e; rw [← e]; exact this.2.2.1
        omega
      · intro u y' w' hu hi hge hP _
        have f := inWeek_facts hi
        refine exists_cand hu hi ?_ (by omega) ⟨by omega, by have := weekCount_range (y + 1); omega⟩ hwd
        unfold wlt at *
        have hcase : y' = y → w' ≤ weekCount y := by intro e; rw [← e]; exact f.2.2.1
        omega
    · rw [if_neg c2, Option.bind_some]
      refine resolveW hin y (w + 1) wd ?_ ?_ (fun _ _ _ h => h) ?_ ?_
      · have := weekToCalendar_check (y / 100) (y % 100) (w + 1) wd (by omega) hwd (by omega)
        rwa [cy] at this
      · unfold wlt; omega
      · intro u y' w' hu hi hge hP
        have := inWeek_facts hi
        unfold wlt at *; omega
      · intro u y' w' hu hi hge hP _
        have f := inWeek_facts hi
        refine exists_cand hu hi ?_ (by omega) ⟨by omega, by omega⟩ hwd
        unfold wlt at *
        omega
  · rw [if_neg c, Option.bind_some]
    refine resolveW hin y w wd ?_ ?_ (fun _ _ _ h => h) ?_ ?_
    · have := weekToCalendar_check (y / 100) (y % 100) w wd (by omega) hwd (by omega)
      rwa [cy] at this
    · unfold wlt; omega
    · intro u y' w' hu hi hge hP
      have := inWeek_facts hi
      unfold wlt at *; omega
    · intro u y' w' hu hi hge hP _
      have f := inWeek_facts hi
      refine exists_cand hu hi ?_ (by omega) ⟨by omega, by omega⟩ hwd
      unfold wlt at *
      omega

/-- C36, week and weekday (`-WwwD`). -/
theorem C36_week_weekday (b : YMD) (hb : b.Valid) (w wd : Int) (hw : 1 ≤ w) (hwd : 1 ≤ wd ∧ wd ≤ 7) :
    Resolves b (fun u => u.weekday = wd ∧ ∃ y, u.InWeek y w)
      (fun t => ∃ y by_ bw, t.InWeek y w ∧ b.InWeek by_ bw ∧
        (y = by_ ∨ ((w < bw ∨ (w = bw ∧ wd < b.weekday)) ∧ y = by_ + 1)))
      (mkDate { base := some b.date, week := some w, weekday := some wd }) := by
  have hbc : b.date.complete = true := rfl
  have hwd0 : wd ≠ 0 := by omega
  obtain ⟨y, bw, hin, h1, h2, h3, h4, hg, _⟩ := C10_week_round_trip b hb
  have hyy : y % 100 / 10 * 10 + y % 10 = y % 100 := by omega
  have fb := inWeek_facts hin
  by_cases hw53 : w ≤ 53
  · have e : mkDate { base := some b.date, week := some w, weekday := some wd } =
        (if w < bw ∨ (w = bw ∧ wd < b.weekday) then addYear (y / 100) (y % 100) else some (y / 100, y % 100)).bind
          (fun p => (weekToCalendar p.1 p.2 w wd).bind checkDate) := by
      simp only [mkDate, truthy, hwd0, ne_eq, not_false_eq_true, decide_true, Bool.false_eq_true, if_false,
        or_true, if_true, setFromWeekDay]
      rw [if_neg (by omega), if_neg (by omega)]
      by_cases c : w < bw ∨ (w = bw ∧ wd < b.weekday) <;> simp [hbc, hg, hyy, c, Option.bind_assoc]
    rw [e]
    by_cases c : w < bw ∨ (w = bw ∧ wd < b.weekday)
    · rw [if_pos c, addYear_eq y ⟨h3, h4⟩]
      refine resolveW hin (y + 1) w wd ?_ ?_ (fun _ _ h1 h => ⟨h, _, h1⟩) ?_ ?_
      · by_cases c3 : y = 9999
        · rw [if_pos c3]
          refine ⟨fun t ht hi _ => ?_, fun _ => rfl⟩
          have := (inWeek_facts hi).2.2.2.2.1; omega
        · rw [if_neg c3, Option.bind_some]
          have := weekToCalendar_check ((y + 1) / 100) ((y + 1) % 100) w wd (by omega) hwd (by omega)
          rwa [cy] at this
      · unfold wlt; omega
      · rintro u y' w' hu hi hge ⟨hP, z, hz⟩
        have := inWeek_unique hi hz
        unfold wlt at *
        omega
      · rintro u y' w' hu hi hge ⟨hP, _⟩ ⟨z, bz, bwz, hz, hbz, hn⟩
        have e1 := inWeek_unique hi hz
        have e2 := inWeek_unique hin hbz
        refine ⟨u, hu, ?_, hP⟩
        have : y' = y + 1 := by unfold wlt at hge; omega
        rw [← this, ← e1.2]; exact hi
    · rw [if_neg c, Option.bind_some]
      refine resolveW hin y w wd ?_ ?_ (fun _ _ h1 h => ⟨h, _, h1⟩) ?_ ?_
      · have := weekToCalendar_check (y / 100) (y % 100) w wd (by omega) hwd (by omega)
        rwa [cy] at this
      · unfold wlt; omega
      · rintro u y' w' hu hi hge ⟨hP, z, hz⟩
        have := inWeek_unique hi hz
        unfold wlt at *
        omega
      · rintro u y' w' hu hi hge ⟨hP, _⟩ ⟨z, bz, bwz, hz, hbz, hn⟩
        have e1 := inWeek_unique hi hz
        have e2 := inWeek_unique hin hbz
        refine ⟨u, hu, ?_, hP⟩
        have : y' = y := by unfold wlt at hge; omega
        rw [← this, ← e1.2]; exact hi
  · have e : mkDate { base := some b.date, week := some w, weekday := some wd } = none := by
      simp only [mkDate, truthy, hwd0, ne_eq, not_false_eq_true, decide_true, Bool.false_eq_true, if_false,
        or_true, if_true, setFromWeekDay]
      rw [if_neg (by omega), if_pos (by omega)]
      rfl
    rw [e]
    constructor
    · intro x h; cases h
    · rintro t ⟨_, _, ⟨_, z, hz⟩, _⟩ _
      have := inWeek_facts hz
      have := weekCount_range z
      omega

/-- C36, year in decade, week and weekday (`-YWwwD`). -/
theorem C36_decade_year_week_weekday (b : YMD) (hb : b.Valid) (yy w wd : Int) (hyy : 0 ≤ yy ∧ yy ≤ 9)
    (hw : 1 ≤ w ∧ w ≤ 53) (hwd : 1 ≤ wd ∧ wd ≤ 7) :
    Resolves b (fun u => u.weekday = wd ∧ ∃ y, u.InWeek y w ∧ y % 10 = yy)
      (fun t => ∃ y by_ bw, t.InWeek y w ∧ b.InWeek by_ bw ∧ (y / 10 = by_ / 10 ∨
        ((yy < by_ % 10 ∨ (yy = by_ % 10 ∧ (w < bw ∨ (w = bw ∧ wd < b.weekday)))) ∧ y / 10 = by_ / 10 + 1)))
      (mkDate { base := some b.date, year := some yy, week := some w, weekday := some wd }) := by
  have hbc : b.date.complete = true := rfl
  have hwd0 : wd ≠ 0 := by omega
  obtain ⟨y, bw, hin, h1, h2, h3, h4, hg, _⟩ := C10_week_round_trip b hb
  have fb := inWeek_facts hin
  have e : mkDate { base := some b.date, year := some yy, week := some w, weekday := some wd } =
      (weekToCalendar (y / 100) (yy + (if yy < y % 10 ∨ (yy = y % 10 ∧ (w < bw ∨ (w = bw ∧ wd < b.weekday)))
        then (y % 100 / 10 + 1) * 10 else y % 100 / 10 * 10)) w wd).bind checkDate := by
    simp only [mkDate, truthy, hwd0, ne_eq, not_false_eq_true, decide_true, Bool.false_eq_true, if_false,
      or_true, if_true, setFromWeekDay]
    rw [if_neg (by omega), if_neg (by omega), if_neg (by omega)]
    by_cases c0 : yy < y % 10 <;> by_cases c1 : yy = y % 10 <;>
      by_cases c : w < bw ∨ (w = bw ∧ wd < b.weekday) <;>
      first
        | (exfalso; omega)
        | simp [hbc, hg, c0, c1, c, Option.bind_assoc]
  rw [e]
  by_cases c : yy < y % 10 ∨ (yy = y % 10 ∧ (w < bw ∨ (w = bw ∧ wd < b.weekday)))
  · rw [if_pos c]
    refine resolveW hin (y / 10 * 10 + 10 + yy) w wd ?_ ?_ (fun _ _ h1 h => ⟨h, _, h1, by omega⟩) ?_ ?_
    · have := weekToCalendar_check (y / 100) (yy + (y % 100 / 10 + 1) * 10) w wd (by omega) hwd (by omega)
      rwa [show y / 100 * 100 + (yy + (y % 100 / 10 + 1) * 10) = y / 10 * 10 + 10 + yy by omega] at this
    · unfold wlt; omega
    · rintro u y' w' hu hi hge ⟨hP, z, hz, hzy⟩
      have := inWeek_unique hi hz
      unfold wlt at *
      omega
    · rintro u y' w' hu hi hge ⟨hP, z, hz, hzy⟩ ⟨z', bz, bwz, hz', hbz, hn⟩
      have e1 := inWeek_unique hi hz
      have e2 := inWeek_unique hin hbz
      have e3 := inWeek_unique hi hz'
      refine ⟨u, hu, ?_, hP⟩
      have : y' = y / 10 * 10 + 10 + yy := by unfold wlt at hge; omega
      rw [← this, ← e1.2]; exact hi
  · rw [if_neg c]
    refine resolveW hin (y / 10 * 10 + yy) w wd ?_ ?_ (fun _ _ h1 h => ⟨h, _, h1, by omega⟩) ?_ ?_
    · have := weekToCalendar_check (y / 100) (yy + y % 100 / 10 * 10) w wd (by omega) hwd (by omega)
      rwa [show y / 100 * 100 + (yy + y % 100 / 10 * 10) = y / 10 * 10 + yy by omega] at this
    · unfold wlt; omega
    · rintro u y' w' hu hi hge ⟨hP, z, hz, hzy⟩
      have := inWeek_unique hi hz
      unfold wlt at *
      omega
    · rintro u y' w' hu hi hge ⟨hP, z, hz, hzy⟩ ⟨z', bz, bwz, hz', hbz, hn⟩
      have e1 := inWeek_unique hi hz
      have e2 := inWeek_unique hin hbz
      have e3 := inWeek_unique hi hz'
      refine ⟨u, hu, ?_, hP⟩
      have : y' = y / 10 * 10 + yy := by unfold wlt at hge; omega
      rw [← this, ← e1.2]; exact hi

/-- C36, year in century, week and weekday (`YYWwwD`). -/
theorem C36_century_year_week_weekday (b : YMD) (hb : b.Valid) (dec yy w wd : Int) (hdec : 0 ≤ dec ∧ dec ≤ 9)
    (hyy : 0 ≤ yy ∧ yy ≤ 9) (hw : 1 ≤ w ∧ w ≤ 53) (hwd : 1 ≤ wd ∧ wd ≤ 7) :
    Resolves b (fun u => u.weekday = wd ∧ ∃ y, u.InWeek y w ∧ y % 100 = 10 * dec + yy)
      (fun t => ∃ y by_ bw, t.InWeek y w ∧ b.InWeek by_ bw ∧ (y / 100 = by_ / 100 ∨
        ((10 * dec + yy < by_ % 100 ∨ (10 * dec + yy = by_ % 100 ∧ (w < bw ∨ (w = bw ∧ wd < b.weekday)))) ∧
          y / 100 = by_ / 100 + 1)))
      (mkDate { base := some b.date, decade := some dec, year := some yy, week := some w, weekday := some wd }) := by
  have hbc : b.date.complete = true := rfl
  have hwd0 : wd ≠ 0 := by omega
  obtain ⟨y, bw, hin, h1, h2, h3, h4, hg, _⟩ := C10_week_round_trip b hb
  have fb := inWeek_facts hin
  have hY : y % 10 + y % 100 / 10 * 10 = y % 100 := by omega
  have e : mkDate { base := some b.date, decade := some dec, year := some yy, week := some w, weekday := some wd } =
      (if dec * 10 + yy < y % 100 ∨ (dec * 10 + yy = y % 100 ∧ (w < bw ∨ (w = bw ∧ wd < b.weekday)))
        then addCentury (y / 100) else some (y / 100)).bind
        (fun c => (weekToCalendar c (dec * 10 + yy) w wd).bind checkDate) := by
    simp only [mkDate, truthy, hwd0, ne_eq, not_false_eq_true, decide_true, Bool.false_eq_true, if_false,
      or_true, if_true, setFromWeekDay]
    rw [if_neg (by omega), if_neg (by omega), if_neg (by omega), if_neg (by omega)]
    by_cases c0 : dec * 10 + yy < y % 100 <;> by_cases c1 : dec * 10 + yy = y % 100 <;>
      by_cases c : w < bw ∨ (w = bw ∧ wd < b.weekday) <;>
      first
        | (exfalso; omega)
        | simp [hbc, hg, hY, c0, c1, c, Option.bind_assoc]
  rw [e]
  by_cases c : dec * 10 + yy < y % 100 ∨ (dec * 10 + yy = y % 100 ∧ (w < bw ∨ (w = bw ∧ wd < b.weekday)))
  · rw [if_pos c, addCentury]
    refine resolveW hin ((y / 100 + 1) * 100 + (dec * 10 + yy)) w wd ?_ ?_ (fun _ _ h1 h => ⟨h, _, h1, by omega⟩) ?_ ?_
    · by_cases c3 : y / 100 ≥ 99
      · rw [if_pos c3]
        refine ⟨fun t ht hi _ => ?_, fun _ => rfl⟩
        have := (inWeek_facts hi).2.2.2.2.1; omega
      · rw [if_neg c3, Option.bind_some]
        exact weekToCalendar_check (y / 100 + 1) (dec * 10 + yy) w wd (by omega) hwd (by omega)
    · unfold wlt; omega
    · rintro u y' w' hu hi hge ⟨hP, z, hz, hzy⟩
      have := inWeek_unique hi hz
      unfold wlt at *
      omega
    · rintro u y' w' hu hi hge ⟨hP, z, hz, hzy⟩ ⟨z', bz, bwz, hz', hbz, hn⟩
      have e1 := inWeek_unique hi hz
      have e2 := inWeek_unique hin hbz
      have e3 := inWeek_unique hi hz'
      refine ⟨u, hu, ?_, hP⟩
      have : y' = (y / 100 + 1) * 100 + (dec * 10 + yy) := by unfold wlt at hge; omega
      rw [← this, ← e1.2]; exact hi
  · rw [if_neg c, Option.bind_some]
    by_cases hpos : 1 ≤ y / 100 * 100 + (dec * 10 + yy)
    · refine resolveW hin (y / 100 * 100 + (dec * 10 + yy)) w wd ?_ ?_ (fun _ _ h1 h => ⟨h, _, h1, by omega⟩) ?_ ?_
      · exact weekToCalendar_check (y / 100) (dec * 10 + yy) w wd (by omega) hwd hpos
      · unfold wlt; omega
      · rintro u y' w' hu hi hge ⟨hP, z, hz, hzy⟩
        have := inWeek_unique hi hz
        unfold wlt at *
        omega
      · rintro u y' w' hu hi hge ⟨hP, z, hz, hzy⟩ ⟨z', bz, bwz, hz', hbz, hn⟩
        have e1 := inWeek_unique hi hz
        have e2 := inWeek_unique hin hbz
        have e3 := inWeek_unique hi hz'
        refine ⟨u, hu, ?_, hP⟩
        have : y' = y / 100 * 100 + (dec * 10 + yy) := by unfold wlt at hge; omega
        rw [← this, ← e1.2]; exact hi
    · exfalso; omega

example : mkDate { base := some (YMD.date ⟨2010, 1, 3⟩), weekday := some 1 } = some (YMD.date ⟨2010, 1, 4⟩) ∧
    mkDate { base := some (YMD.date ⟨2010, 1, 3⟩), week := some 1, weekday := some 7 } =
      some (YMD.date ⟨2010, 1, 10⟩) := by decide +kernel

end Verif.Iso

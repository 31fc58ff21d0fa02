import Verif.Iso.Julian
/-! # Lemmas about `offset` -/
namespace Verif.Iso

/-- Day number of the Monday of a week. -/
def mon (y w : Int) : Int := dby y + 4 - ((dby y + 3) % 7 + 1) + (w - 1) * 7 + 1

theorem mon_succ (y w : Int) : mon (y + 1) w = mon y (w + weekCount y) := by
  unfold mon
  rw [weekCount_eq, dby_succ]
  generalize dby y = D
  rcases yearLen_cases y with ⟨_, e⟩ | ⟨_, e⟩ <;> rw [e] <;> split <;> omega

theorem weekCount_range (y : Int) : 52 ≤ weekCount y ∧ weekCount y ≤ 53 := by
  rw [weekCount_eq]; split <;> omega

theorem weekLoop_spec : ∀ (fuel : Nat) (y w : Int), w.natAbs + 2 ≤ fuel → ∃ y' w' : Int,
    weekLoop fuel y w = some (y', w') ∧ 1 ≤ w' ∧ w' ≤ weekCount y' ∧ mon y' w' = mon y w := by
  intro fuel
  induction fuel with
  | zero => intro y w h; omega
  | succ fuel ih =>
    intro y w h
    unfold weekLoop
    by_cases c1 : w < 1
    · rw [if_pos c1]
      have hr := weekCount_range (y - 1)
      have hm := mon_succ (y - 1) w
      rw [Int.sub_add_cancel] at hm
      by_cases c3 : w = 0
      · -- week 0 is the last week of the previous year
        subst c3
        cases fuel with
        | zero => simp at h
        | succ fuel =>
          refine ⟨y - 1, 0 + weekCount (y - 1), ?_, by omega, by omega, hm.symm⟩
          unfold weekLoop
          rw [if_neg (by omega), if_neg (by omega)]
      · by_cases c4 : w + weekCount (y - 1) < 1
        · obtain ⟨y', w', e, h1, h2, h3⟩ := ih (y - 1) (w + weekCount (y - 1)) (by omega)
          exact ⟨y', w', e, h1, h2, by rw [h3, hm]⟩
        · cases fuel with
          | zero => omega
          | succ fuel =>
            refine ⟨y - 1, w + weekCount (y - 1), ?_, by omega, by omega, hm.symm⟩
            unfold weekLoop
            rw [if_neg (by omega), if_neg (by omega)]
    · rw [if_neg c1]
      by_cases c2 : w > weekCount y
      · rw [if_pos c2]
        have hr := weekCount_range y
        have hm := mon_succ y (w - weekCount y)
        rw [Int.sub_add_cancel] at hm
        obtain ⟨y', w', e, h1, h2, h3⟩ := ih (y + 1) (w - weekCount y) (by omega)
        exact ⟨y', w', e, h1, h2, by rw [h3, hm]⟩
      · rw [if_neg c2]
        exact ⟨y, w, rfl, by omega, by omega, rfl⟩

/-- A date with week precision. -/
def weekDate (y w : Int) : Date :=
  { century := y / 100, year := some (y % 100), month := none, week := some w, day := none }
/-- A date with month precision. -/
def monthDate (y m : Int) : Date :=
  { century := y / 100, year := some (y % 100), month := some m, week := none, day := none }
/-- A date with year precision. -/
def yearDate (y : Int) : Date :=
  { century := y / 100, year := some (y % 100), month := none, week := none, day := none }

theorem mkDate_weekPrec (y w : Int) (hw : 1 ≤ w ∧ w ≤ weekCount y) :
    mkDate { century := some (y / 100), decade := some (y % 100 / 10), year := some (y % 100 % 10), week := some w } =
      if 1 ≤ y ∧ y ≤ 9999 then some (weekDate y w) else none := by
  have hr := weekCount_range y
  have hw0 : w ≠ 0 := by omega
  simp only [mkDate, truthy, hw0, ne_eq, not_false_eq_true, decide_true, Bool.false_eq_true, if_false,
    true_or, or_true, if_true, setFromWeekDay, Option.isNone_some]
  rw [if_neg (by omega), if_neg (by omega), if_neg (by omega)]
  simp only [Option.bind_eq_bind, Option.bind_some, Option.pure_def]
  have e : y % 100 / 10 * 10 + y % 100 % 10 = y % 100 := by omega
  rw [e]
  unfold checkDate
  dsimp only
  by_cases c : 1 ≤ y ∧ y ≤ 9999
  · rw [if_pos c, if_neg (by omega), if_neg (by omega), if_neg (by omega), cy, if_pos hw0, if_neg (by omega)]
    simp [weekDate]
  · rw [if_neg c]
    by_cases c1 : y / 100 < 0 ∨ y / 100 > 99
    · rw [if_pos c1]
    · rw [if_neg c1, if_neg (by omega), if_pos (by omega)]

theorem mkDate_monthPrec (c y m : Int) (hy : 0 ≤ y ∧ y ≤ 99) (hm : 1 ≤ m ∧ m ≤ 12) :
    mkDate { century := some c, year := some y, month := some m } =
      if 1 ≤ 100 * c + y ∧ 100 * c + y ≤ 9999 then some (monthDate (100 * c + y) m) else none := by
  simp only [mkDate, truthy, Bool.false_eq_true, if_false, or_self, Option.isNone_some, false_and,
    setFromCalendarDay, Option.bind_eq_bind, Option.bind_some]
  unfold checkDate checkDate.checkMonth
  dsimp only
  have e1 : (100 * c + y) / 100 = c := by omega
  have e2 : (100 * c + y) % 100 = y := by omega
  by_cases h : 1 ≤ 100 * c + y ∧ 100 * c + y ≤ 9999
  · rw [if_pos h, if_neg (by omega), if_neg (by omega), if_neg (by omega), if_neg (by omega)]
    simp [monthDate, e1, e2]
  · rw [if_neg h]
    by_cases c1 : c < 0 ∨ c > 99
    · rw [if_pos c1]
    · rw [if_neg c1, if_neg (by omega), if_pos (by omega)]

theorem mkDate_yearPrec (c y : Int) (hy : 0 ≤ y ∧ y ≤ 99) :
    mkDate { century := some c, year := some y } =
      if 1 ≤ 100 * c + y ∧ 100 * c + y ≤ 9999 then some (yearDate (100 * c + y)) else none := by
  simp only [mkDate, truthy, Bool.false_eq_true, if_false, or_self, Option.isNone_some, false_and,
    setFromCalendarDay, Option.bind_eq_bind, Option.bind_some]
  unfold checkDate checkDate.checkMonth
  dsimp only
  have e1 : (100 * c + y) / 100 = c := by omega
  have e2 : (100 * c + y) % 100 = y := by omega
  by_cases h : 1 ≤ 100 * c + y ∧ 100 * c + y ≤ 9999
  · rw [if_pos h, if_neg (by omega), if_neg (by omega), if_neg (by omega)]
    simp [yearDate, e1, e2]
  · rw [if_neg h]
    by_cases c1 : c < 0 ∨ c > 99
    · rw [if_pos c1]
    · rw [if_neg c1, if_neg (by omega), if_pos (by omega)]

theorem offset_complete {t : YMD} (h : t.Valid) (w a : Int) :
    t.date.offset 0 0 0 w a = mkDate { absolute := some (t.number + (a + 7 * w)) } := by
  have : t.date.precision = .complete := rfl
  simp [Date.offset, this, getAbsoluteDay_date h]

theorem offset_week (y w k : Int) : ∃ y' w' : Int, 1 ≤ w' ∧ w' ≤ weekCount y' ∧ mon y' w' = mon y w + 7 * k ∧
    (weekDate y w).offset 0 0 0 k 0 = if 1 ≤ y' ∧ y' ≤ 9999 then some (weekDate y' w') else none := by
  obtain ⟨y', w', e, h1, h2, h3⟩ := weekLoop_spec ((w + k).natAbs + 2) y (w + k) (by omega)
  refine ⟨y', w', h1, h2, by rw [h3]; unfold mon; omega, ?_⟩
  have hp : (weekDate y w).precision = .week := rfl
  have hw : (weekDate y w).week = some w := rfl
  have hy : (weekDate y w).year = some (y % 100) := rfl
  have hc : (weekDate y w).century = y / 100 := rfl
  have ey : y % 100 + 100 * (y / 100) = y := by omega
  simp only [Date.offset, hp, hw, hy, hc, and_self, if_true, Option.bind_eq_bind, Option.bind_some, ey, e]
  exact mkDate_weekPrec y' w' ⟨h1, h2⟩

theorem offset_month (y m : Int) (_hm : 1 ≤ m ∧ m ≤ 12) (cs ys ms : Int) :
    (monthDate y m).offset cs ys ms 0 0 =
      let i := 12 * y + (m - 1) + ms + 12 * ys + 1200 * cs
      if 1 ≤ i / 12 ∧ i / 12 ≤ 9999 then some (monthDate (i / 12) (i % 12 + 1)) else none := by
  have hp : (monthDate y m).precision = .month := rfl
  have hmo : (monthDate y m).month = some m := rfl
  have hy : (monthDate y m).year = some (y % 100) := rfl
  have hc : (monthDate y m).century = y / 100 := rfl
  simp only [Date.offset, hp, hmo, hy, hc, and_self, if_true, Option.bind_eq_bind, Option.bind_some]
  generalize hI : 12 * y + (m - 1) + ms + 12 * ys + 1200 * cs = i
  have key : ∀ (c' y' m' : Int), 0 ≤ y' ∧ y' ≤ 99 → 1 ≤ m' ∧ m' ≤ 12 → 1200 * c' + 12 * y' + m' - 1 = i →
      mkDate { century := some c', year := some y', month := some m' } =
      if 1 ≤ i / 12 ∧ i / 12 ≤ 9999 then some (monthDate (i / 12) (i % 12 + 1)) else none := by
    intro c' y' m' a b e
    rw [mkDate_monthPrec c' y' m' a b]
    have e1 : i / 12 = 100 * c' + y' := by omega
    have e2 : i % 12 + 1 = m' := by omega
    rw [e1, e2]
  by_cases c1 : m + ms > 12 ∨ m + ms < 1
  · rw [if_pos c1]
    dsimp only
    by_cases c2 : y % 100 + (ys + (m + ms - 1) / 12) > 99 ∨ y % 100 + (ys + (m + ms - 1) / 12) < 0
    · rw [if_pos c2]; apply key <;> omega
    · rw [if_neg c2]; apply key <;> omega
  · rw [if_neg c1]
    dsimp only
    by_cases c2 : y % 100 + ys > 99 ∨ y % 100 + ys < 0
    · rw [if_pos c2]; apply key <;> omega
    · rw [if_neg c2]; apply key <;> omega

theorem offset_year (y : Int) (cs ys : Int) :
    (yearDate y).offset cs ys 0 0 0 =
      if 1 ≤ y + ys + 100 * cs ∧ y + ys + 100 * cs ≤ 9999 then some (yearDate (y + ys + 100 * cs)) else none := by
  have hp : (yearDate y).precision = .year := rfl
  have hy : (yearDate y).year = some (y % 100) := rfl
  have hc : (yearDate y).century = y / 100 := rfl
  simp only [Date.offset, hp, hy, hc, and_self, if_true, Option.bind_eq_bind, Option.bind_some]
  have key : ∀ (c' y' : Int), 0 ≤ y' ∧ y' ≤ 99 → 100 * c' + y' = y + ys + 100 * cs →
      mkDate { century := some c', year := some y' } =
      if 1 ≤ y + ys + 100 * cs ∧ y + ys + 100 * cs ≤ 9999 then some (yearDate (y + ys + 100 * cs)) else none := by
    intro c' y' a e
    rw [mkDate_yearPrec c' y' a, e]
  by_cases c2 : y % 100 + ys > 99 ∨ y % 100 + ys < 0
  · rw [if_pos c2]; apply key <;> omega
  · rw [if_neg c2]; apply key <;> omega

end Verif.Iso

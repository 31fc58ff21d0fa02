import Verif.Iso.DateLemmas
/-! # The absolute day number -/
namespace Verif.Iso

theorem div_facts (q q1 q2 k : Int) (h1 : 0 ≤ q1 ∧ q1 ≤ 3) (h2 : 0 ≤ q2 ∧ q2 ≤ 24) (h3 : 0 ≤ k ∧ k ≤ 3) :
    (400 * q + 100 * q1 + 4 * q2 + k) / 4 = 100 * q + 25 * q1 + q2 ∧
    (400 * q + 100 * q1 + 4 * q2 + k) / 100 = 4 * q + q1 ∧
    (400 * q + 100 * q1 + 4 * q2 + k) / 400 = q := by
  refine ⟨by omega, by omega, by omega⟩

/-- Year and ordinal day computed by `_set_from_absolute_day`. -/
theorem setFromAbsoluteDay_eq (n : Int) : ∃ y o : Int,
    setFromAbsoluteDay n = setFromOrdinalDay (some (y / 100)) (some (y % 100)) o none ∧
    1 ≤ o ∧ o ≤ yearLen y ∧
    (y - 1) / 4 - (y - 1) / 100 + (y - 1) / 400 + (y - 1) * 365 + o = n := by
  unfold setFromAbsoluteDay
  dsimp only
  generalize hq : (n - 1) / 146097 = q
  generalize hr : (n - 1) % 146097 = r
  have hn : n = 146097 * q + r + 1 := by omega
  have hr0 : 0 ≤ r ∧ r < 146097 := by omega
  clear hq hr
  by_cases h1 : r = 146097 - 1
  · rw [if_pos h1]
    refine ⟨400 * q + 399 + 1, 365 + 1, rfl, by omega, ?_, by omega⟩
    have : Leap (400 * q + 399 + 1) := by unfold Leap; omega
    unfold yearLen; rw [if_pos this]; omega
  · rw [if_neg h1]
    generalize hq1 : r / 36524 = q1
    generalize hr1 : r % 36524 = r1
    have hn1 : r = 36524 * q1 + r1 := by omega
    have hr10 : 0 ≤ r1 ∧ r1 < 36524 ∧ 0 ≤ q1 ∧ q1 ≤ 3 := by omega
    clear hq1 hr1
    generalize hq2 : r1 / 1461 = q2
    generalize hr2 : r1 % 1461 = r2
    have hn2 : r1 = 1461 * q2 + r2 := by omega
    have hr20 : 0 ≤ r2 ∧ r2 < 1461 ∧ 0 ≤ q2 ∧ q2 ≤ 24 := by omega
    clear hq2 hr2
    by_cases h2 : r2 = 1461 - 1
    · rw [if_pos h2]
      refine ⟨400 * q + 100 * q1 + 4 * q2 + 3 + 1, 365 + 1, rfl, by omega, ?_, by
        rw [Int.add_sub_cancel]
        obtain ⟨d1, d2, d3⟩ := div_facts q q1 q2 3 (by omega) (by omega) (by omega)
        rw [d1, d2, d3]; omega⟩
      have : Leap (400 * q + 100 * q1 + 4 * q2 + 3 + 1) := by unfold Leap; omega
      unfold yearLen; rw [if_pos this]; omega
    · rw [if_neg h2]
      refine ⟨400 * q + 100 * q1 + 4 * q2 + r2 / 365 + 1, r2 % 365 + 1, rfl, by omega, ?_, by
        rw [Int.add_sub_cancel]
        obtain ⟨d1, d2, d3⟩ := div_facts q q1 q2 (r2 / 365) (by omega) (by omega) (by omega)
        rw [d1, d2, d3]; omega⟩
      unfold yearLen; split <;> omega

/-- The number of a date determines its year. -/
theorem year_of_number {y1 o1 y2 o2 : Int} (h1 : 1 ≤ o1 ∧ o1 ≤ yearLen y1) (h2 : 1 ≤ o2 ∧ o2 ≤ yearLen y2)
    (h : (y1 - 1) / 4 - (y1 - 1) / 100 + (y1 - 1) / 400 + (y1 - 1) * 365 + o1 ≤
      (y2 - 1) / 4 - (y2 - 1) / 100 + (y2 - 1) / 400 + (y2 - 1) * 365 + o2) : y1 ≤ y2 := by
  apply Classical.byContradiction
  intro hc
  have hlt : y2 < y1 := by omega
  have h2' := h2.2
  unfold yearLen at h2'
  by_cases hl : Leap y2
  · rw [if_pos hl] at h2'; unfold Leap at hl; omega
  · rw [if_neg hl] at h2'; unfold Leap at hl; omega

theorem mkDate_absolute (n : Int) (hn : n ≠ 0) :
    mkDate { absolute := some n } = (setFromAbsoluteDay n).bind checkDate := by
  simp [mkDate, truthy, hn]

/-- `Date(absolute_day=n)` for a day number in range. -/
theorem mkDate_absolute_in {n : Int} (h1 : 1 ≤ n) (h2 : n ≤ maxDay) :
    ∃ t : YMD, t.Valid ∧ t.number = n ∧ mkDate { absolute := some n } = some t.date := by
  obtain ⟨y, o, e, ho1, ho2, hf⟩ := setFromAbsoluteDay_eq n
  have hy1 : 1 ≤ y := year_of_number (y1 := 1) (o1 := 1) (by decide) ⟨ho1, ho2⟩ (by omega)
  have hy2 : y ≤ 9999 := year_of_number (y2 := 9999) (o2 := 365) ⟨ho1, ho2⟩ (by decide)
    (by unfold maxDay at h2; omega)
  obtain ⟨t, hv, hty, hto, hs⟩ := setFromOrdinal_spec hy1 hy2 ho1 ho2
  refine ⟨t, hv, ?_, ?_⟩
  · rw [number_eq hv, hty, hto]; exact hf
  · rw [mkDate_absolute n (by omega), e, hs, Option.bind_some, checkDate_date hv]

theorem setFromOrdinal_shape (y o : Int) : ∃ d : Date,
    setFromOrdinalDay (some (y / 100)) (some (y % 100)) o none = some d ∧ d.century = y / 100 ∧
    d.year = some (y % 100) := by
  simp only [setFromOrdinalDay, Option.bind_eq_bind, Option.bind_some, Option.pure_def, Option.some.injEq]
  exact ⟨_, rfl, rfl, rfl⟩

/-- Out of range day numbers raise. -/
theorem mkDate_absolute_out {n : Int} (h0 : n ≠ 0) (h : n < 1 ∨ maxDay < n) :
    mkDate { absolute := some n } = none := by
  obtain ⟨y, o, e, ho1, ho2, hf⟩ := setFromAbsoluteDay_eq n
  obtain ⟨d, hd, hc, hy⟩ := setFromOrdinal_shape y o
  rw [mkDate_absolute n h0, e, hd, Option.bind_some]
  have hr : y < 1 ∨ 9999 < y := by
    rcases h with h | h
    · left
      have : ¬ 1 ≤ y := by
        intro hy1
        unfold yearLen at ho2
        omega
      omega
    · right
      have : ¬ y ≤ 9999 := by
        intro hy1
        unfold yearLen maxDay at *
        by_cases hy2 : y = 9999
        · subst hy2
          rw [if_neg (by decide)] at ho2
          omega
        · split at ho2 <;> omega
      omega
  unfold checkDate
  rw [hc, hy]
  by_cases h1 : y / 100 < 0 ∨ y / 100 > 99
  · rw [if_pos h1]
  · rw [if_neg h1]
    simp only
    rw [if_neg (by omega), if_pos (by omega)]

/-- Dates with the same number are equal. -/
theorem number_inj {s t : YMD} (hs : s.Valid) (ht : t.Valid) (h : s.number = t.number) : s = t := by
  have ns := number_eq hs
  have nt := number_eq ht
  have hy : s.y = t.y := by
    have h1 := year_of_number (ordinal_range hs) (ordinal_range ht) (by omega)
    have h2 := year_of_number (ordinal_range ht) (ordinal_range hs) (by omega)
    omega
  rw [hy] at ns
  have ho : s.ordinal = t.ordinal := by omega
  have e1 := setFromOrdinal_date hs
  have e2 := setFromOrdinal_date ht
  rw [hy, ho, e2] at e1
  rcases s with ⟨y, m, d⟩
  rcases t with ⟨y', m', d'⟩
  simp only [YMD.date, Option.some.injEq, Date.mk.injEq] at e1 hy
  simp only [YMD.mk.injEq]
  omega

theorem number_next {t : YMD} (h : t.Valid) (hm : t.next.Valid) : t.next.number = t.number + 1 := by
  rw [number_eq h, number_eq hm, ordinal_eq h, ordinal_eq hm]
  rcases t with ⟨y, m, d⟩
  obtain ⟨h1, h2, h3, h4, h5, h6⟩ := h
  simp only at h1 h2 h3 h4 h5 h6
  unfold YMD.next
  simp only
  by_cases hd : d < monthLen y m
  · rw [if_pos hd]; simp only; omega
  · rw [if_neg hd]
    have hd : d = monthLen y m := by omega
    by_cases hm12 : m < 12
    · rw [if_pos hm12]
      simp only
      subst hd
      by_cases hl : Leap y <;>
      rcases months h3 h4 with h | h | h | h | h | h | h | h | h | h | h | h <;> subst h <;>
      simp [monthLen, monthOffset, monthOffsets, hl] at hm12 ⊢ <;> omega
    · rw [if_neg hm12]
      have : m = 12 := by omega
      subst this
      subst hd
      simp only
      by_cases hl : Leap y
      · simp [monthLen, monthOffset, monthOffsets, hl]; unfold Leap at hl; omega
      · simp [monthLen, monthOffset, monthOffsets, hl]; unfold Leap at hl; omega

theorem next_valid {t : YMD} (h : t.Valid) (hne : t ≠ ⟨9999, 12, 31⟩) : t.next.Valid := by
  rcases t with ⟨y, m, d⟩
  obtain ⟨h1, h2, h3, h4, h5, h6⟩ := h
  simp only at h1 h2 h3 h4 h5 h6
  have pos : ∀ y m, 1 ≤ monthLen y m := by
    intro y m; unfold monthLen; repeat' split
    all_goals omega
  unfold YMD.next
  simp only
  by_cases hd : d < monthLen y m
  · rw [if_pos hd]; exact ⟨h1, h2, h3, h4, by simp only; omega, by simp only; omega⟩
  · rw [if_neg hd]
    by_cases hm12 : m < 12
    · rw [if_pos hm12]
      exact ⟨h1, h2, by simp only; omega, by simp only; omega, by simp only; omega, pos _ _⟩
    · rw [if_neg hm12]
      have hm : m = 12 := by omega
      subst hm
      have hy : y ≠ 9999 := by
        rintro rfl
        have e : monthLen 9999 12 = 31 := by decide
        rw [e] at hd h6
        have : d = 31 := by omega
        subst this; exact hne rfl
      exact ⟨by simp only; omega, by simp only; omega, by simp only; omega, by simp only; omega,
        by simp only; omega, pos _ _⟩

/-- Order of dates of one year is order of ordinals. -/
theorem ordinal_lt {y m1 d1 m2 d2 : Int} (h1 : (⟨y, m1, d1⟩ : YMD).Valid) (h2 : (⟨y, m2, d2⟩ : YMD).Valid)
    (h : m1 < m2 ∨ (m1 = m2 ∧ d1 < d2)) : (⟨y, m1, d1⟩ : YMD).ordinal < (⟨y, m2, d2⟩ : YMD).ordinal := by
  rw [ordinal_eq h1, ordinal_eq h2]
  rcases h with h | ⟨rfl, h⟩
  · -- days before month m1 + 1 ≤ days before month m2
    have key : ∀ (a b : Int), 1 ≤ a → a < b → b ≤ 12 →
        monthOffset a + (if 2 < a ∧ Leap y then 1 else 0) + monthLen y a ≤
          monthOffset b + (if 2 < b ∧ Leap y then 1 else 0) := by
      intro a b ha hab hb
      have step : ∀ a : Int, 1 ≤ a → a < 12 →
          monthOffset a + (if 2 < a ∧ Leap y then 1 else 0) + monthLen y a =
            monthOffset (a + 1) + (if 2 < a + 1 ∧ Leap y then 1 else 0) := by
        intro a ha1 ha2
        by_cases hl : Leap y <;>
        rcases months ha1 (by omega : a ≤ 12) with h | h | h | h | h | h | h | h | h | h | h | h <;> subst h <;>
        simp [monthLen, monthOffset, monthOffsets, hl] at ha2 ⊢
      have pos : ∀ m, 0 ≤ monthLen y m := by
        intro m; unfold monthLen; repeat' split
        all_goals omega
      obtain ⟨k, hk⟩ : ∃ k : Nat, b = a + 1 + k := ⟨(b - a - 1).toNat, by omega⟩
      subst hk
      induction k with
      | zero => have := step a ha (by omega); simp only [Int.natCast_zero, Int.add_zero]; omega
      | succ k ih =>
        have e1 := ih (by omega) (by omega)
        have e2 := step (a + 1 + k) (by omega) (by omega)
        have e3 := pos (a + 1 + k)
        rw [show a + 1 + ((k + 1 : Nat) : Int) = a + 1 + (k : Int) + 1 by omega]
        omega
    obtain ⟨_, _, a3, a4, a5, a6⟩ := h1
    obtain ⟨_, _, b3, b4, b5, b6⟩ := h2
    simp only at *
    have := key m1 m2 a3 h b4
    omega
  · simp only; omega

theorem number_lt_iff {s t : YMD} (hs : s.Valid) (ht : t.Valid) : s.lt t ↔ s.number < t.number := by
  have mono : ∀ {s t : YMD}, s.Valid → t.Valid → s.lt t → s.number < t.number := by
    intro s t hs ht h
    have ns := number_eq hs
    have nt := number_eq ht
    have os := ordinal_range hs
    have ot := ordinal_range ht
    rcases s with ⟨y1, m1, d1⟩
    rcases t with ⟨y2, m2, d2⟩
    simp only [YMD.lt] at h
    simp only at ns nt os ot
    rcases h with h | ⟨rfl, h⟩
    · have : ¬ (⟨y2, m2, d2⟩ : YMD).number ≤ (⟨y1, m1, d1⟩ : YMD).number := by
        intro hc
        rw [ns, nt] at hc
        have := year_of_number ot os hc
        omega
      omega
    · have := ordinal_lt hs ht h
      omega
  constructor
  · exact mono hs ht
  · intro h
    have tri : s.lt t ∨ t.lt s ∨ s = t := by
      rcases s with ⟨y1, m1, d1⟩
      rcases t with ⟨y2, m2, d2⟩
      simp only [YMD.lt, YMD.mk.injEq]
      omega
    rcases tri with h1 | h1 | h1
    · exact h1
    · have := mono ht hs h1; omega
    · subst h1; omega

end Verif.Iso

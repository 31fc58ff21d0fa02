import Verif.Iso.DateSpec
/-! # Lemmas about Date -/
namespace Verif.Iso

theorem leapYear_iff (y : Int) : leapYear y = true ↔ Leap y := by
  unfold leapYear Leap
  by_cases h1 : y % 4 = 0 <;> by_cases h2 : y % 100 = 0 <;> by_cases h3 : y % 400 = 0 <;> simp [h1, h2, h3]

theorem leapCY_eq (y : Int) : leapCY (y / 100) (y % 100) = leapYear y := by
  rw [Bool.eq_iff_iff, leapYear_iff]
  unfold leapCY Leap
  by_cases h1 : y % 100 % 4 = 0 <;> by_cases h2 : y % 100 = 0 <;> by_cases h3 : y / 100 % 4 = 0 <;>
    simp [h1, h2, h3] <;> omega

theorem months {m : Int} (h1 : 1 ≤ m) (h2 : m ≤ 12) : m = 1 ∨ m = 2 ∨ m = 3 ∨ m = 4 ∨ m = 5 ∨ m = 6 ∨
    m = 7 ∨ m = 8 ∨ m = 9 ∨ m = 10 ∨ m = 11 ∨ m = 12 := by omega

theorem foldl_add (l : List Int) : ∀ d : Int, l.foldl (· + ·) d = d + l.sum := by
  induction l with
  | nil => intro d; simp
  | cons x l ih => intro d; rw [List.foldl_cons, ih, List.sum_cons]; omega

/-- The loop over month lengths splits an ordinal day. -/
theorem monthLoop_spec : ∀ (ms : List Int) (k o : Int), 1 ≤ o → o ≤ ms.sum →
    ∃ i : Nat, i < ms.length ∧ monthLoop ms k o = (k + i, o - (ms.take i).sum) ∧
      1 ≤ o - (ms.take i).sum ∧ o - (ms.take i).sum ≤ ms.getD i 0 := by
  intro ms
  induction ms with
  | nil => intro k o h1 h2; simp at h2; omega
  | cons m ms ih =>
    intro k o h1 h2
    rw [List.sum_cons] at h2
    by_cases h : o > m
    · obtain ⟨i, hi, h3, h4, h5⟩ := ih (k + 1) (o - m) (by omega) (by omega)
      refine ⟨i + 1, by simp; omega, ?_, ?_, ?_⟩
      · rw [monthLoop, if_pos h, h3]
        simp only [List.take_succ_cons, List.sum_cons, Prod.mk.injEq]
        constructor <;> omega
      · rw [List.take_succ_cons, List.sum_cons]; omega
      · rw [List.take_succ_cons, List.sum_cons, List.getD_cons_succ]; omega
    · refine ⟨0, by simp, ?_, ?_, ?_⟩
      · rw [monthLoop, if_neg h]; simp
      · simpa using h1
      · simp; omega

theorem monthLoop_inv : ∀ (ms : List Int), (∀ x ∈ ms, 0 < x) → ∀ (k : Int) (i : Nat) (d : Int), i < ms.length →
    1 ≤ d → d ≤ ms.getD i 0 → monthLoop ms k ((ms.take i).sum + d) = (k + i, d) := by
  intro ms
  induction ms with
  | nil => intro _ k i d hi; simp at hi
  | cons m ms ih =>
    intro hpos k i d hi h1 h2
    cases i with
    | zero => simp at h2; rw [monthLoop, if_neg (by simp; omega)]; simp
    | succ i =>
      rw [List.getD_cons_succ] at h2
      have hp : ∀ x ∈ (ms.take i), 0 < x := fun x hx => hpos x (by simp [List.mem_of_mem_take hx])
      have hs : 0 ≤ (ms.take i).sum := by
        revert hp
        generalize ms.take i = l
        intro hp
        induction l with
        | nil => simp
        | cons x l ih =>
          have := hp x (by simp)
          have := ih (fun y hy => hp y (by simp [hy]))
          rw [List.sum_cons]; omega
      rw [List.take_succ_cons, List.sum_cons, monthLoop, if_pos (by omega)]
      rw [show m + (ms.take i).sum + d - m = (ms.take i).sum + d by omega]
      rw [ih (fun x hx => hpos x (by simp [hx])) (k + 1) i d (by simpa using hi) h1 h2]
      simp only [Prod.mk.injEq, and_true]; omega

theorem sizes_length (b : Bool) : (sizes b).length = 12 := by cases b <;> rfl
theorem sizes_pos (b : Bool) : ∀ x ∈ sizes b, 0 < x := by cases b <;> decide
theorem sizes_sum (b : Bool) : (sizes b).sum = if b then 366 else 365 := by cases b <;> rfl

theorem sizes_get (y m : Int) (h1 : 1 ≤ m) (h2 : m ≤ 12) :
    (sizes (leapYear y)).getD (m - 1).toNat 0 = monthLen y m := by
  have hl := leapYear_iff y
  cases hb : leapYear y <;> rw [hb] at hl <;> simp at hl <;>
    rcases months h1 h2 with h | h | h | h | h | h | h | h | h | h | h | h <;> subst h <;>
    simp [sizes, monthSizes, monthSizesLeap, monthLen, hl]

/-- The closed form of the number of days before a month. -/
theorem sizes_take_sum (y m : Int) (h1 : 1 ≤ m) (h2 : m ≤ 12) :
    ((sizes (leapYear y)).take (m - 1).toNat).sum =
      monthOffset m + (if 2 < m ∧ Leap y then 1 else 0) := by
  have hl := leapYear_iff y
  cases hb : leapYear y <;> rw [hb] at hl <;> simp at hl <;>
    rcases months h1 h2 with h | h | h | h | h | h | h | h | h | h | h | h <;> subst h <;>
    simp [sizes, monthSizes, monthSizesLeap, monthOffset, monthOffsets, hl]

theorem daysBefore_eq (y m : Int) (h1 : 1 ≤ m) (h2 : m ≤ 12) :
    daysBefore y (m - 1).toNat = monthOffset m + (if 2 < m ∧ Leap y then 1 else 0) := by
  by_cases hl : Leap y <;>
    rcases months h1 h2 with h | h | h | h | h | h | h | h | h | h | h | h <;> subst h <;>
    simp [daysBefore, monthLen, monthOffset, monthOffsets, hl]

/-- A formula for the number of days before a year. -/
theorem daysBeforeYear_eq (n : Nat) : daysBeforeYear n = (n : Int) / 4 - n / 100 + n / 400 + n * 365 := by
  induction n with
  | zero => simp [daysBeforeYear]
  | succ n ih =>
    rw [daysBeforeYear, ih]
    unfold yearLen
    have hc : ((n + 1 : Nat) : Int) = (n : Int) + 1 := by omega
    rw [hc]
    by_cases h : Leap ((n : Int) + 1)
    · rw [if_pos h]; unfold Leap at h; omega
    · rw [if_neg h]; unfold Leap at h; omega

theorem number_eq {t : YMD} (h : t.Valid) : t.number = (t.y - 1) / 4 - (t.y - 1) / 100 + (t.y - 1) / 400 +
    (t.y - 1) * 365 + t.ordinal := by
  unfold YMD.number
  rw [daysBeforeYear_eq]
  have : ((t.y - 1).toNat : Int) = t.y - 1 := by have := h.1; omega
  rw [this]

theorem ordinal_eq {t : YMD} (h : t.Valid) :
    t.ordinal = monthOffset t.m + (if 2 < t.m ∧ Leap t.y then 1 else 0) + t.d := by
  unfold YMD.ordinal
  rw [daysBefore_eq _ _ h.2.2.1 h.2.2.2.1]

theorem getOrdinalDay_date {t : YMD} (h : t.Valid) :
    t.date.getOrdinalDay = some (t.y / 100, some (t.y % 100), some t.ordinal) := by
  simp only [Date.getOrdinalDay, YMD.date, leapCY_eq, foldl_add, Option.bind_eq_bind, Option.bind_some, Option.pure_def]
  rw [sizes_take_sum _ _ h.2.2.1 h.2.2.2.1, ordinal_eq h]
  congr 4; omega

theorem cy (y : Int) : y / 100 * 100 + y % 100 = y := by omega

theorem getAbsoluteDay_date {t : YMD} (h : t.Valid) : t.date.getAbsoluteDay = some t.number := by
  have hc : t.date.complete = true := rfl
  have hy : t.date.year = some (t.y % 100) := rfl
  have hcen : t.date.century = t.y / 100 := rfl
  simp only [Date.getAbsoluteDay, hc, if_true, getOrdinalDay_date h, hy, hcen, cy, Option.bind_eq_bind,
    Option.bind_some, Option.pure_def]
  rw [number_eq h]

theorem checkDate_date {t : YMD} (h : t.Valid) : checkDate t.date = some t.date := by
  obtain ⟨h1, h2, h3, h4, h5, h6⟩ := h
  simp only [checkDate, YMD.date, checkDate.checkMonth, cy, sizes_get _ _ h3 h4]
  rw [if_neg (by omega), if_neg (by omega), if_neg (by omega), if_neg (by omega), if_neg (by omega)]

/-- Ordinal days are within the year. -/
theorem ordinal_range {t : YMD} (h : t.Valid) : 1 ≤ t.ordinal ∧ t.ordinal ≤ yearLen t.y := by
  rw [ordinal_eq h]
  obtain ⟨h1, h2, h3, h4, h5, h6⟩ := h
  rcases t with ⟨y, m, d⟩
  simp only at *
  unfold monthLen at h6
  unfold yearLen
  by_cases hl : Leap y <;>
    rcases months h3 h4 with h | h | h | h | h | h | h | h | h | h | h | h <;> subst h <;>
    simp [hl, monthOffset, monthOffsets] at h6 ⊢ <;> omega

/-- The date of an ordinal day. -/
theorem setFromOrdinal_spec {y o : Int} (h1 : 1 ≤ y) (h2 : y ≤ 9999) (h3 : 1 ≤ o) (h4 : o ≤ yearLen y) :
    ∃ t : YMD, t.Valid ∧ t.y = y ∧ t.ordinal = o ∧
      setFromOrdinalDay (some (y / 100)) (some (y % 100)) o none = some t.date := by
  have hs : (sizes (leapYear y)).sum = yearLen y := by
    rw [sizes_sum]; unfold yearLen
    have := leapYear_iff y
    cases hb : leapYear y <;> rw [hb] at this <;> simp at this <;> simp [this]
  obtain ⟨i, hi, e, e1, e2⟩ := monthLoop_spec (sizes (leapYear y)) 1 o h3 (by omega)
  rw [sizes_length] at hi
  have hi' : ((1 + (i : Int)) - 1).toNat = i := by omega
  have hm1 : 1 ≤ 1 + (i : Int) := by omega
  have hm2 : 1 + (i : Int) ≤ 12 := by omega
  have hg := sizes_get y (1 + i) hm1 hm2
  have ht := sizes_take_sum y (1 + i) hm1 hm2
  rw [hi'] at hg ht
  refine ⟨⟨y, 1 + i, o - ((sizes (leapYear y)).take i).sum⟩, ?_, rfl, ?_, ?_⟩
  · exact ⟨h1, h2, hm1, hm2, e1, by rw [← hg]; exact e2⟩
  · unfold YMD.ordinal
    simp only
    rw [daysBefore_eq _ _ hm1 hm2, ← ht]; omega
  · simp only [setFromOrdinalDay, Option.bind_eq_bind, Option.bind_some, Option.pure_def, leapCY_eq, e, YMD.date]

/-- Distinct dates of a year have distinct ordinals (via the loop). -/
theorem setFromOrdinal_date {t : YMD} (h : t.Valid) :
    setFromOrdinalDay (some (t.y / 100)) (some (t.y % 100)) t.ordinal none = some t.date := by
  obtain ⟨h1, h2, h3, h4, h5, h6⟩ := h
  have hm := monthLoop_inv (sizes (leapYear t.y)) (sizes_pos _) 1 (t.m - 1).toNat t.d
    (by rw [sizes_length]; omega) h5 (by rw [sizes_get _ _ h3 h4]; exact h6)
  rw [sizes_take_sum _ _ h3 h4] at hm
  have ho : t.ordinal = monthOffset t.m + (if 2 < t.m ∧ Leap t.y then 1 else 0) + t.d :=
    ordinal_eq ⟨h1, h2, h3, h4, h5, h6⟩
  rw [← ho] at hm
  have hi : (1 : Int) + ((t.m - 1).toNat : Int) = t.m := by omega
  simp only [setFromOrdinalDay, Option.bind_eq_bind, Option.bind_some, Option.pure_def, leapCY_eq, hm, YMD.date, hi]

end Verif.Iso

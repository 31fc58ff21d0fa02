import Verif.Iso.DateProps
/-! # Property C36: truncated dates are resolved to the first matching date on or after the base -/
namespace Verif.Iso

/-- `t` is the first date of the calendar on or after `b` with `P`. -/
def First (b : YMD) (P : YMD → Prop) (t : YMD) : Prop :=
  t.Valid ∧ b.number ≤ t.number ∧ P t ∧ ∀ u : YMD, u.Valid → b.number ≤ u.number → P u → t.number ≤ u.number

/-- What a user relies on when a truncated date is resolved to `r`: if the call returns, it returns the first
matching date; and it does return the first matching date when that satisfies `near`. -/
def Resolves (b : YMD) (P near : YMD → Prop) (r : Option Date) : Prop :=
  (∀ x, r = some x → ∃ t, First b P t ∧ x = t.date) ∧
  (∀ t, First b P t → near t → r = some t.date)

theorem number_le_iff {s t : YMD} (hs : s.Valid) (ht : t.Valid) : s.number ≤ t.number ↔ ¬ t.lt s := by
  rw [number_lt_iff ht hs]; omega

/-- `_check_date` on a complete date. -/
theorem checkDate_complete (c y m d : Int) :
    checkDate ⟨c, some y, some m, none, some d⟩ =
      if 0 ≤ y ∧ y ≤ 99 ∧ YMD.Valid ⟨100 * c + y, m, d⟩ then some (YMD.date ⟨100 * c + y, m, d⟩) else none := by
  by_cases h : 0 ≤ y ∧ y ≤ 99 ∧ YMD.Valid ⟨100 * c + y, m, d⟩
  · rw [if_pos h, (C07_complete_dates c y m d).2 h]
    obtain ⟨h1, h2, _⟩ := h
    simp only [YMD.date, Option.some.injEq, Date.mk.injEq]
    refine ⟨by omega, by omega, trivial, trivial, trivial⟩
  · rw [if_neg h]
    rw [← C07_complete_dates] at h
    have ite : ∀ (p : Prop) [Decidable p] (x : Option Date) (z : Date), (¬ (if p then none else x) = some z) →
        (¬ x = some z → x = none) → (if p then none else x) = none := by
      intro p _ x z h1 h2
      by_cases hp : p
      · rw [if_pos hp]
      · rw [if_neg hp] at h1 ⊢; exact h2 h1
    unfold checkDate checkDate.checkMonth at h ⊢
    dsimp only at h ⊢
    refine ite _ _ _ h fun h => ite _ _ _ h fun h => ite _ _ _ h fun h => ite _ _ _ h fun h => ite _ _ _ h fun h => ?_
    exact absurd rfl h

theorem checkDate_ymd (t : YMD) :
    checkDate ⟨t.y / 100, some (t.y % 100), some t.m, none, some t.d⟩ = if t.Valid then some t.date else none := by
  rw [checkDate_complete]
  have : 100 * (t.y / 100) + t.y % 100 = t.y := by omega
  rw [this]
  have h1 : 0 ≤ t.y % 100 := by omega
  have h2 : t.y % 100 ≤ 99 := by omega
  simp [h1, h2]

/-- Resolution with a candidate. -/
theorem resolve {b : YMD} (hb : b.Valid) {P near : YMD → Prop} {r : Option Date} (c : YMD)
    (hr : r = if c.Valid then some c.date else none)
    (hge : c.Valid → ¬ c.lt b) (hP : c.Valid → P c)
    (hmin : ∀ u : YMD, u.Valid → ¬ u.lt b → P u → c.Valid → ¬ u.lt c)
    (hnear : ∀ t : YMD, t.Valid → ¬ t.lt b → P t → near t → t = c) :
    Resolves b P near r := by
  constructor
  · intro d e
    rw [hr] at e
    by_cases hv : c.Valid
    · rw [if_pos hv] at e
      refine ⟨c, ⟨hv, (number_le_iff hb hv).2 (hge hv), hP hv, fun u hu h1 h2 => ?_⟩, (Option.some.inj e).symm⟩
      exact (number_le_iff hv hu).2 (hmin u hu ((number_le_iff hb hu).1 h1) h2 hv)
    · rw [if_neg hv] at e; cases e
  · intro t ht hn
    have e := hnear t ht.1 ((number_le_iff hb ht.1).1 ht.2.1) ht.2.2.1 hn
    subst e
    rw [hr, if_pos ht.1]

theorem addYear_eq (y : Int) (h : 1 ≤ y ∧ y ≤ 9999) :
    addYear (y / 100) (y % 100) = if y = 9999 then none else some ((y + 1) / 100, (y + 1) % 100) := by
  unfold addYear addCentury
  by_cases c : y % 100 ≥ 99
  · rw [if_pos c]
    by_cases c2 : y / 100 ≥ 99
    · rw [if_pos c2, if_pos (by omega)]; rfl
    · rw [if_neg c2, if_neg (by omega)]
      simp only [Option.map_some, Option.some.injEq, Prod.mk.injEq]; omega
  · rw [if_neg c, if_neg (by omega)]
    simp only [Option.some.injEq, Prod.mk.injEq]; omega

theorem not_valid_10000 (m d : Int) : ¬ YMD.Valid ⟨10000, m, d⟩ := by
  rintro ⟨_, h, _⟩; simp only at h; omega

/-- C36, day only (`---DD`). -/
theorem C36_day (b : YMD) (hb : b.Valid) (d : Int) :
    Resolves b (fun u => u.d = d)
      (fun t => (t.y = b.y ∧ t.m = b.m) ∨ (d < b.d ∧ 12 * t.y + t.m = 12 * b.y + b.m + 1))
      (mkDate { base := some b.date, day := some d }) := by
  have hbc : b.date.complete = true := rfl
  have e : mkDate { base := some b.date, day := some d } =
      (if d < b.d then addMonth (b.y / 100) (b.y % 100) b.m else some (b.y / 100, b.y % 100, b.m)).bind
        (fun p => checkDate ⟨p.1, some p.2.1, some p.2.2, none, some d⟩) := by
    simp [mkDate, truthy, setFromCalendarDay, hbc]
    simp only [YMD.date, Option.bind_assoc, Option.bind_some]
  rw [e]
  have ⟨v1, v2, v3, v4, v5, v6⟩ := hb
  by_cases c1 : d < b.d
  · rw [if_pos c1, addMonth]
    by_cases c2 : b.m ≥ 12
    · rw [if_pos c2, addYear_eq _ ⟨v1, v2⟩]
      refine resolve hb ⟨b.y + 1, 1, d⟩ ?_ ?_ ?_ ?_ ?_
      · by_cases c3 : b.y = 9999
        · rw [if_pos c3, if_neg (by rw [c3]; exact not_valid_10000 _ _)]; rfl
        · rw [if_neg c3]; exact checkDate_ymd ⟨b.y + 1, 1, d⟩
      · intro _; simp only [YMD.lt]; omega
      · intro _; rfl
      · rintro ⟨uy, um, ud⟩ ⟨u1, u2, u3, u4, u5, u6⟩ hge hP _
        simp only [YMD.lt] at *; omega
      · rintro ⟨uy, um, ud⟩ ⟨u1, u2, u3, u4, u5, u6⟩ hge hP hn
        simp only [YMD.lt, YMD.mk.injEq] at *; omega
    · rw [if_neg c2]
      refine resolve hb ⟨b.y, b.m + 1, d⟩ (checkDate_ymd ⟨b.y, b.m + 1, d⟩) ?_ ?_ ?_ ?_
      · intro _; simp only [YMD.lt]; omega
      · intro _; rfl
      · rintro ⟨uy, um, ud⟩ ⟨u1, u2, u3, u4, u5, u6⟩ hge hP _
        simp only [YMD.lt] at *; omega
      · rintro ⟨uy, um, ud⟩ ⟨u1, u2, u3, u4, u5, u6⟩ hge hP hn
        simp only [YMD.lt, YMD.mk.injEq] at *; omega
  · rw [if_neg c1]
    refine resolve hb ⟨b.y, b.m, d⟩ (checkDate_ymd ⟨b.y, b.m, d⟩) ?_ ?_ ?_ ?_
    · intro _; simp only [YMD.lt]; omega
    · intro _; rfl
    · rintro ⟨uy, um, ud⟩ ⟨u1, u2, u3, u4, u5, u6⟩ hge hP _
      simp only [YMD.lt] at *; omega
    · rintro ⟨uy, um, ud⟩ ⟨u1, u2, u3, u4, u5, u6⟩ hge hP hn
      simp only [YMD.lt, YMD.mk.injEq] at *; omega

/-- C36, month and day (`--MMDD`). -/
theorem C36_month_day (b : YMD) (hb : b.Valid) (m d : Int) :
    Resolves b (fun u => u.m = m ∧ u.d = d)
      (fun t => t.y = b.y ∨ ((m < b.m ∨ (m = b.m ∧ d < b.d)) ∧ t.y = b.y + 1))
      (mkDate { base := some b.date, month := some m, day := some d }) := by
  have hbc : b.date.complete = true := rfl
  have e : mkDate { base := some b.date, month := some m, day := some d } =
      (if m < b.m ∨ (m = b.m ∧ d < b.d) then addYear (b.y / 100) (b.y % 100) else some (b.y / 100, b.y % 100)).bind
        (fun p => checkDate ⟨p.1, some p.2, some m, none, some d⟩) := by
    by_cases c1 : m < b.m <;> by_cases c2 : m = b.m <;> by_cases c3 : d < b.d <;>
      first
        | (exfalso; omega)
        | simp [mkDate, truthy, setFromCalendarDay, Date.complete, YMD.date, c1, c2, c3, Option.bind_assoc]
  rw [e]
  have ⟨v1, v2, v3, v4, v5, v6⟩ := hb
  by_cases c1 : m < b.m ∨ (m = b.m ∧ d < b.d)
  · rw [if_pos c1, addYear_eq _ ⟨v1, v2⟩]
    refine resolve hb ⟨b.y + 1, m, d⟩ ?_ ?_ ?_ ?_ ?_
    · by_cases c3 : b.y = 9999
      · rw [if_pos c3, if_neg (by rw [c3]; exact not_valid_10000 _ _)]; rfl
      · rw [if_neg c3]; exact checkDate_ymd ⟨b.y + 1, m, d⟩
    · intro _; simp only [YMD.lt]; omega
    · intro _; exact ⟨rfl, rfl⟩
    · rintro ⟨uy, um, ud⟩ ⟨u1, u2, u3, u4, u5, u6⟩ hge hP _
      simp only [YMD.lt] at *; omega
    · rintro ⟨uy, um, ud⟩ ⟨u1, u2, u3, u4, u5, u6⟩ hge hP hn
      simp only [YMD.lt, YMD.mk.injEq] at *; omega
  · rw [if_neg c1]
    refine resolve hb ⟨b.y, m, d⟩ (checkDate_ymd ⟨b.y, m, d⟩) ?_ ?_ ?_ ?_
    · intro _; simp only [YMD.lt]; omega
    · intro _; exact ⟨rfl, rfl⟩
    · rintro ⟨uy, um, ud⟩ ⟨u1, u2, u3, u4, u5, u6⟩ hge hP _
      simp only [YMD.lt] at *; omega
    · rintro ⟨uy, um, ud⟩ ⟨u1, u2, u3, u4, u5, u6⟩ hge hP hn
      simp only [YMD.lt, YMD.mk.injEq] at *; omega

/-- C36, year in century, month and day (`YYMMDD`). -/
theorem C36_year_month_day (b : YMD) (hb : b.Valid) (yy m d : Int) :
    Resolves b (fun u => u.y % 100 = yy ∧ u.m = m ∧ u.d = d)
      (fun t => t.y / 100 = b.y / 100 ∨
        ((yy < b.y % 100 ∨ (yy = b.y % 100 ∧ (m < b.m ∨ (m = b.m ∧ d < b.d)))) ∧ t.y / 100 = b.y / 100 + 1))
      (mkDate { base := some b.date, year := some yy, month := some m, day := some d }) := by
  have hbc : b.date.complete = true := rfl
  have e : mkDate { base := some b.date, year := some yy, month := some m, day := some d } =
      (if yy < b.y % 100 ∨ (yy = b.y % 100 ∧ (m < b.m ∨ (m = b.m ∧ d < b.d))) then addCentury (b.y / 100)
        else some (b.y / 100)).bind
        (fun c => checkDate ⟨c, some yy, some m, none, some d⟩) := by
    by_cases c0 : yy < b.y % 100 <;> by_cases c4 : yy = b.y % 100 <;>
    by_cases c1 : m < b.m <;> by_cases c2 : m = b.m <;> by_cases c3 : d < b.d <;>
      first
        | (exfalso; omega)
        | simp [mkDate, truthy, setFromCalendarDay, Date.complete, YMD.date, c0, c4, c1, c2, c3, Option.bind_assoc]
  rw [e]
  have ⟨v1, v2, v3, v4, v5, v6⟩ := hb
  -- a year outside 0..99 fails
  by_cases hyy : 0 ≤ yy ∧ yy ≤ 99
  · have hcheck : ∀ C : Int, checkDate ⟨C, some yy, some m, none, some d⟩ =
        if YMD.Valid ⟨100 * C + yy, m, d⟩ then some (YMD.date ⟨100 * C + yy, m, d⟩) else none := by
      intro C; rw [checkDate_complete]; simp [hyy.1, hyy.2]
    by_cases c1 : yy < b.y % 100 ∨ (yy = b.y % 100 ∧ (m < b.m ∨ (m = b.m ∧ d < b.d)))
    · rw [if_pos c1, addCentury]
      refine resolve hb ⟨100 * (b.y / 100 + 1) + yy, m, d⟩ ?_ ?_ ?_ ?_ ?_
      · by_cases c3 : b.y / 100 ≥ 99
        · rw [if_pos c3, if_neg (by rintro ⟨_, h, _⟩; simp only at h; omega)]; rfl
        · rw [if_neg c3]; exact hcheck _
      · intro _; simp only [YMD.lt]; omega
      · intro _; refine ⟨?_, rfl, rfl⟩; simp only; omega
      · rintro ⟨uy, um, ud⟩ ⟨u1, u2, u3, u4, u5, u6⟩ hge hP _
        simp only [YMD.lt] at *; omega
      · rintro ⟨uy, um, ud⟩ ⟨u1, u2, u3, u4, u5, u6⟩ hge hP hn
        simp only [YMD.lt, YMD.mk.injEq] at *; omega
    · rw [if_neg c1]
      refine resolve hb ⟨100 * (b.y / 100) + yy, m, d⟩ (hcheck _) ?_ ?_ ?_ ?_
      · intro _; simp only [YMD.lt]; omega
      · intro _; refine ⟨?_, rfl, rfl⟩; simp only; omega
      · rintro ⟨uy, um, ud⟩ ⟨u1, u2, u3, u4, u5, u6⟩ hge hP _
        simp only [YMD.lt] at *; omega
      · rintro ⟨uy, um, ud⟩ ⟨u1, u2, u3, u4, u5, u6⟩ hge hP hn
        simp only [YMD.lt, YMD.mk.injEq] at *; omega
  · have hcheck : ∀ C : Int, checkDate ⟨C, some yy, some m, none, some d⟩ = none := by
      intro C; rw [checkDate_complete, if_neg (by omega)]
    constructor
    · intro x hx
      rw [Option.bind_eq_some_iff] at hx
      obtain ⟨C, _, h⟩ := hx
      rw [hcheck] at h; cases h
    · rintro t ⟨_, _, ⟨h, _⟩, _⟩ _
      omega

/-- Example: after 29 February 2000 the next 29th is in March; day 31 seen from 1 February raises rather than
giving 31 March. -/
example : mkDate { base := some (YMD.date ⟨2000, 2, 29⟩), day := some 28 } = some (YMD.date ⟨2000, 3, 28⟩) ∧
    mkDate { base := some (YMD.date ⟨2001, 2, 1⟩), day := some 31 } = none := by decide +kernel

/-! ## Ordinal forms -/

theorem ordinal_inj {s t : YMD} (hs : s.Valid) (ht : t.Valid) (hy : s.y = t.y) (h : s.ordinal = t.ordinal) : s = t := by
  apply number_inj hs ht
  rw [number_dby hs, number_dby ht, hy, h]

/-- Order by year and ordinal. -/
theorem lt_ordinal {s t : YMD} (hs : s.Valid) (ht : t.Valid) :
    s.lt t ↔ s.y < t.y ∨ (s.y = t.y ∧ s.ordinal < t.ordinal) := by
  rw [number_lt_iff hs ht, number_dby hs, number_dby ht]
  have os := ordinal_range hs
  have ot := ordinal_range ht
  have key : ∀ {a b : YMD}, a.Valid → b.Valid → a.y < b.y → dby a.y + a.ordinal < dby b.y + b.ordinal := by
    intro a b ha hb hlt
    have := (number_lt_iff ha hb).1 (Or.inl hlt)
    rwa [number_dby ha, number_dby hb] at this
  constructor
  · intro h
    rcases Int.lt_trichotomy s.y t.y with h1 | h1 | h1
    · exact Or.inl h1
    · right; rw [h1] at h; exact ⟨h1, by omega⟩
    · have := key ht hs h1; omega
  · rintro (h | ⟨h, h'⟩)
    · exact key hs ht h
    · rw [h]; omega

/-- The constructor with year and ordinal: the candidate, or nothing. -/
theorem resolveO {b : YMD} (hb : b.Valid) {P near : YMD → Prop} {r : Option Date} (cy co : Int)
    (hr : (∀ c : YMD, c.Valid → c.y = cy → c.ordinal = co → r = some c.date) ∧
      ((∀ c : YMD, c.Valid → c.y = cy → c.ordinal = co → False) → r = none))
    (hge : b.y < cy ∨ (b.y = cy ∧ b.ordinal ≤ co))
    (hP : ∀ c : YMD, c.Valid → c.y = cy → c.ordinal = co → P c)
    (hmin : ∀ u : YMD, u.Valid → (b.y < u.y ∨ (b.y = u.y ∧ b.ordinal ≤ u.ordinal)) → P u →
      cy < u.y ∨ (cy = u.y ∧ co ≤ u.ordinal))
    (hnear : ∀ t : YMD, t.Valid → (b.y < t.y ∨ (b.y = t.y ∧ b.ordinal ≤ t.ordinal)) → P t → near t →
      t.y = cy ∧ t.ordinal = co) :
    Resolves b P near r := by
  have conv : ∀ u : YMD, u.Valid → (b.number ≤ u.number ↔ b.y < u.y ∨ (b.y = u.y ∧ b.ordinal ≤ u.ordinal)) := by
    intro u hu
    rw [number_le_iff hb hu, lt_ordinal hu hb]; omega
  constructor
  · intro x e
    by_cases hex : ∃ c : YMD, c.Valid ∧ c.y = cy ∧ c.ordinal = co
    · obtain ⟨c, hc, h1, h2⟩ := hex
      refine ⟨c, ⟨hc, (conv c hc).2 (by omega), hP c hc h1 h2, fun u hu hb' hPu => ?_⟩, ?_⟩
      · rw [number_le_iff hc hu, lt_ordinal hu hc]
        have := hmin u hu ((conv u hu).1 hb') hPu
        omega
      · rw [hr.1 c hc h1 h2] at e; exact (Option.some.inj e).symm
    · rw [hr.2 (fun c hc h1 h2 => hex ⟨c, hc, h1, h2⟩)] at e; cases e
  · rintro t ⟨hv, hge', hPt, _⟩ hn
    have := hnear t hv ((conv t hv).1 hge') hPt hn
    exact hr.1 t hv this.1 this.2

theorem ordinal_ctor (C Y o : Int) (hY : 0 ≤ Y ∧ Y ≤ 99) :
    (∀ c : YMD, c.Valid → c.y = 100 * C + Y → c.ordinal = o →
      (setFromOrdinalDay (some C) (some Y) o none).bind checkDate = some c.date) ∧
    ((∀ c : YMD, c.Valid → c.y = 100 * C + Y → c.ordinal = o → False) → o ≠ 0 →
      (setFromOrdinalDay (some C) (some Y) o none).bind checkDate = none) := by
  have e1 : (100 * C + Y) / 100 = C := by omega
  have e2 : (100 * C + Y) % 100 = Y := by omega
  constructor
  · intro c hc h1 h2
    have := setFromOrdinal_date hc
    rw [h1, e1, e2, h2] at this
    rw [this, Option.bind_some, checkDate_date hc]
  · intro hno ho
    by_cases hy : 1 ≤ 100 * C + Y ∧ 100 * C + Y ≤ 9999
    · have := (C11_ordinal_constructor (100 * C + Y) o hy ho).2 (by
        intro hr
        obtain ⟨c, hc, h1, h2⟩ := exists_of_ordinal hy.1 hy.2 hr.1 hr.2
        exact hno c hc h1 h2)
      rw [e1, e2] at this
      simpa [mkDate, truthy, ho] using this
    · obtain ⟨d, e, h1, h2⟩ := setFromOrdinal_shape (100 * C + Y) o
      rw [e1, e2] at e
      rw [e1] at h1
      rw [e2] at h2
      rw [e, Option.bind_some]
      unfold checkDate
      rw [h1, h2]
      by_cases c1 : C < 0 ∨ C > 99
      · rw [if_pos c1]
      · rw [if_neg c1]; dsimp only; rw [if_neg (by omega), if_pos (by omega)]

/-- C36, ordinal day (`-DDD`). -/
theorem C36_ordinal (b : YMD) (hb : b.Valid) (o : Int) (ho : o ≠ 0) :
    Resolves b (fun u => u.ordinal = o) (fun t => t.y = b.y ∨ (o < b.ordinal ∧ t.y = b.y + 1))
      (mkDate { base := some b.date, ordinal := some o }) := by
  have hbc : b.date.complete = true := rfl
  have ⟨v1, v2, v3, v4, v5, v6⟩ := hb
  have or := ordinal_range hb
  have e : mkDate { base := some b.date, ordinal := some o } =
      (if o < b.ordinal then addYear (b.y / 100) (b.y % 100) else some (b.y / 100, b.y % 100)).bind
        (fun p => (setFromOrdinalDay (some p.1) (some p.2) o none).bind checkDate) := by
    by_cases c : o < b.ordinal <;>
    simp [mkDate, truthy, ho, setFromOrdinalDay, hbc, getOrdinalDay_date hb, Option.bind_assoc, c]
  rw [e]
  by_cases c1 : o < b.ordinal
  · rw [if_pos c1, addYear_eq _ ⟨v1, v2⟩]
    refine resolveO hb (b.y + 1) o ?_ (by omega) (fun _ _ _ h => h) ?_ ?_
    · by_cases c3 : b.y = 9999
      · rw [if_pos c3]
        refine ⟨fun c hc h1 _ => ?_, fun _ => rfl⟩
        have := hc.2.1; omega
      · rw [if_neg c3, Option.bind_some]
        have := ordinal_ctor ((b.y + 1) / 100) ((b.y + 1) % 100) o (by omega)
        rw [show 100 * ((b.y + 1) / 100) + (b.y + 1) % 100 = b.y + 1 by omega] at this
        exact ⟨this.1, fun h => this.2 h ho⟩
    · intro u hu h1 h2; omega
    · intro u hu h1 h2 h3; omega
  · rw [if_neg c1]
    refine resolveO hb b.y o ?_ (by omega) (fun _ _ _ h => h) ?_ ?_
    · rw [Option.bind_some]
      have := ordinal_ctor (b.y / 100) (b.y % 100) o (by omega)
      rw [show 100 * (b.y / 100) + b.y % 100 = b.y by omega] at this
      exact ⟨this.1, fun h => this.2 h ho⟩
    · intro u hu h1 h2; omega
    · intro u hu h1 h2 h3; omega

/-- C36, year in century and ordinal day (`YYDDD`). -/
theorem C36_year_ordinal (b : YMD) (hb : b.Valid) (yy o : Int) (ho : o ≠ 0) (hyy : 0 ≤ yy ∧ yy ≤ 99) :
    Resolves b (fun u => u.y % 100 = yy ∧ u.ordinal = o)
      (fun t => t.y / 100 = b.y / 100 ∨
        ((yy < b.y % 100 ∨ (yy = b.y % 100 ∧ o < b.ordinal)) ∧ t.y / 100 = b.y / 100 + 1))
      (mkDate { base := some b.date, year := some yy, ordinal := some o }) := by
  have hbc : b.date.complete = true := rfl
  have ⟨v1, v2, v3, v4, v5, v6⟩ := hb
  have or := ordinal_range hb
  have e : mkDate { base := some b.date, year := some yy, ordinal := some o } =
      (if yy < b.y % 100 ∨ (yy = b.y % 100 ∧ o < b.ordinal) then addCentury (b.y / 100) else some (b.y / 100)).bind
        (fun c => (setFromOrdinalDay (some c) (some yy) o none).bind checkDate) := by
    by_cases c : yy < b.y % 100 ∨ (yy = b.y % 100 ∧ o < b.ordinal) <;>
    simp [mkDate, truthy, ho, setFromOrdinalDay, hbc, getOrdinalDay_date hb, Option.bind_assoc, c]
  rw [e]
  by_cases c1 : yy < b.y % 100 ∨ (yy = b.y % 100 ∧ o < b.ordinal)
  · rw [if_pos c1, addCentury]
    refine resolveO hb (100 * (b.y / 100 + 1) + yy) o ?_ (by omega) (fun u _ h h' => ⟨by omega, h'⟩) ?_ ?_
    · by_cases c3 : b.y / 100 ≥ 99
      · rw [if_pos c3]
        refine ⟨fun c hc h1 _ => ?_, fun _ => rfl⟩
        have := hc.2.1; omega
      · rw [if_neg c3, Option.bind_some]
        have := ordinal_ctor (b.y / 100 + 1) yy o hyy
        exact ⟨this.1, fun h => this.2 h ho⟩
    · intro u hu h1 h2; omega
    · intro u hu h1 h2 h3; omega
  · rw [if_neg c1]
    refine resolveO hb (100 * (b.y / 100) + yy) o ?_ (by omega) (fun u _ h h' => ⟨by omega, h'⟩) ?_ ?_
    · rw [Option.bind_some]
      have := ordinal_ctor (b.y / 100) yy o hyy
      exact ⟨this.1, fun h => this.2 h ho⟩
    · intro u hu h1 h2; omega
    · intro u hu h1 h2 h3; omega

example : mkDate { base := some (YMD.date ⟨1999, 12, 31⟩), year := some 0, ordinal := some 366 } =
    some (YMD.date ⟨2000, 12, 31⟩) := by decide +kernel

end Verif.Iso

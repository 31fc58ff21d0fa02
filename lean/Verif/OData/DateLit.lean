import Verif.OData.LitProps
/-!
# OData date and time literals: reading back what was written
-/
namespace Verif.OData

open Verif.Text
open Verif.Iso (Date Time TimePoint mkDate mkTime mkTimePoint YMD Clock Zone timePoint fmtInt fmt2 dg dg_val isDigit_dg parts)

theorem digits_exact (n : Nat) (w r : Str) (hl : w.length = n) (hw : ∀ c ∈ w, isDigit c = true) :
    digits n (some n) (w ++ r) = .ok w r := by
  have h1 : ((w ++ r).takeWhile isDigit).take n = w := by
    rw [List.takeWhile_append_of_pos hw, ← hl, List.take_left']
    rfl
  unfold digits
  dsimp only
  rw [h1, if_neg (by omega), List.drop_left]

theorem integer_two (lo hi : Nat) (md : Option Nat) (hmd : md = none ∨ md = some 2) (n : Int)
    (hn : 0 ≤ n ∧ n ≤ 99) (h1 : lo ≤ n.toNat) (h2 : n.toNat ≤ hi) (c : Nat) (r : Str) (hc : isDigit c = false) :
    integer lo hi md (fmtInt 2 n ++ c :: r) = .ok n.toNat (c :: r) := by
  rw [fmt2 n hn]
  have hd : ∀ c ∈ [dg (n / 10), dg n], isDigit c = true := by
    intro c hc
    simp only [List.mem_cons, List.not_mem_nil, or_false] at hc
    rcases hc with rfl | rfl <;> exact isDigit_dg _
  have key := takeWhile_stop (r := c :: r) hd (fun d hd => by cases hd; exact hc)
  have hval : decVal [dg (n / 10), dg n] = n.toNat := by
    simp only [decVal, List.foldl_cons, List.foldl_nil, dg]; omega
  have hdg : digits 1 md ([dg (n / 10), dg n] ++ c :: r) = .ok [dg (n / 10), dg n] (c :: r) := by
    unfold digits
    rw [key.1]
    rcases hmd with rfl | rfl <;> simp
  unfold integer
  rw [hdg]
  simp only [R.bind]
  rw [hval, if_neg (by omega)]

theorem mkDate_ymd {t : YMD} (h : t.Valid) :
    mkDate { century := some (t.y / 100), year := some (t.y % 100), month := some t.m, day := some t.d } = some t.date := by
  rw [← Iso.checkDate_date h]
  simp [mkDate, Iso.truthy, Iso.setFromCalendarDay, YMD.date]

/-- The text of a clock reading without zone. -/
def clockText (c : Clock) : Str := fmtInt 2 c.h ++ 58 :: (fmtInt 2 c.m ++ 58 :: fmtInt 2 c.s)

theorem time_string (c : Clock) : (c.time .unspecified).string false .none true = some (clockText c) := by
  simp [Time.string, Clock.time, Time.zoneString, clockText, Iso.colon]

/-- The text of a date. -/
def dateText (t : YMD) : Str :=
  fmtInt 2 (t.y / 100) ++ (fmtInt 2 (t.y % 100) ++ 45 :: (fmtInt 2 t.m ++ 45 :: fmtInt 2 t.d))

theorem date_string (t : YMD) : t.date.calendarString false .none = some (dateText t) := by
  simp [Date.calendarString, YMD.date, dateText, Iso.hyphen]

theorem clock_ranges {c : Clock} (hc : c.Valid) :
    (0 ≤ c.h ∧ c.h ≤ 99) ∧ (0 ≤ c.m ∧ c.m ≤ 99) ∧ (0 ≤ c.s ∧ c.s ≤ 99) := by
  unfold Clock.Valid at hc; omega

theorem seconds_text (n : Int) (hn : 0 ≤ n ∧ n ≤ 60) (r : Str) :
    seconds (58 :: (fmtInt 2 n ++ 39 :: r)) = .ok (n.toNat, []) (39 :: r) := by
  simp only [seconds]
  rw [integer_two 0 60 (some 2) (.inr rfl) n (by omega) (by omega) (by omega) 39 r rfl]
  rfl

theorem timeOf_clock (c : Clock) (hc : c.Valid) : timeOf c.h.toNat c.m.toNat c.s.toNat [] = some (c.time .unspecified) := by
  have := Iso.mkTime_named c .unspecified trivial none none none rfl
  rw [if_pos hc] at this
  unfold timeOf
  rw [if_neg (by simp [decVal]), ← this]
  have ⟨h1, h2, h3⟩ := clock_ranges hc
  rw [Int.toNat_of_nonneg h1.1, Int.toNat_of_nonneg h2.1, Int.toNat_of_nonneg h3.1]

theorem timeBody_clock (c : Clock) (hc : c.Valid) (r : Str) :
    timeBody (clockText c ++ 39 :: r) = .ok (.time (c.time .unspecified) []) (39 :: r) := by
  have ⟨h1, h2, h3⟩ := clock_ranges hc
  have hv := hc
  unfold Clock.Valid at hv
  unfold timeBody clockText
  simp only [List.append_assoc, List.cons_append]
  rw [integer_two 0 24 none (.inl rfl) c.h h1 (by omega) (by omega) 58 _ rfl]
  simp only [R.require, R.bind]
  rw [expect_self]
  simp only [R.bind]
  rw [integer_two 0 60 (some 2) (.inr rfl) c.m h2 (by omega) (by omega) 58 _ rfl]
  simp only [R.bind]
  rw [seconds_text c.s (by omega) r]
  simp only [R.bind]
  rw [timeOf_clock c hc]

theorem keyword_time (q : Str) : keyword (chars "time") q = quoted timeBody q := by
  unfold keyword
  simp +decide only [if_false, if_true]
theorem keyword_datetime (q : Str) : keyword (chars "datetime") q = quoted datetimeBody q := by
  unfold keyword
  simp +decide only [if_false, if_true]
theorem keyword_dto (q : Str) : keyword (chars "datetimeoffset") q = quoted dtoBody q := by
  unfold keyword
  simp +decide only [if_false, if_true]

theorem parseLit_quoted (ids : Ids) (w : Str) (hw : IsName ids w) (body : Str → R Val)
    (hk : ∀ q, keyword w q = quoted body q) (t r : Str) (v : Val) (hb : body (t ++ 39 :: r) = .ok v (39 :: r)) :
    parseLit ids (wrap w t ++ r) = .ok v r := by
  have e : wrap w t ++ r = w ++ (39 :: (t ++ 39 :: r)) := by simp [wrap, List.append_assoc]
  rw [e, parseLit_keyword ids hw (quote_break ids _), hk]
  unfold quoted
  rw [expect_self]
  simp only [R.bind]
  rw [hb]
  simp only [R.require, R.bind]
  rw [expect_self]

theorem parseLit_time (ids : Ids) (c : Clock) (hc : c.Valid) (r : Str) :
    ∃ t, formatLit (.time (c.time .unspecified) []) = some t ∧
      parseLit ids (t ++ r) = .ok (.time (c.time .unspecified) []) r := by
  refine ⟨wrap (chars "time") (clockText c), by simp [formatLit, time_string], ?_⟩
  exact parseLit_quoted ids _ (isName_word ids _ (by decide) (by decide)) timeBody keyword_time _ _ _ (timeBody_clock c hc r)

theorem year_digits {t : YMD} (h : t.Valid) (r : Str) :
    digits 4 (some 4) (fmtInt 2 (t.y / 100) ++ (fmtInt 2 (t.y % 100) ++ r)) =
      .ok (fmtInt 2 (t.y / 100) ++ fmtInt 2 (t.y % 100)) r ∧
    decVal (fmtInt 2 (t.y / 100) ++ fmtInt 2 (t.y % 100)) = t.y.toNat := by
  have ⟨p1, p2, p3, p4, p5⟩ := parts h
  have v := h
  unfold YMD.Valid at v
  constructor
  · rw [← List.append_assoc]
    refine digits_exact 4 _ _ ?_ ?_
    · rw [fmt2 _ p1, fmt2 _ p2]; rfl
    · rw [fmt2 _ p1, fmt2 _ p2]
      intro c hc
      simp only [List.cons_append, List.nil_append, List.mem_cons, List.not_mem_nil, or_false] at hc
      rcases hc with rfl | rfl | rfl | rfl <;> exact isDigit_dg _
  · rw [fmt2 _ p1, fmt2 _ p2]
    simp only [decVal, List.cons_append, List.nil_append, List.foldl_cons, List.foldl_nil, dg]
    omega

theorem monthLen_le (y m : Int) : Iso.monthLen y m ≤ 31 := by
  unfold Iso.monthLen; split <;> (try split) <;> omega

theorem datetimeBody_text {t : YMD} (h : t.Valid) (c : Clock) (hc : c.Valid) (r : Str) :
    datetimeBody (dateText t ++ 84 :: (clockText c ++ 39 :: r)) = .ok (.dt (timePoint t c .unspecified) []) (39 :: r) := by
  have ⟨h1, h2, h3⟩ := clock_ranges hc
  have hv := hc
  unfold Clock.Valid at hv
  have ⟨p1, p2, p3, p4, p5⟩ := parts h
  have v := h
  unfold YMD.Valid at v
  have hm := monthLen_le t.y t.m
  unfold datetimeBody dateText clockText
  simp only [List.append_assoc, List.cons_append]
  rw [(year_digits h _).1]
  simp only [R.require, R.bind]
  rw [expect_self]
  simp only [R.bind]
  rw [integer_two 1 12 none (.inl rfl) t.m p3 (by omega) (by omega) 45 _ rfl]
  simp only [R.bind]
  rw [expect_self]
  simp only [R.bind]
  rw [integer_two 1 31 (some 2) (.inr rfl) t.d p4 (by omega) (by omega) 84 _ rfl]
  simp only [R.bind]
  rw [expect_self]
  simp only [R.bind]
  rw [integer_two 0 24 none (.inl rfl) c.h h1 (by omega) (by omega) 58 _ rfl]
  simp only [R.bind]
  rw [expect_self]
  simp only [R.bind]
  rw [integer_two 0 60 (some 2) (.inr rfl) c.m h2 (by omega) (by omega) 58 _ rfl]
  simp only [R.bind]
  rw [seconds_text c.s (by omega) r]
  simp only [R.bind]
  rw [timeOf_clock c hc, (year_digits h (45 :: r)).2]
  have e1 : ((t.y.toNat / 100 : Nat) : Int) = t.y / 100 := by omega
  have e2 : ((t.y.toNat % 100 : Nat) : Int) = t.y % 100 := by omega
  rw [e1, e2, Int.toNat_of_nonneg p3.1, Int.toNat_of_nonneg p4.1, mkDate_ymd h]
  have hmk := Iso.mkTimePoint_complete t h c .unspecified trivial
  rw [if_pos hc] at hmk
  simp only [Option.bind_eq_bind, Option.bind_some]
  rw [hmk]
  rfl

theorem dt_string (t : YMD) (c : Clock) :
    (timePoint t c .unspecified).string Date.calendarString false .none true = some (dateText t ++ 84 :: clockText c) := by
  unfold TimePoint.string
  have e1 : (timePoint t c .unspecified).date = t.date := rfl
  have e2 : (timePoint t c .unspecified).time = c.time .unspecified := rfl
  rw [e1, e2, date_string, time_string]
  simp

theorem parseLit_datetime (ids : Ids) {t : YMD} (h : t.Valid) (c : Clock) (hc : c.Valid) (r : Str) :
    ∃ s, formatLit (.dt (timePoint t c .unspecified) []) = some s ∧
      parseLit ids (s ++ r) = .ok (.dt (timePoint t c .unspecified) []) r := by
  refine ⟨wrap (chars "datetime") (dateText t ++ 84 :: clockText c), by simp [formatLit, dt_string], ?_⟩
  refine parseLit_quoted ids _ (isName_word ids _ (by decide) (by decide)) datetimeBody keyword_datetime _ _ _ ?_
  rw [List.append_assoc, List.cons_append]
  exact datetimeBody_text h c hc r

/-! ### Offsets -/

theorem fmt2_noquote (n : Int) (h : 0 ≤ n ∧ n ≤ 99) : ∀ c ∈ fmtInt 2 n, c ≠ 39 := by
  rw [fmt2 n h]
  intro c hc he
  simp only [List.mem_cons, List.not_mem_nil, or_false] at hc
  rcases hc with rfl | rfl <;> (simp only [dg] at he; omega)

/-- The zone as it is written. -/
def zoneText : Zone → Str
  | .unspecified => []
  | .utc => [90]
  | .east n => 43 :: (fmtInt 2 (n / 60) ++ 58 :: fmtInt 2 (n % 60))
  | .west n => 45 :: (fmtInt 2 (n / 60) ++ 58 :: fmtInt 2 (n % 60))

theorem zone_string (c : Clock) (z : Zone) : (c.time z).zoneString false true = some (zoneText z) := by
  cases z <;> simp [Time.zoneString, Clock.time, zoneText, Iso.colon]

theorem dto_string (t : YMD) (c : Clock) (z : Zone) :
    (timePoint t c z).string Date.calendarString false .none true =
      some (dateText t ++ 84 :: (clockText c ++ zoneText z)) := by
  have e : (c.time z).string false .none true = some (clockText c ++ zoneText z) := by
    have hz := zone_string c z
    have hs : (c.time z).second = some c.s := by cases z <;> rfl
    have hm : (c.time z).minute = some c.m := by cases z <;> rfl
    have hh : (c.time z).hour = c.h := by cases z <;> rfl
    unfold Time.string
    rw [hs, hm, hh, hz]
    simp [clockText, Iso.colon]
  unfold TimePoint.string
  have e1 : (timePoint t c z).date = t.date := rfl
  have e2 : (timePoint t c z).time = c.time z := rfl
  rw [e1, e2, date_string, e]
  simp

theorem dto_noquote (t : YMD) (h : t.Valid) (c : Clock) (hc : c.Valid) (z : Zone) (hz : z.Valid) :
    ∀ x ∈ dateText t ++ 84 :: (clockText c ++ zoneText z), x ≠ 39 := by
  have ⟨h1, h2, h3⟩ := clock_ranges hc
  have ⟨p1, p2, p3, p4, p5⟩ := parts h
  have hzt : ∀ x ∈ zoneText z, x ≠ 39 := by
    cases z with
    | unspecified => simp [zoneText]
    | utc => simp [zoneText]
    | east n =>
      simp only [Zone.Valid] at hz
      intro x hx
      simp only [zoneText, List.mem_cons, List.mem_append] at hx
      rcases hx with rfl | hx | rfl | hx
      · decide
      · exact fmt2_noquote _ (by omega) x hx
      · decide
      · exact fmt2_noquote _ (by omega) x hx
    | west n =>
      simp only [Zone.Valid] at hz
      intro x hx
      simp only [zoneText, List.mem_cons, List.mem_append] at hx
      rcases hx with rfl | hx | rfl | hx
      · decide
      · exact fmt2_noquote _ (by omega) x hx
      · decide
      · exact fmt2_noquote _ (by omega) x hx
  intro x hx
  simp only [dateText, clockText, List.mem_cons, List.mem_append] at hx
  rcases hx with (hx | hx | rfl | hx | rfl | hx) | rfl | (hx | rfl | hx | rfl | hx) | hx
  · exact fmt2_noquote _ p1 x hx
  · exact fmt2_noquote _ p2 x hx
  · decide
  · exact fmt2_noquote _ p3 x hx
  · decide
  · exact fmt2_noquote _ p4 x hx
  · decide
  · exact fmt2_noquote _ h1 x hx
  · decide
  · exact fmt2_noquote _ h2 x hx
  · decide
  · exact fmt2_noquote _ h3 x hx
  · exact hzt x hx

/-- How a zone comes back: UTC is written as +00:00. -/
def offsetZone : Zone → Zone
  | .utc => .east 0
  | z => z

theorem setDto_text {t : YMD} (h : t.Valid) (c : Clock) (hc : c.Valid) (z : Zone) (hz : z.Valid) (hu : z ≠ .unspecified) :
    setDto (dateText t ++ 84 :: (clockText c ++ zoneText z)) = some (.dto (timePoint t c z)) := by
  obtain ⟨⟨s, e1, e2⟩, -⟩ := Iso.C17_time_point_round_trip t h c hc z hz false true
  rw [dto_string] at e1
  cases e1
  unfold setDto
  rw [e2]
  simp only [Option.bind_eq_bind, Option.bind_some]
  have ht : (timePoint t c z).time = c.time z := rfl
  have hcomp : (timePoint t c z).complete = true := by
    cases z <;> rfl
  rw [ht, hcomp]
  cases z with
  | unspecified => exact absurd rfl hu
  | utc => rfl
  | east n => rfl
  | west n => rfl

theorem dtoText_eq {t : YMD} (c : Clock) (hc : c.Valid) (z : Zone) (hz : z.Valid) (hu : z ≠ .unspecified) :
    dtoText (timePoint t c z) = some (dateText t ++ 84 :: (clockText c ++ zoneText (offsetZone z))) := by
  unfold dtoText
  rw [dto_string]
  simp only [Option.bind_eq_bind, Option.bind_some]
  have last : ∀ (s : Str) (n : Int), 0 ≤ n ∧ n ≤ 99 → (s ++ fmtInt 2 n).getLast? ≠ some 90 := by
    intro s n hn
    rw [fmt2 n hn, List.getLast?_append]
    simp only [List.getLast?_cons_cons, List.getLast?_singleton, Option.some_or]
    simp only [dg, ne_eq, Option.some.injEq]; omega
  cases z with
  | unspecified => exact absurd rfl hu
  | utc =>
    have e : dateText t ++ 84 :: (clockText c ++ zoneText .utc) = (dateText t ++ 84 :: clockText c) ++ [90] := by
      simp [zoneText]
    rw [e, List.getLast?_concat, if_pos rfl, List.dropLast_concat]
    have : zoneText (offsetZone .utc) = chars "+00:00" := by decide +kernel
    rw [this, List.append_assoc, List.cons_append]; rfl
  | east n =>
    simp only [Zone.Valid] at hz
    have e : dateText t ++ 84 :: (clockText c ++ zoneText (.east n)) =
        (dateText t ++ 84 :: (clockText c ++ 43 :: (fmtInt 2 (n / 60) ++ [58]))) ++ fmtInt 2 (n % 60) := by
      simp [zoneText]
    rw [if_neg]
    · rfl
    · rw [e]; exact last _ _ (by omega)
  | west n =>
    simp only [Zone.Valid] at hz
    have e : dateText t ++ 84 :: (clockText c ++ zoneText (.west n)) =
        (dateText t ++ 84 :: (clockText c ++ 45 :: (fmtInt 2 (n / 60) ++ [58]))) ++ fmtInt 2 (n % 60) := by
      simp [zoneText]
    rw [if_neg]
    · rfl
    · rw [e]; exact last _ _ (by omega)

theorem offsetZone_valid {z : Zone} (hz : z.Valid) : (offsetZone z).Valid := by
  cases z <;> simp only [offsetZone, Zone.Valid] at * <;> omega

theorem parseLit_dto (ids : Ids) {t : YMD} (h : t.Valid) (c : Clock) (hc : c.Valid) (z : Zone) (hz : z.Valid)
    (hu : z ≠ .unspecified) (r : Str) :
    ∃ s, formatLit (.dto (timePoint t c z)) = some s ∧
      parseLit ids (s ++ r) = .ok (.dto (timePoint t c (offsetZone z))) r := by
  refine ⟨wrap (chars "datetimeoffset") (dateText t ++ 84 :: (clockText c ++ zoneText (offsetZone z))),
    by simp [formatLit, dtoText_eq c hc z hz hu], ?_⟩
  refine parseLit_quoted ids _ (isName_word ids _ (by decide) (by decide)) dtoBody keyword_dto _ _ _ ?_
  have hq := dto_noquote t h c hc _ (offsetZone_valid hz)
  have key := takeWhile_stop (p := fun x => decide (x ≠ 39)) (r := 39 :: r)
    (fun x hx => by simpa using hq x hx) (fun x hx => by cases hx; rfl)
  unfold dtoBody
  rw [key.1, key.2, setDto_text h c hc _ (offsetZone_valid hz) (by cases z <;> simp_all [offsetZone])]

end Verif.OData

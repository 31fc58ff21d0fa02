import Verif.Iso.TimeSpec
import Verif.Iso.DateProps
/-! # Property theorems C13-C16 and C38 about times and time points -/
namespace Verif.Iso

theorem checkHMS_complete (h m s : Int) (zd zo : Option Int) :
    checkTime.checkHMS ⟨h, some m, some s, zd, zo⟩ =
      if Clock.Valid ⟨h, m, s⟩ then some ⟨h, some m, some s, zd, zo⟩ else none := by
  have hV : Clock.Valid ⟨h, m, s⟩ ↔ 0 ≤ h ∧ h ≤ 24 ∧ 0 ≤ m ∧ m ≤ 59 ∧ 0 ≤ s ∧ s ≤ 60 ∧ (h = 24 → m = 0 ∧ s = 0) :=
    Iff.rfl
  simp only [hV]
  unfold checkTime.checkHMS
  simp only [Option.mem_some_iff, exists_eq_left']
  by_cases h1 : h < 0 ∨ h > 24
  · rw [if_pos h1, if_neg (by omega)]
  by_cases h2 : h = 24 ∧ (m > 0 ∨ s > 0)
  · rw [if_neg h1, if_pos h2, if_neg (by omega)]
  by_cases h3 : m < 0 ∨ m > 59
  · rw [if_neg h1, if_neg h2, if_pos h3, if_neg (by omega)]
  by_cases h4 : s < 0 ∨ s ≥ 61
  · rw [if_neg h1, if_neg h2, if_neg h3, if_pos h4, if_neg (by omega)]
  rw [if_neg h1, if_neg h2, if_neg h3, if_neg h4, if_pos (by omega)]

theorem checkTime_complete (c : Clock) (z : Zone) (hz : z.Valid) :
    checkTime (c.time z) = if c.Valid then some (c.time z) else none := by
  cases z with
  | unspecified => simp only [checkTime, Clock.time, checkHMS_complete]
  | utc => simp [checkTime, Clock.time, checkHMS_complete]
  | east n =>
    simp only [Zone.Valid] at hz
    simp [checkTime, Clock.time, checkHMS_complete]; omega
  | west n =>
    simp only [Zone.Valid] at hz
    simp [checkTime, Clock.time, checkHMS_complete]; omega

theorem zone3_time (c : Clock) (z : Zone) : (c.time z).zone3 = z.args := by
  cases z <;> simp [Time.zone3, Clock.time, Zone.args]

theorem args_named (z : Zone) : z.Named z.args.1 z.args.2.1 z.args.2.2 := by
  cases z <;> simp [Zone.Named, Zone.args] <;> omega

theorem mkTime_named (c : Clock) (z : Zone) (hz : z.Valid) (zd zh zm : Option Int) (hn : z.Named zd zh zm) :
    mkTime { hour := some c.h, minute := some c.m, second := some c.s, zdir := zd, zhour := zh,
             zminute := zm } = if c.Valid then some (c.time z) else none := by
  rw [← checkTime_complete c z hz]
  cases z with
  | unspecified => simp only [Zone.Named] at hn; subst hn; simp [mkTime, zoneOffset, Clock.time]
  | utc => simp only [Zone.Named] at hn; subst hn; simp [mkTime, zoneOffset, Clock.time]
  | east n =>
    obtain ⟨rfl, h, rfl, rfl⟩ := hn
    cases zm <;> simp [mkTime, zoneOffset, Clock.time, Int.mul_comm]
  | west n =>
    obtain ⟨rfl, h, rfl, rfl⟩ := hn
    cases zm <;> simp [mkTime, zoneOffset, Clock.time, Int.mul_comm]

theorem mkTime_complete (c : Clock) (z : Zone) (hz : z.Valid) :
    mkTime { hour := some c.h, minute := some c.m, second := some c.s, zdir := z.args.1, zhour := z.args.2.1,
             zminute := z.args.2.2 } = if c.Valid then some (c.time z) else none :=
  mkTime_named c z hz _ _ _ (args_named z)

/-- `offset` on a complete time, in closed form. -/
theorem offset_time (c : Clock) (z : Zone) (hz : z.Valid) (H M S : Int) :
    ∃ s' M' m' H' h' days : Int,
      (S = 0 ∧ s' = c.s ∧ M' = M ∨ S ≠ 0 ∧ s' = (c.s + S) % 60 ∧ M' = M + (c.s + S) / 60) ∧
      (M' = 0 ∧ m' = c.m ∧ H' = H ∨ M' ≠ 0 ∧ m' = (c.m + M') % 60 ∧ H' = H + (c.m + M') / 60) ∧
      (H' = 0 ∧ h' = c.h ∧ days = 0 ∨ H' ≠ 0 ∧ h' = (c.h + H') % 24 ∧ days = (c.h + H') / 24) ∧
    (c.time z).offset H M S = if Clock.Valid ⟨h', m', s'⟩ then some (Clock.time ⟨h', m', s'⟩ z, days) else none := by
  have hs : (c.time z).second = some c.s := by cases z <;> rfl
  have hm : (c.time z).minute = some c.m := by cases z <;> rfl
  have hh : (c.time z).hour = c.h := by cases z <;> rfl
  unfold Time.offset
  rw [hs, hm, hh, zone3_time]
  obtain ⟨s', M', c1, e1⟩ : ∃ s' M' : Int,
      (S = 0 ∧ s' = c.s ∧ M' = M ∨ S ≠ 0 ∧ s' = (c.s + S) % 60 ∧ M' = M + (c.s + S) / 60) ∧
      (if S ≠ 0 then do
        let s ← some c.s
        return (some ((s + S) % 60), M + (s + S) / 60)
      else some (some c.s, M) : Option (Option Int × Int)) = some (some s', M') := by
    by_cases h : S = 0
    · exact ⟨_, _, .inl ⟨h, rfl, rfl⟩, by simp [h]⟩
    · exact ⟨_, _, .inr ⟨h, rfl, rfl⟩, by simp [h]⟩
  obtain ⟨m', H', c2, e2⟩ : ∃ m' H' : Int,
      (M' = 0 ∧ m' = c.m ∧ H' = H ∨ M' ≠ 0 ∧ m' = (c.m + M') % 60 ∧ H' = H + (c.m + M') / 60) ∧
      (if M' ≠ 0 then do
        let s ← some c.m
        return (some ((s + M') % 60), H + (s + M') / 60)
      else some (some c.m, H) : Option (Option Int × Int)) = some (some m', H') := by
    by_cases h : M' = 0
    · exact ⟨_, _, .inl ⟨h, rfl, rfl⟩, by simp [h]⟩
    · exact ⟨_, _, .inr ⟨h, rfl, rfl⟩, by simp [h]⟩
  obtain ⟨h', days, c3, e3⟩ : ∃ h' days : Int,
      (H' = 0 ∧ h' = c.h ∧ days = 0 ∨ H' ≠ 0 ∧ h' = (c.h + H') % 24 ∧ days = (c.h + H') / 24) ∧
      (if H' ≠ 0 then ((c.h + H') % 24, (c.h + H') / 24) else (c.h, 0) : Int × Int) = (h', days) := by
    by_cases h : H' = 0
    · exact ⟨_, _, .inl ⟨h, rfl, rfl⟩, by simp [h]⟩
    · exact ⟨_, _, .inr ⟨h, rfl, rfl⟩, by simp [h]⟩
  refine ⟨s', M', m', H', h', days, c1, c2, c3, ?_⟩
  have key := mkTime_complete ⟨h', m', s'⟩ z hz
  rw [e1]
  simp only [Option.bind_eq_bind, Option.bind_some]
  simp only [Option.bind_eq_bind, Option.bind_some] at e2
  rw [e2]
  simp only [Option.bind_some]
  rw [e3]
  dsimp only
  rw [key]
  by_cases hv : Clock.Valid ⟨h', m', s'⟩
  · rw [if_pos hv, if_pos hv]; rfl
  · rw [if_neg hv, if_neg hv]; rfl

/-- C13: `offset` conserves seconds: for every complete time before 24:00:00 and every offset (of any
sign and size) the call returns a valid time of day in the same zone and the number of days carried;
a leap second survives only an offset of whole minutes. -/
theorem C13_offset (c : Clock) (hc : c.Valid) (h24 : c.h ≠ 24) (z : Zone) (hz : z.Valid) (H M S : Int) :
    ∃ (c' : Clock) (days : Int), (c.time z).offset H M S = some (c'.time z, days) ∧ c'.Valid ∧ c'.h ≤ 23 ∧
      (c'.s = 60 → c.s = 60 ∧ S = 0) ∧
      c'.seconds + 86400 * days = c.seconds + 3600 * H + 60 * M + S := by
  rcases c with ⟨h, m, s⟩
  simp only [Clock.Valid] at hc h24
  obtain ⟨s', M', m', H', h', days, c1, c2, c3, e⟩ := offset_time ⟨h, m, s⟩ z hz H M S
  dsimp only at c1 c2 c3
  have hv : Clock.Valid ⟨h', m', s'⟩ := by
    simp only [Clock.Valid]; omega
  rw [if_pos hv] at e
  refine ⟨_, _, e, hv, ?_, ?_, ?_⟩ <;> simp only [Clock.seconds] <;> omega

/-- Violation found: 24:00:00, a valid time, cannot be moved forward by a second. -/
theorem C13_midnight_violation : (⟨24, 0, 0⟩ : Clock).Valid ∧
    (Clock.time ⟨24, 0, 0⟩ .utc).offset 0 0 1 = none ∧
    (Clock.time ⟨24, 0, 0⟩ .utc).offset 0 1 0 = none := by decide +kernel

/-- C13: `Time(total_seconds=n)` is the time `n` seconds after midnight, for exactly `0 ≤ n < 86400`. -/
theorem C13_total_seconds (n : Int) :
    (0 ≤ n ∧ n < 86400 → ∃ c : Clock, c.Valid ∧ c.h ≤ 23 ∧ c.s ≤ 59 ∧ c.seconds = n ∧
      mkTimeTotal n = some (c.time .unspecified) ∧ (c.time .unspecified).totalSeconds = some n) ∧
    (¬ (0 ≤ n ∧ n < 86400) → mkTimeTotal n = none) := by
  obtain ⟨c, days, e, hv, h23, h60, hs⟩ := C13_offset ⟨0, 0, 0⟩ (by decide) (by decide) .unspecified trivial 0 0 n
  have hz : Time.zero = Clock.time ⟨0, 0, 0⟩ .unspecified := rfl
  rcases c with ⟨h, m, s⟩
  simp only [Clock.seconds, Clock.Valid] at hs hv h23 h60
  have hs59 : s ≤ 59 := by omega
  refine ⟨?_, ?_⟩
  · rintro ⟨h1, h2⟩
    have hd : days = 0 := by omega
    subst hd
    refine ⟨⟨h, m, s⟩, hv, h23, hs59, by simp only [Clock.seconds]; omega, ?_, ?_⟩
    · rw [mkTimeTotal, hz, e]; rfl
    · simp only [Time.totalSeconds, Clock.time, Option.bind_eq_bind, Option.bind_some]
      rw [if_neg (by omega)]
      exact congrArg some (by omega)
  · intro hn
    have hd : days ≠ 0 := by omega
    rw [mkTimeTotal, hz, e]; simp [hd]

/-- C13 is not vacuous: 23:59:59 plus one day, one hour and one second, west of Greenwich. -/
example : (⟨23, 59, 59⟩ : Clock).Valid ∧ (Clock.time ⟨23, 59, 59⟩ (.west 300)).offset 25 0 1 =
    some (Clock.time ⟨1, 0, 0⟩ (.west 300), 2) := by decide +kernel

/-! ## C14 -/

theorem zoneOffset_time (c : Clock) (z : Zone) (hu : z ≠ .unspecified) : (c.time z).zoneOffset = some z.minutes := by
  cases z with
  | unspecified => exact absurd rfl hu
  | utc => rfl
  | east n => simp [Time.zoneOffset, Clock.time, Zone.minutes]
  | west n => simp [Time.zoneOffset, Clock.time, Zone.minutes]

/-- `Time.shift_zone` in closed form. -/
theorem shiftZone_time (c : Clock) (z z' : Zone) (hu : z ≠ .unspecified) (hu' : z' ≠ .unspecified)
    (hz' : z'.Valid) (zd zh zm : Option Int) (hn : z'.Named zd zh zm) :
    ∃ zs m1 h1 m' h0 h' ov : Int, zs = z'.minutes - z.minutes ∧
      m1 = c.m + zs % 60 ∧
      (m1 > 59 ∧ m' = m1 - 60 ∧ h0 = c.h + 1 ∨ m1 ≤ 59 ∧ m1 < 0 ∧ m' = m1 + 60 ∧ h0 = c.h - 1 ∨
        m1 ≤ 59 ∧ m1 ≥ 0 ∧ m' = m1 ∧ h0 = c.h) ∧
      h1 = h0 + zs / 60 ∧
      (h1 > 23 ∧ h' = h1 - 24 ∧ ov = 1 ∨ h1 ≤ 23 ∧ h1 < 0 ∧ h' = h1 + 24 ∧ ov = -1 ∨
        h1 ≤ 23 ∧ h1 ≥ 0 ∧ h' = h1 ∧ ov = 0) ∧
      (c.time z).shiftZone zd zh zm =
        if Clock.Valid ⟨h', m', c.s⟩ then some (Clock.time ⟨h', m', c.s⟩ z', ov) else none := by
  have hs : (c.time z).second = some c.s := by cases z <;> rfl
  have hm : (c.time z).minute = some c.m := by cases z <;> rfl
  have hh : (c.time z).hour = c.h := by cases z <;> rfl
  obtain ⟨d, hd, hd0, hoff⟩ : ∃ d, zd = some d ∧ (d ≠ 0 → zh.isNone = false) ∧
      d * (zh.getD 0 * 60 + zm.getD 0) = z'.minutes := by
    cases z' with
    | unspecified => exact absurd rfl hu'
    | utc => exact ⟨0, hn, by simp, by simp [Zone.minutes]⟩
    | east n =>
      obtain ⟨rfl, h, rfl, rfl⟩ := hn
      exact ⟨1, rfl, by simp, by simp [Zone.minutes]; omega⟩
    | west n =>
      obtain ⟨rfl, h, rfl, rfl⟩ := hn
      exact ⟨-1, rfl, by simp, by simp [Zone.minutes]; omega⟩
  subst hd
  have g1 : ¬ (d ≠ 0 ∧ zh.isNone = true) := by
    rintro ⟨a, b⟩; rw [hd0 a] at b; cases b
  unfold Time.shiftZone
  rw [zoneOffset_time c z hu, hs, hm, hh]
  simp only [Option.bind_eq_bind, Option.bind_some]
  rw [if_neg g1, hoff, if_neg (by simp)]
  generalize hzs : z'.minutes - z.minutes = zs
  obtain ⟨m', h0, c1, e1⟩ : ∃ m' h0 : Int,
      (c.m + zs % 60 > 59 ∧ m' = c.m + zs % 60 - 60 ∧ h0 = c.h + 1 ∨
        c.m + zs % 60 ≤ 59 ∧ c.m + zs % 60 < 0 ∧ m' = c.m + zs % 60 + 60 ∧ h0 = c.h - 1 ∨
        c.m + zs % 60 ≤ 59 ∧ c.m + zs % 60 ≥ 0 ∧ m' = c.m + zs % 60 ∧ h0 = c.h) ∧
      ((if c.m + zs % 60 > 59 then (some (c.m + zs % 60 - 60), c.h + 1)
          else if c.m + zs % 60 < 0 then (some (c.m + zs % 60 + 60), c.h - 1)
          else (some (c.m + zs % 60), c.h)) : Option Int × Int) = (some m', h0) := by
    by_cases a : c.m + zs % 60 > 59
    · exact ⟨_, _, .inl ⟨a, rfl, rfl⟩, by rw [if_pos a]⟩
    by_cases b : c.m + zs % 60 < 0
    · exact ⟨_, _, .inr (.inl ⟨by omega, b, rfl, rfl⟩), by rw [if_neg a, if_pos b]⟩
    · exact ⟨_, _, .inr (.inr ⟨by omega, by omega, rfl, rfl⟩), by rw [if_neg a, if_neg b]⟩
  obtain ⟨h', ov, c2, e2⟩ : ∃ h' ov : Int,
      (h0 + zs / 60 > 23 ∧ h' = h0 + zs / 60 - 24 ∧ ov = 1 ∨
        h0 + zs / 60 ≤ 23 ∧ h0 + zs / 60 < 0 ∧ h' = h0 + zs / 60 + 24 ∧ ov = -1 ∨
        h0 + zs / 60 ≤ 23 ∧ h0 + zs / 60 ≥ 0 ∧ h' = h0 + zs / 60 ∧ ov = 0) ∧
      ((if h0 + zs / 60 > 23 then (h0 + zs / 60 - 24, 1)
        else if h0 + zs / 60 < 0 then (h0 + zs / 60 + 24, -1) else (h0 + zs / 60, 0)) : Int × Int) = (h', ov) := by
    by_cases a : h0 + zs / 60 > 23
    · exact ⟨_, _, .inl ⟨a, rfl, rfl⟩, by rw [if_pos a]⟩
    by_cases b : h0 + zs / 60 < 0
    · exact ⟨_, _, .inr (.inl ⟨by omega, b, rfl, rfl⟩), by rw [if_neg a, if_pos b]⟩
    · exact ⟨_, _, .inr (.inr ⟨by omega, by omega, rfl, rfl⟩), by rw [if_neg a, if_neg b]⟩
  refine ⟨zs, _, _, m', h0, h', ov, rfl, rfl, c1, rfl, c2, ?_⟩
  rw [e1]
  dsimp only
  rw [e2]
  dsimp only
  have key := mkTime_named ⟨h', m', c.s⟩ z' hz' (some d) zh zm hn
  dsimp only at key
  rw [key]
  by_cases hv : Clock.Valid ⟨h', m', c.s⟩
  · rw [if_pos hv, if_pos hv]; rfl
  · rw [if_neg hv, if_neg hv]; rfl

theorem mkTimePoint_complete (d : YMD) (hd : d.Valid) (c : Clock) (z : Zone) (hz : z.Valid) :
    mkTimePoint d.date (c.time z) = if c.Valid then some (timePoint d c z) else none := by
  unfold mkTimePoint
  rw [checkDate_date hd, checkTime_complete c z hz]
  have : d.date.precision = .complete := rfl
  by_cases hv : c.Valid
  · simp [hv, this, timePoint]
  · simp [hv]

/-- C14: shifting to another zone. For every complete time point and requested zone, if the requested
local time is not before the calendar starts: whatever is returned is in the requested zone and denotes
the same instant. -/
theorem C14_same_instant (d : YMD) (hd : d.Valid) (c : Clock) (hc : c.Valid) (z z' : Zone)
    (hu : z ≠ .unspecified) (hu' : z' ≠ .unspecified) (hz' : z'.Valid)
    (zd zh zm : Option Int) (hn : z'.Named zd zh zm)
    (hlo : 86400 ≤ instant d c.onMinute z + 60 * z'.minutes) (q : TimePoint)
    (hq : (timePoint d c z).shiftZone zd zh zm = some q) :
    ∃ (d' : YMD) (c' : Clock), d'.Valid ∧ c'.Valid ∧ q = timePoint d' c' z' ∧
      instant d' c' z' = instant d c z ∧ c'.s = c.s ∧
      (-1440 < z'.minutes - z.minutes → z'.minutes - z.minutes < 1440 → c'.h ≤ 23) := by
  obtain ⟨zs, m1, h1, m', h0, h', ov, ezs, em1, c1, eh1, c2, e⟩ := shiftZone_time c z z' hu hu' hz' zd zh zm hn
  unfold TimePoint.shiftZone timePoint at hq
  rw [e] at hq
  by_cases hv : Clock.Valid ⟨h', m', c.s⟩
  · rw [if_pos hv] at hq
    simp only [Option.bind_eq_bind, Option.bind_some] at hq
    have hr := number_range hd
    rcases c with ⟨h, m, s⟩
    have hv' := hv
    simp only [Clock.Valid, instant, localSeconds, Clock.seconds, Clock.onMinute] at hc hlo hv' c1 c2 em1 eh1
    by_cases ho : ov = 0
    · subst ho
      rw [if_neg (by simp), Option.bind_some, mkTimePoint_complete d hd _ z' hz', if_pos hv] at hq
      cases hq
      refine ⟨d, _, hd, hv, rfl, ?_, rfl, ?_⟩
      · simp only [instant, localSeconds, Clock.seconds]
        omega
      · intro _ _; dsimp only; omega
    · rw [if_pos ho] at hq
      have hne : d.number + ov + 7 * 0 ≠ 0 := by omega
      have ho := C12_offset_days d hd 0 ov hne
      by_cases hin : 1 ≤ d.number + ov + 7 * 0 ∧ d.number + ov + 7 * 0 ≤ maxDay
      · obtain ⟨u, hu, hun, eu⟩ := ho.1 hin
        rw [eu, Option.bind_some, mkTimePoint_complete u hu _ z' hz', if_pos hv] at hq
        cases hq
        refine ⟨u, _, hu, hv, rfl, ?_, rfl, ?_⟩
        · simp only [instant, localSeconds, Clock.seconds]
          omega
        · intro _ _; dsimp only; omega
      · rw [ho.2 hin] at hq; cases hq
  · rw [if_neg hv] at hq; cases hq

/-- C14: the shift returns for every pair of zones at most 24 hours apart when the requested local time
is in the calendar, and raises when it lies after the calendar's end. -/
theorem C14_returns (d : YMD) (hd : d.Valid) (c : Clock) (hc : c.Valid) (z z' : Zone)
    (hu : z ≠ .unspecified) (hu' : z' ≠ .unspecified) (hz' : z'.Valid)
    (zd zh zm : Option Int) (hn : z'.Named zd zh zm)
    (hnear : -1440 ≤ z'.minutes - z.minutes ∧ z'.minutes - z.minutes ≤ 1440)
    (hlo : 86400 ≤ instant d c.onMinute z + 60 * z'.minutes)
    (hhi : instant d c.onMinute z + 60 * z'.minutes < 86400 * (maxDay + 1)) :
    ∃ q, (timePoint d c z).shiftZone zd zh zm = some q := by
  obtain ⟨zs, m1, h1, m', h0, h', ov, ezs, em1, c1, eh1, c2, e⟩ := shiftZone_time c z z' hu hu' hz' zd zh zm hn
  unfold TimePoint.shiftZone timePoint
  rw [e]
  have hr := number_range hd
  rcases c with ⟨h, m, s⟩
  simp only [Clock.Valid, instant, localSeconds, Clock.seconds, Clock.onMinute] at hc hlo hhi c1 c2 em1 eh1
  have hv : Clock.Valid ⟨h', m', s⟩ := by
    simp only [Clock.Valid]; omega
  rw [if_pos hv]
  simp only [Option.bind_eq_bind, Option.bind_some]
  by_cases ho : ov = 0
  · subst ho
    rw [if_neg (by simp), Option.bind_some, mkTimePoint_complete d hd _ z' hz', if_pos hv]
    exact ⟨_, rfl⟩
  · rw [if_pos ho]
    have hne : d.number + ov + 7 * 0 ≠ 0 := by omega
    have ho := C12_offset_days d hd 0 ov hne
    obtain ⟨u, hu, hun, eu⟩ := ho.1 (by omega)
    rw [eu, Option.bind_some, mkTimePoint_complete u hu _ z' hz', if_pos hv]
    exact ⟨_, rfl⟩

/-- C14: in particular, shifting to UTC from any zone returns the same instant in UTC. -/
theorem C14_to_utc (d : YMD) (hd : d.Valid) (c : Clock) (hc : c.Valid) (z : Zone) (hz : z.Valid)
    (hu : z ≠ .unspecified) (hlo : 86400 ≤ instant d c.onMinute z) (hhi : instant d c.onMinute z < 86400 * (maxDay + 1)) :
    ∃ (d' : YMD) (c' : Clock), d'.Valid ∧ c'.Valid ∧ c'.h ≤ 23 ∧ c'.s = c.s ∧ instant d' c' .utc = instant d c z ∧
      (timePoint d c z).shiftZone (some 0) none none = some (timePoint d' c' .utc) := by
  have hnear : -1440 < Zone.utc.minutes - z.minutes ∧ Zone.utc.minutes - z.minutes < 1440 := by
    cases z <;> simp only [Zone.Valid] at hz <;> simp only [Zone.minutes] <;> omega
  have e0 : Zone.utc.minutes = 0 := rfl
  obtain ⟨q, hq⟩ := C14_returns d hd c hc z .utc hu (by simp) trivial (some 0) none none rfl
    ⟨by omega, by omega⟩
    (by rw [e0]; omega) (by rw [e0]; omega)
  obtain ⟨d', c', h1, h2, rfl, h4, h5, h6⟩ := C14_same_instant d hd c hc z .utc hu (by simp) trivial (some 0) none none rfl
    (by rw [e0]; omega) q hq
  exact ⟨d', c', h1, h2, h6 hnear.1 hnear.2, h5, h4, hq⟩

/-- Violations found: zones more than a day apart can raise; a local time just before the calendar starts
gives 0001-01-01, a day late, instead of raising. -/
theorem C14_violations :
    (timePoint ⟨2000, 1, 1⟩ ⟨0, 0, 0⟩ (.east 1439)).shiftZone (some (-1)) (some 23) (some 59) = none ∧
    (timePoint ⟨1, 1, 1⟩ ⟨0, 0, 0⟩ (.east 60)).shiftZone (some 0) none none =
      some (timePoint ⟨1, 1, 1⟩ ⟨23, 0, 0⟩ .utc) := by decide +kernel

/-- C14 is not vacuous: across a year end. -/
example : (timePoint ⟨1999, 12, 31⟩ ⟨22, 30, 0⟩ (.west 210)).shiftZone (some 1) (some 1) none =
    some (timePoint ⟨2000, 1, 1⟩ ⟨3, 0, 0⟩ (.east 60)) := by decide +kernel

/-! ## C15, C16 -/

/-- The instant of a time point lies in the calendar in UTC. -/
def InRange (d : YMD) (c : Clock) (z : Zone) : Prop :=
  86400 ≤ instant d c.onMinute z ∧ instant d c.onMinute z < 86400 * (maxDay + 1)

/-- The sort key of a time point is the key of the same instant in UTC. -/
theorem sortkey_utc (d : YMD) (hd : d.Valid) (c : Clock) (hc : c.Valid) (h24 : c.h ≤ 23) (z : Zone) (hz : z.Valid)
    (hu : z ≠ .unspecified) (hr : InRange d c z) :
    ∃ (d' : YMD) (c' : Clock), d'.Valid ∧ c'.Valid ∧ c'.h ≤ 23 ∧ c'.s = c.s ∧ instant d' c' .utc = instant d c z ∧
      (timePoint d c z).sortkey = some (d'.date.sortkey ++ [some c'.h, some c'.m, some c'.s, some 0]) := by
  unfold TimePoint.sortkey
  have ez : (timePoint d c z).time.zoneOffset = some z.minutes := zoneOffset_time c z hu
  rw [ez]
  dsimp only
  by_cases h0 : z.minutes = 0
  · refine ⟨d, c, hd, hc, h24, rfl, ?_, ?_⟩
    · simp only [instant]; rw [h0]; rfl
    · rw [if_neg (by simp [h0])]
      have e1 : (timePoint d c z).time.sortkey = [some c.h, some c.m, some c.s, some 0] := by
        unfold Time.sortkey
        rw [ez, h0]
        cases z <;> rfl
      rw [e1]; rfl
  · rw [if_pos h0]
    obtain ⟨d', c', h1, h2, h3, h4, h5, h6⟩ := C14_to_utc d hd c hc z hz hu hr.1 hr.2
    refine ⟨d', c', h1, h2, h3, h4, h5, ?_⟩
    rw [h6]; rfl

theorem instant_lt {d d' : YMD} {c c' : Clock} (hd : d.Valid) (hd' : d'.Valid) (hc : c.Valid) (hc' : c'.Valid)
    (h : c.h ≤ 23) (h' : c'.h ≤ 23) (s : c.s ≤ 59) (s' : c'.s ≤ 59) :
    instant d c .utc < instant d' c' .utc ↔
      d.lt d' ∨ d = d' ∧ (c.h < c'.h ∨ c.h = c'.h ∧ (c.m < c'.m ∨ c.m = c'.m ∧ c.s < c'.s)) := by
  rw [number_lt_iff hd hd']
  have hi : d = d' ↔ d.number = d'.number := ⟨fun e => by rw [e], number_inj hd hd'⟩
  rw [hi]
  simp only [instant, localSeconds, Clock.seconds, Zone.minutes, Clock.Valid] at *
  omega

theorem lexLt_key (d d' : YMD) (c c' : Clock) :
    lexLt (d.date.sortkey ++ [some c.h, some c.m, some c.s, some 0])
      (d'.date.sortkey ++ [some c'.h, some c'.m, some c'.s, some 0]) = true ↔
      d.lt d' ∨ d = d' ∧ (c.h < c'.h ∨ c.h = c'.h ∧ (c.m < c'.m ∨ c.m = c'.m ∧ c.s < c'.s)) := by
  rcases d with ⟨y1, m1, d1⟩
  rcases d' with ⟨y2, m2, d2⟩
  rcases c with ⟨a1, b1, s1⟩
  rcases c' with ⟨a2, b2, s2⟩
  simp only [Date.sortkey, YMD.date, List.cons_append, List.nil_append, lexLt, YMD.lt, YMD.mk.injEq]
  by_cases e1 : y1 / 100 = y2 / 100
  · by_cases e2 : y1 % 100 = y2 % 100
    · have e : y1 = y2 := by omega
      subst e
      by_cases e3 : m1 = m2
      · by_cases e4 : d1 = d2
        · by_cases e5 : a1 = a2
          · by_cases e6 : b1 = b2
            · by_cases e7 : s1 = s2
              · simp [e3, e4, e5, e6, e7]
              · simp [e3, e4, e5, e6, e7]
            · simp [e3, e4, e5, e6]
          · simp [e3, e4, e5]
        · simp [e3, e4]
      · simp [e3]
    · have e : y1 ≠ y2 := by omega
      simp [e1, e2, e]; omega
  · have e : y1 ≠ y2 := by omega
    simp [e1, e]; omega

/-- C15: `<` and `==` between complete zoned time points (not at 24:00:00 or in a leap second, and in
the calendar in UTC) are the order and equality of the instants, whatever the zones. -/
theorem C15_compare (d d' : YMD) (c c' : Clock) (z z' : Zone) (hd : d.Valid) (hd' : d'.Valid)
    (hc : c.Valid) (hc' : c'.Valid) (h : c.h ≤ 23) (h' : c'.h ≤ 23) (s : c.s ≤ 59) (s' : c'.s ≤ 59)
    (hz : z.Valid) (hz' : z'.Valid) (hu : z ≠ .unspecified) (hu' : z' ≠ .unspecified)
    (hr : InRange d c z) (hr' : InRange d' c' z') :
    (timePoint d c z).lt (timePoint d' c' z') = some (decide (instant d c z < instant d' c' z')) ∧
    (timePoint d c z).eq (timePoint d' c' z') = some (decide (instant d c z = instant d' c' z')) := by
  obtain ⟨e, k, h1, h2, h3, h4, h5, h6⟩ := sortkey_utc d hd c hc h z hz hu hr
  obtain ⟨e', k', h1', h2', h3', h4', h5', h6'⟩ := sortkey_utc d' hd' c' hc' h' z' hz' hu' hr'
  have hp : (timePoint d c z).time.precision = (timePoint d' c' z').time.precision ∧
      (timePoint d c z).time.zoneOffset.isNone = (timePoint d' c' z').time.zoneOffset.isNone := by
    constructor
    · cases z <;> cases z' <;> rfl
    · have a1 : (timePoint d c z).time.zoneOffset = some z.minutes := zoneOffset_time c z hu
      have a2 : (timePoint d' c' z').time.zoneOffset = some z'.minutes := zoneOffset_time c' z' hu'
      rw [a1, a2]; rfl
  have hlt := instant_lt h1 h1' h2 h2' h3 h3' (by omega) (by omega)
  have hgt := instant_lt h1' h1 h2' h2 h3' h3 (by omega) (by omega)
  constructor
  · unfold TimePoint.lt
    rw [if_pos hp, h6, h6']
    simp only [Option.bind_eq_bind, Option.bind_some]
    refine congrArg some ?_
    rw [Bool.eq_iff_iff, decide_eq_true_iff, lexLt_key, ← h5, ← h5', hlt]
  · unfold TimePoint.eq
    rw [h6]
    simp only [Option.bind_eq_bind, Option.bind_some]
    rw [if_pos hp, h6']
    simp only [Option.bind_some]
    refine congrArg some ?_
    rw [Bool.eq_iff_iff, decide_eq_true_iff, ← h5, ← h5', beq_iff_eq]
    constructor
    · intro hk
      have e1 : e.date = e'.date ∧ k = k' := by
        simp only [Date.sortkey, YMD.date, List.cons_append, List.nil_append, List.cons.injEq] at hk
        rcases k with ⟨a, b, f⟩
        rcases k' with ⟨a', b', f'⟩
        simp at hk ⊢
        obtain ⟨p1, p2, p3, p4, p5, p6, p7⟩ := hk
        refine ⟨?_, p5, p6, p7⟩
        simp [YMD.date, p1, p2, p3, p4]
      have : e = e' := by
        have a1 := getAbsoluteDay_date h1
        have a2 := getAbsoluteDay_date h1'
        rw [e1.1, a2] at a1
        exact number_inj h1 h1' (Option.some.inj a1).symm
      rw [this, e1.2]
    · intro hi
      have n1 : ¬ (e.lt e' ∨ e = e' ∧ (k.h < k'.h ∨ k.h = k'.h ∧ (k.m < k'.m ∨ k.m = k'.m ∧ k.s < k'.s))) := by
        rw [← hlt]; omega
      have n2 : ¬ (e'.lt e ∨ e' = e ∧ (k'.h < k.h ∨ k'.h = k.h ∧ (k'.m < k.m ∨ k'.m = k.m ∧ k'.s < k.s))) := by
        rw [← hgt]; omega
      rw [number_lt_iff h1 h1'] at n1
      rw [number_lt_iff h1' h1] at n2
      have : e = e' := number_inj h1 h1' (by
        have := fun x => n1 (.inl x)
        have := fun x => n2 (.inl x)
        omega)
      subst this
      rcases k with ⟨a, b, f⟩
      rcases k' with ⟨a', b', f'⟩
      dsimp only at n1 n2
      simp only [true_and] at n1 n2
      have : a = a' ∧ b = b' ∧ f = f' := by omega
      simp [this]

/-- 24:00:00 is why C15 leaves it out: the same instant written as 00:00:00 of the next day compares
unequal, and smaller. -/
theorem C15_midnight_violation :
    instant ⟨2000, 1, 1⟩ ⟨24, 0, 0⟩ .utc = instant ⟨2000, 1, 2⟩ ⟨0, 0, 0⟩ .utc ∧
    (timePoint ⟨2000, 1, 1⟩ ⟨24, 0, 0⟩ .utc).eq (timePoint ⟨2000, 1, 2⟩ ⟨0, 0, 0⟩ .utc) = some false ∧
    (timePoint ⟨2000, 1, 1⟩ ⟨24, 0, 0⟩ .utc).lt (timePoint ⟨2000, 1, 2⟩ ⟨0, 0, 0⟩ .utc) = some true := by
  refine ⟨?_, by decide +kernel, by decide +kernel⟩
  simp only [instant, localSeconds]
  rw [number_eq (by decide), number_eq (by decide)]; decide

/-- C15 is not vacuous: 10:00+02:00 equals 03:30-04:30. -/
example : (timePoint ⟨2024, 2, 29⟩ ⟨10, 0, 0⟩ (.east 120)).eq (timePoint ⟨2024, 2, 29⟩ ⟨3, 30, 0⟩ (.west 270)) =
    some true := by decide +kernel

theorem epoch_number : epochDate.getAbsoluteDay = some 719163 := by decide +kernel
theorem epoch_eq : epochDate = YMD.date ⟨1970, 1, 1⟩ := rfl
theorem epoch_num : (⟨1970, 1, 1⟩ : YMD).number = 719163 := by rw [number_eq (by decide)]; decide

/-- `get_unixtime` counts seconds from 1970-01-01T00:00:00Z (a leap second counting as the 59th). -/
theorem C16_unixtime (d : YMD) (c : Clock) (z : Zone) (hd : d.Valid) (hc : c.Valid) (s : c.s ≤ 59)
    (hz : z.Valid) (hu : z ≠ .unspecified) (hr : InRange d c z) :
    (timePoint d c z).unixtime = some (instant d c z - instant ⟨1970, 1, 1⟩ ⟨0, 0, 0⟩ .utc) := by
  have hcomp : (timePoint d c z).complete = true := by cases z <;> rfl
  have ez : (timePoint d c z).time.zoneOffset = some z.minutes := zoneOffset_time c z hu
  unfold TimePoint.unixtime
  rw [hcomp, ez, epoch_number]
  simp only [Bool.not_true, Bool.false_eq_true, if_false, Option.bind_eq_bind, Option.bind_some]
  obtain ⟨e, k, z0, h1, hs, hi, hz0, h⟩ : ∃ (e : YMD) (k : Clock) (z0 : Zone), e.Valid ∧ k.s ≤ 59 ∧
      instant e k .utc = instant d c z ∧ z0.minutes = 0 ∧
      (if z.minutes = 0 then some (timePoint d c z) else (timePoint d c z).shiftZone (some 0) none none) =
        some (timePoint e k z0) := by
    by_cases h0 : z.minutes = 0
    · exact ⟨d, c, z, hd, s, by simp only [instant]; rw [h0]; rfl, h0, by rw [if_pos h0]⟩
    · obtain ⟨d', c', h1, h2, h3, h4, h5, h6⟩ := C14_to_utc d hd c hc z hz hu hr.1 hr.2
      exact ⟨d', c', .utc, h1, by omega, h5, rfl, by rw [if_neg h0, h6]⟩
  rw [h]
  simp only [Option.bind_some]
  have a1 : (timePoint e k z0).date.getAbsoluteDay = some e.number := getAbsoluteDay_date h1
  have a2 : (timePoint e k z0).time.totalSeconds = some k.seconds := by
    have : (timePoint e k z0).time.totalSeconds = if k.s = 60 then some (59 + k.m * 60 + k.h * 3600)
        else some (k.s + k.m * 60 + k.h * 3600) := by cases z0 <;> rfl
    rw [this, if_neg (by omega)]
    simp only [Clock.seconds]
    exact congrArg some (by omega)
  rw [a1, a2]
  simp only [Option.bind_some]
  refine congrArg some ?_
  rw [← hi]
  simp only [instant, localSeconds, Zone.minutes, epoch_num, Clock.seconds]
  omega

/-- C16: `from_unix_time` gives the UTC time point `n` seconds after 1970-01-01T00:00:00Z and
`get_unixtime` returns `n` again, for every `n` whose date is in the calendar. -/
theorem C16_round_trip (n : Int)
    (hlo : 86400 ≤ n + instant ⟨1970, 1, 1⟩ ⟨0, 0, 0⟩ .utc)
    (hhi : n + instant ⟨1970, 1, 1⟩ ⟨0, 0, 0⟩ .utc < 86400 * (maxDay + 1)) :
    ∃ (d : YMD) (c : Clock), d.Valid ∧ c.Valid ∧ c.h ≤ 23 ∧ c.s ≤ 59 ∧
      instant d c .utc = n + instant ⟨1970, 1, 1⟩ ⟨0, 0, 0⟩ .utc ∧
      fromUnixTime n = some (timePoint d c .utc) ∧ (timePoint d c .utc).unixtime = some n := by
  obtain ⟨c, days, e, hv, h23, h60, hs⟩ := C13_offset ⟨0, 0, 0⟩ (by decide) (by decide) .unspecified trivial 0 0 n
  rcases c with ⟨h, m, s⟩
  have hi : instant ⟨1970, 1, 1⟩ ⟨0, 0, 0⟩ .utc = 86400 * 719163 := by
    simp only [instant, localSeconds, epoch_num]; decide
  rw [hi] at hlo hhi ⊢
  have hv' := hv
  simp only [Clock.seconds, Clock.Valid] at hs hv' h23 h60
  have hmax : maxDay = 3652059 := rfl
  obtain ⟨d, hd, hdn, ed⟩ := (C12_offset_days ⟨1970, 1, 1⟩ (by decide) 0 days (by rw [epoch_num]; omega)).1
    (by rw [epoch_num]; omega)
  rw [epoch_num] at hdn
  have hinst : instant d ⟨h, m, s⟩ .utc = n + 86400 * 719163 := by
    simp only [instant, localSeconds, Clock.seconds, Zone.minutes]; omega
  refine ⟨d, ⟨h, m, s⟩, hd, hv, h23, by dsimp only; omega, hinst, ?_, ?_⟩
  · unfold fromUnixTime
    have e0 : mkTime { hour := some 0, minute := some 0, second := some 0 } =
      some (Clock.time ⟨0, 0, 0⟩ .unspecified) := by decide +kernel
    rw [e0]
    simp only [Option.bind_eq_bind, Option.bind_some]
    rw [e]
    simp only [Option.bind_some]
    rw [epoch_eq, ed]
    simp only [Option.bind_some]
    have ew : (Clock.time ⟨h, m, s⟩ .unspecified).withZone (some 0) none none = some (Clock.time ⟨h, m, s⟩ .utc) := by
      have := mkTime_named ⟨h, m, s⟩ .utc trivial (some 0) none none rfl
      rw [if_pos hv] at this
      exact this
    rw [ew]
    simp only [Option.bind_some]
    rw [mkTimePoint_complete d hd _ .utc trivial, if_pos hv]
  · rw [C16_unixtime d ⟨h, m, s⟩ .utc hd hv (by dsimp only; omega) trivial (by simp) ?_, hi, hinst]
    · exact congrArg some (by omega)
    · simp only [InRange, instant, localSeconds, Clock.seconds, Clock.onMinute, Zone.minutes]
      have hr := number_range hd
      omega

/-- Violation found: one second before the calendar starts, `from_unix_time` returns a time a day late
instead of raising; elsewhere outside the range it raises. -/
theorem C16_violation : fromUnixTime (86400 - 86400 * 719163 - 1) = some (timePoint ⟨1, 1, 1⟩ ⟨23, 59, 59⟩ .utc) ∧
    (timePoint ⟨1, 1, 1⟩ ⟨23, 59, 59⟩ .utc).unixtime = some (2 * 86400 - 86400 * 719163 - 1) := by decide +kernel

/-- C16 is not vacuous: 2001-09-09T01:46:40Z is 10^9. -/
example : fromUnixTime 1000000000 = some (timePoint ⟨2001, 9, 9⟩ ⟨1, 46, 40⟩ .utc) := by decide +kernel

/-! ## C38: truncated times -/

theorem extend_second (c : Clock) (z : Zone) (s : Int) :
    (c.time z).extend none none (some s) = (do
      let t' ← mkTime { hour := some c.h, minute := some c.m, second := some s, zdir := z.args.1,
                        zhour := z.args.2.1, zminute := z.args.2.2 }
      if (0 : Int) ≠ 0 ∨ (if s < c.s then 1 else 0 : Int) ≠ 0 then t'.offset 0 (if s < c.s then 1 else 0) 0
      else return (t', 0)) := by
  have hz := zone3_time c z
  unfold Time.extend
  rw [hz]
  cases z <;> rfl

theorem extend_minute_second (c : Clock) (z : Zone) (m s : Int) :
    (c.time z).extend none (some m) (some s) = (do
      let t' ← mkTime { hour := some c.h, minute := some m, second := some s, zdir := z.args.1,
                        zhour := z.args.2.1, zminute := z.args.2.2 }
      if (if m < c.m ∨ m = c.m ∧ s < c.s then 1 else 0 : Int) ≠ 0 ∨ (0 : Int) ≠ 0
      then t'.offset (if m < c.m ∨ m = c.m ∧ s < c.s then 1 else 0) 0 0
      else return (t', 0)) := by
  have hz := zone3_time c z
  have h1 : (c.time z).minute = some c.m := by cases z <;> rfl
  have h2 : (c.time z).second = some c.s := by cases z <;> rfl
  have h3 : (c.time z).hour = c.h := by cases z <;> rfl
  have h4 : (c.time z).complete = true := by cases z <;> rfl
  unfold Time.extend
  rw [hz, h1, h2, h3, h4]
  simp only [Bool.not_true, Bool.false_eq_true, if_false, Option.bind_eq_bind, Option.bind_some]
  by_cases a : m < c.m
  · simp [a]
  · by_cases b : m = c.m
    · subst b
      by_cases e : s < c.s
      · simp [e]
      · simp [e]
    · simp [a, b]

/-- C38: a truncated time given by its seconds, or by minutes and seconds, resolves to the first such
time at or after the base time (wrapping past midnight with `days` = 1), in the base's zone. -/
theorem C38_extend (c : Clock) (hc : c.Valid) (h23 : c.h ≤ 23) (hs59 : c.s ≤ 59) (z : Zone) (hz : z.Valid)
    (m s : Int) (hm : 0 ≤ m ∧ m ≤ 59) (hs : 0 ≤ s ∧ s ≤ 59) :
    (∃ (c' : Clock) (days : Int), c'.Valid ∧ c'.s = s ∧
      (c.time z).extend none none (some s) = some (c'.time z, days) ∧
      c.seconds ≤ c'.seconds + 86400 * days ∧ c'.seconds + 86400 * days < c.seconds + 60) ∧
    (∃ (c' : Clock) (days : Int), c'.Valid ∧ c'.m = m ∧ c'.s = s ∧
      (c.time z).extend none (some m) (some s) = some (c'.time z, days) ∧
      c.seconds ≤ c'.seconds + 86400 * days ∧ c'.seconds + 86400 * days < c.seconds + 3600) := by
  rcases c with ⟨h, bm, bs⟩
  simp only [Clock.Valid] at hc h23 hs59
  constructor
  · rw [extend_second]
    have hv : Clock.Valid ⟨h, bm, s⟩ := by simp only [Clock.Valid]; omega
    have := mkTime_complete ⟨h, bm, s⟩ z hz
    rw [if_pos hv] at this
    dsimp only at this ⊢
    rw [this]
    simp only [Option.bind_eq_bind, Option.bind_some]
    by_cases a : s < bs
    · simp only [a, if_true]
      rw [if_pos (by omega)]
      obtain ⟨s', M', m', H', h', days, c1, c2, c3, e⟩ := offset_time ⟨h, bm, s⟩ z hz 0 1 0
      dsimp only at c1 c2 c3
      have hv' : Clock.Valid ⟨h', m', s'⟩ := by simp only [Clock.Valid]; omega
      rw [if_pos hv'] at e
      refine ⟨_, _, hv', ?_, e, ?_, ?_⟩ <;> simp only [Clock.seconds] <;> omega
    · simp only [a, if_false]
      rw [if_neg (by omega)]
      refine ⟨⟨h, bm, s⟩, 0, hv, rfl, rfl, ?_, ?_⟩ <;> simp only [Clock.seconds] <;> omega
  · rw [extend_minute_second]
    have hv : Clock.Valid ⟨h, m, s⟩ := by simp only [Clock.Valid]; omega
    have := mkTime_complete ⟨h, m, s⟩ z hz
    rw [if_pos hv] at this
    dsimp only at this ⊢
    rw [this]
    simp only [Option.bind_eq_bind, Option.bind_some]
    by_cases a : m < bm ∨ m = bm ∧ s < bs
    · simp only [a, if_true]
      rw [if_pos (by omega)]
      obtain ⟨s', M', m', H', h', days, c1, c2, c3, e⟩ := offset_time ⟨h, m, s⟩ z hz 1 0 0
      dsimp only at c1 c2 c3
      have hv' : Clock.Valid ⟨h', m', s'⟩ := by simp only [Clock.Valid]; omega
      rw [if_pos hv'] at e
      refine ⟨_, _, hv', ?_, ?_, e, ?_, ?_⟩ <;> simp only [Clock.seconds] <;> omega
    · simp only [a, if_false]
      rw [if_neg (by omega)]
      refine ⟨⟨h, m, s⟩, 0, hv, rfl, rfl, rfl, ?_, ?_⟩ <;> simp only [Clock.seconds] <;> omega

/-- Violation found: a truncated minute equal to the base's minute raises (a comparison of None with
None), for every base time. -/
theorem C38_minute_violation (c : Clock) (z : Zone) : (c.time z).extend none (some c.m) none = none := by
  have h1 : (c.time z).minute = some c.m := by cases z <;> rfl
  have h2 : (c.time z).second = some c.s := by cases z <;> rfl
  have h4 : (c.time z).complete = true := by cases z <;> rfl
  unfold Time.extend
  rw [h1, h2, h4]
  simp

/-- C38 is not vacuous: from 23:59:30 the next ":05" is 00:00:05 on the next day. -/
example : (Clock.time ⟨23, 59, 30⟩ .utc).extend none none (some 5) = some (Clock.time ⟨0, 0, 5⟩ .utc, 1) := by
  decide +kernel

end Verif.Iso

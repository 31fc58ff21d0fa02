import Verif.Iso.TimeProps
/-!
# Comparison of local times, and which times the constructor accepts (C15, C40, C41)
-/
namespace Verif.Iso

/-- `Time.__lt__`: CmpMixin (py2.py:381-390) with `otherkey`, iso8601.py:1952-1959; `none` is
NotImplemented (a TypeError in the end). -/
def Time.lt (a b : Time) : Option Bool :=
  if a.precision = b.precision ∧ a.zoneOffset = b.zoneOffset then some (lexLt a.sortkey b.sortkey) else none

/-- `Time.__eq__`: NotImplemented makes `==` fall back to identity, i.e. False for distinct objects. -/
def Time.eq (a b : Time) : Bool :=
  if a.precision = b.precision ∧ a.zoneOffset = b.zoneOffset then a.sortkey == b.sortkey else false

/-- The order of clock readings. -/
def Clock.lt (c k : Clock) : Prop := c.h < k.h ∨ c.h = k.h ∧ (c.m < k.m ∨ c.m = k.m ∧ c.s < k.s)
instance (c k : Clock) : Decidable (c.lt k) := by unfold Clock.lt; infer_instance

/-- Away from 24:00:00 and leap seconds it is the order of the seconds since midnight. -/
theorem Clock.lt_iff_seconds (c k : Clock) (hc : c.Valid) (hk : k.Valid) (hs : c.s ≤ 59) (hs' : k.s ≤ 59) :
    c.lt k ↔ c.seconds < k.seconds := by
  unfold Clock.Valid at hc hk
  unfold Clock.lt Clock.seconds
  omega

theorem zoneOffset_any (c : Clock) (z : Zone) :
    (c.time z).zoneOffset = if z = .unspecified then none else some z.minutes := by
  cases z <;> simp [Time.zoneOffset, Clock.time, Zone.minutes]

/-- C40: two times in the same zone (or both without) compare as their clock readings. -/
theorem C40_same_zone (c k : Clock) (z z' : Zone) (h : z = .unspecified ↔ z' = .unspecified) (hm : z.minutes = z'.minutes) :
    (c.time z).lt (k.time z') = some (decide (c.lt k)) ∧ ((c.time z).eq (k.time z') = true ↔ c = k) := by
  have hp : (c.time z).precision = (k.time z').precision := by cases z <;> cases z' <;> rfl
  have hz : (c.time z).zoneOffset = (k.time z').zoneOffset := by
    rw [zoneOffset_any, zoneOffset_any, hm]; simp [h]
  have e : ∀ (c : Clock) z, (c.time z).sortkey = [some c.h, some c.m, some c.s] ++
      (match (c.time z).zoneOffset with | none => [] | some n => [some n]) := by
    intro c z
    unfold Time.sortkey
    split <;> rename_i h <;> rw [h] <;> cases z <;> rfl
  unfold Time.lt Time.eq
  rw [if_pos ⟨hp, hz⟩, if_pos ⟨hp, hz⟩, e, e, hz]
  generalize (match (k.time z').zoneOffset with | none => [] | some n => [some n]) = tl
  have htl : lexLt tl tl = false := by
    induction tl with
    | nil => rfl
    | cons x xs ih => cases x <;> simp [lexLt, ih]
  rcases c with ⟨a, b, d⟩
  rcases k with ⟨a', b', d'⟩
  constructor
  · refine congrArg some ?_
    rw [Bool.eq_iff_iff, decide_eq_true_iff]
    simp only [List.cons_append, List.nil_append, lexLt, Clock.lt]
    by_cases p : a = a'
    · subst p
      by_cases q : b = b'
      · subst q
        by_cases r : d = d'
        · subst r; simp [htl]
        · simp [r]
      · simp [q]
    · simp [p]
  · simp

/-- C40: times in different zones, or with and without a zone, are not ordered and not equal. -/
theorem C40_other_zone (c k : Clock) (z z' : Zone)
    (h : (z = .unspecified ∧ z' ≠ .unspecified) ∨ (z ≠ .unspecified ∧ z' = .unspecified) ∨
      (z ≠ .unspecified ∧ z' ≠ .unspecified ∧ z.minutes ≠ z'.minutes)) :
    (c.time z).lt (k.time z') = none ∧ (c.time z).eq (k.time z') = false := by
  have hz : (c.time z).zoneOffset ≠ (k.time z').zoneOffset := by
    rw [zoneOffset_any, zoneOffset_any]
    rcases h with ⟨h1, h2⟩ | ⟨h1, h2⟩ | ⟨h1, h2, h3⟩ <;> simp [h1, h2]
    assumption
  unfold Time.lt Time.eq
  rw [if_neg (fun p => hz p.2), if_neg (fun p => hz p.2)]
  exact ⟨rfl, rfl⟩

/-- 09:00 at +01:00 and at +00:60 hours. -/
example : (Clock.time ⟨9, 0, 0⟩ (.east 60)).lt (Clock.time ⟨9, 0, 1⟩ (.east 60)) = some true := by decide
example : (Clock.time ⟨9, 0, 0⟩ (.east 0)).eq (Clock.time ⟨9, 0, 0⟩ .utc) = true := by decide

theorem sortkey_local (d : YMD) (c : Clock) :
    (timePoint d c .unspecified).sortkey = some (d.date.sortkey ++ [some c.h, some c.m, some c.s]) := rfl

theorem date_sortkey (d : YMD) : d.date.sortkey = [some (d.y / 100), some (d.y % 100), some d.m, none, some d.d] := rfl

/-- C15 without zones: local time points compare by date and then by clock reading, leap seconds and 24:00:00
included. -/
theorem C15_local (d e : YMD) (c k : Clock) (hd : d.Valid) (he : e.Valid) :
    (timePoint d c .unspecified).lt (timePoint e k .unspecified) =
      some (decide (d.number < e.number ∨ d = e ∧ c.lt k)) ∧
    (timePoint d c .unspecified).eq (timePoint e k .unspecified) = some (decide (d = e ∧ c = k)) := by
  have hy : d = e ↔ d.y / 100 = e.y / 100 ∧ d.y % 100 = e.y % 100 ∧ d.m = e.m ∧ d.d = e.d := by
    rcases d with ⟨y, m, q⟩
    rcases e with ⟨y', m', q'⟩
    simp only [YMD.mk.injEq]; omega
  constructor
  · unfold TimePoint.lt
    rw [if_pos ⟨rfl, rfl⟩, sortkey_local, sortkey_local]
    refine congrArg some ?_
    rw [Bool.eq_iff_iff, decide_eq_true_iff, ← number_lt_iff hd he, hy, date_sortkey, date_sortkey]
    simp only [List.cons_append, List.nil_append, lexLt, Clock.lt, YMD.lt]
    by_cases a1 : d.y / 100 = e.y / 100
    · by_cases a2 : d.y % 100 = e.y % 100
      · have a3 : d.y = e.y := by omega
        by_cases a4 : d.m = e.m
        · by_cases a5 : d.d = e.d
          · by_cases a6 : c.h = k.h
            · by_cases a7 : c.m = k.m
              · by_cases a8 : c.s = k.s <;> simp [a3, a4, a5, a6, a7, a8]
              · simp [a3, a4, a5, a6, a7]
            · simp [a3, a4, a5, a6]
          · simp [a3, a4, a5]
        · simp [a3, a4]
      · simp [a1, a2]; omega
    · simp [a1]; omega
  · unfold TimePoint.eq
    rw [sortkey_local, sortkey_local]
    simp only [Option.bind_eq_bind, Option.bind_some]
    rw [if_pos ⟨rfl, rfl⟩]
    refine congrArg some ?_
    rw [Bool.eq_iff_iff, decide_eq_true_iff, beq_iff_eq, hy, date_sortkey, date_sortkey]
    rcases c with ⟨a, b, f⟩
    rcases k with ⟨a', b', f'⟩
    simp
    constructor
    · rintro ⟨h1, h2, h3, h4, h5, h6, h7⟩; exact ⟨⟨h1, h2, h3, h4⟩, h5, h6, h7⟩
    · rintro ⟨⟨h1, h2, h3, h4⟩, h5, h6, h7⟩; exact ⟨h1, h2, h3, h4, h5, h6, h7⟩

/-- C15: a zoned and a local time point are not ordered and not equal. -/
theorem C15_mixed (d e : YMD) (c k : Clock) (z : Zone) (hz : z ≠ .unspecified) :
    (timePoint d c z).lt (timePoint e k .unspecified) = none ∧
    (timePoint e k .unspecified).lt (timePoint d c z) = none ∧
    (timePoint e k .unspecified).eq (timePoint d c z) = some false := by
  have h1 : (timePoint d c z).time.zoneOffset = some z.minutes := by
    show (c.time z).zoneOffset = _
    rw [zoneOffset_any, if_neg hz]
  have h2 : (timePoint e k .unspecified).time.zoneOffset = none := rfl
  refine ⟨?_, ?_, ?_⟩
  · unfold TimePoint.lt
    rw [h1, h2, if_neg (by simp)]
  · unfold TimePoint.lt
    rw [h1, h2, if_neg (by simp)]
  · unfold TimePoint.eq
    rw [sortkey_local]
    simp only [Option.bind_eq_bind, Option.bind_some]
    rw [h1, h2, if_neg (by simp)]
    rfl

/-- 23:59:60 comes before the next midnight. -/
example : (timePoint ⟨2016, 12, 31⟩ ⟨23, 59, 60⟩ .unspecified).lt (timePoint ⟨2017, 1, 1⟩ ⟨0, 0, 0⟩ .unspecified) = some true := by
  decide +kernel

/-! ### C41: the constructor accepts exactly the valid times -/

/-- C41: hour, minute, second and a zone given by direction, hours and minutes are accepted exactly when the
clock reading is valid, the direction is -1, 0 or 1 and the zone is less than 24 hours from Greenwich; the
object then has these values. -/
theorem C41_complete (h m s zd zh zm : Int) (hz : 0 ≤ zh ∧ 0 ≤ zm) :
    mkTime { hour := some h, minute := some m, second := some s, zdir := some zd, zhour := some zh, zminute := some zm } =
      if (Clock.mk h m s).Valid ∧ (zd = 0 ∨ (zd = 1 ∨ zd = -1) ∧ 60 * zh + zm < 1440) then
        some ⟨h, some m, some s, some zd, some (if zd = 0 then 0 else zh * 60 + zm)⟩
      else none := by
  simp only [mkTime, zoneOffset, Option.isNone_some, Bool.false_eq_true, false_and, if_false]
  by_cases h0 : zd = 0
  · subst h0
    simp [checkTime, checkHMS_complete]
  · simp only [if_neg h0, Option.bind_eq_bind, Option.bind_some, checkTime]
    by_cases h1 : zd < -1 ∨ zd > 1
    · rw [if_pos h1, if_neg (by omega)]
    · rw [if_neg h1]
      simp only [ne_eq, h0, not_false_eq_true, if_true]
      by_cases h2 : zh * 60 + zm ≥ 1440
      · rw [if_pos h2, if_neg (fun p => by obtain ⟨-, p | p⟩ := p <;> first | exact p | exact h0 p | omega)]
      · rw [if_neg h2, checkHMS_complete]
        by_cases h3 : (Clock.mk h m s).Valid
        · rw [if_pos h3, if_pos ⟨h3, by omega⟩]
        · rw [if_neg h3, if_neg (fun p => h3 p.1)]

/-- C41 with reduced precision, without zone. -/
theorem C41_reduced (h m : Int) :
    mkTime { hour := some h, minute := some m } =
      (if 0 ≤ h ∧ h ≤ 24 ∧ 0 ≤ m ∧ m ≤ 59 ∧ (h = 24 → m = 0) then some ⟨h, some m, none, none, none⟩ else none) ∧
    mkTime { hour := some h } = (if 0 ≤ h ∧ h ≤ 24 then some ⟨h, none, none, none, none⟩ else none) ∧
    mkTime { minute := some m } = none := by
  refine ⟨?_, ?_, rfl⟩
  · simp only [mkTime, zoneOffset, checkTime, checkTime.checkHMS, Option.isNone_some, Bool.false_eq_true, false_and,
      if_false, Option.bind_eq_bind, Option.bind_some, Option.mem_some_iff, exists_eq_left', reduceCtorEq,
      Option.mem_def, exists_false, or_false, Option.some.injEq]
    by_cases h1 : h < 0 ∨ h > 24
    · rw [if_pos h1, if_neg (by omega)]
    · rw [if_neg h1]
      by_cases h2 : h = 24 ∧ m > 0
      · rw [if_pos h2, if_neg (by omega)]
      · rw [if_neg h2]
        by_cases h3 : m < 0 ∨ m > 59
        · rw [if_pos h3, if_neg (by omega)]
        · rw [if_neg h3, if_pos (by omega)]
  · simp only [mkTime, zoneOffset, checkTime, checkTime.checkHMS, Option.isNone_some, Bool.false_eq_true, false_and,
      if_false, Option.bind_eq_bind, Option.bind_some, Option.mem_def, reduceCtorEq, exists_false, or_false,
      and_false]
    by_cases h1 : h < 0 ∨ h > 24
    · rw [if_pos h1, if_neg (by omega)]
    · rw [if_neg h1, if_pos (by omega)]

/-- C41 fails for zones: 90 minutes, and negative offsets of any size, are accepted; and for a second without
a minute, which is accepted unchecked. -/
theorem C41_violations :
    (mkTime { hour := some 9, minute := some 0, second := some 0, zdir := some 1, zhour := some 1, zminute := some 90 }).isSome ∧
    (mkTime { hour := some 9, minute := some 0, second := some 0, zdir := some 1, zhour := some (-99), zminute := some 0 }).isSome ∧
    (mkTime { hour := some 9, second := some 99 }).isSome := by decide

end Verif.Iso

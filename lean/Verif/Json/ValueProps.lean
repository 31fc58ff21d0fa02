import Verif.Json.Value
import Verif.Iso.TimeProps
/-!
# The JSON form of simple values: what is written and what is read back
-/
namespace Verif.Json
open Verif.Text Verif.OData Verif.Iso

/-! ## Specification -/

/-- The string in brackets of the ASP.NET form of a date. -/
def aspText (body : Str) : Str := [47, 68, 97, 116, 101, 40] ++ body ++ [41, 47]

/-- Milliseconds from the start of 1970 to a reading of the clock on a date (both local). -/
def millis (d : YMD) (c : Clock) : Int := 86400000 * (d.number - 719163) + 1000 * c.seconds

/-- The values of a kind that are written so that they can be read back (Single and Double are not modelled). -/
inductive Plain : Kind → Val → Prop
  | null (k) : Plain k .null
  | binary (b) : (∀ x ∈ b, x < 256) → Plain .binary (.bin b)
  | boolean (b) : Plain .boolean (.bool b)
  | byte (n) : n ≤ 255 → Plain .byte (.byte n)
  | sbyte (n) : -128 ≤ n → n ≤ 127 → Plain .sbyte (.sbyte n)
  | int16 (n) : -32768 ≤ n → n ≤ 32767 → Plain .int16 (.i16 n)
  | int32 (n) : -2147483648 ≤ n → n ≤ 2147483647 → Plain .int32 (.i32 n)
  | int64 (n) : -9223372036854775808 ≤ n → n ≤ 9223372036854775807 → Plain .int64 (.i64 n)
  | decimal (neg coef scale) : scale ≤ 29 → coef < 10 ^ 29 → Plain .decimal (.dec neg coef scale)
  | guid (n) : n < 2 ^ 128 → Plain .guid (.guid n)
  | string (s) : (∀ c ∈ s, Scalar c) → Plain .string (.str s)
  | time (c : Clock) : c.Valid → Plain .time (.time (c.time .unspecified) [])
  | dateTime (d : YMD) (c : Clock) : d.Valid → c.Valid → c.h ≤ 23 → c.s ≤ 59 → 719163 ≤ d.number →
      Plain .dateTime (.dt (timePoint d c .unspecified) [])
  | east (d : YMD) (c : Clock) (n : Int) : d.Valid → c.Valid → c.h ≤ 23 → c.s ≤ 59 → 0 ≤ n → n < 1440 →
      Plain .dateTimeOffset (.dto (timePoint d c (.east n)))
  | west (d : YMD) (c : Clock) (n : Int) : d.Valid → c.Valid → c.h ≤ 23 → c.s ≤ 59 → 0 ≤ n → n < 1440 → 719163 ≤ d.number →
      Plain .dateTimeOffset (.dto (timePoint d c (.west n)))
  | utc (d : YMD) (c : Clock) : d.Valid → c.Valid → c.h ≤ 23 → c.s ≤ 59 → 719163 ≤ d.number →
      Plain .dateTimeOffset (.dto (timePoint d c .utc))

/-- The JSON value a value stands for in an OData document: `Denotes v j`. -/
inductive Denotes : Val → J → Prop
  | null : Denotes .null .null
  | binary (b) : Denotes (.bin b) (.str (Auth.b64encode b))
  | boolean (b) : Denotes (.bool b) (.bool b)
  | byte (n : Nat) : Denotes (.byte n) (.num n)
  | sbyte (n) : Denotes (.sbyte n) (.num n)
  | int16 (n) : Denotes (.i16 n) (.num n)
  | int32 (n) : Denotes (.i32 n) (.num n)
  | int64 (n) : Denotes (.i64 n) (.str (intStr n))
  | decimal (neg coef scale) : Denotes (.dec neg coef scale) (.str (decText neg coef scale))
  | guid (n) : Denotes (.guid n) (.str (guidText n))
  | string (s) : Denotes (.str s) (.str s)
  | time (c : Clock) : Denotes (.time (c.time .unspecified) []) (.str (clockText c))
  | dateTime (d c) : Denotes (.dt (timePoint d c .unspecified) []) (.str (aspText (intStr (millis d c))))
  | east (d c n) : Denotes (.dto (timePoint d c (.east n))) (.str (aspText (intStr (millis d c) ++ 43 :: fmtInt 4 n)))
  | west (d c n) : Denotes (.dto (timePoint d c (.west n))) (.str (aspText (intStr (millis d c) ++ 45 :: fmtInt 4 n)))
  | utc (d c) : Denotes (.dto (timePoint d c .utc)) (.str (aspText (intStr (millis d c) ++ 45 :: fmtInt 4 0)))

/-- What is read back: the same value, except that a time in UTC comes back as a time with the offset -00:00. -/
def back : Val → Val
  | .dto p => .dto (if p.time.zdir = some 0 then ⟨p.date, { p.time with zdir := some (-1) }⟩ else p)
  | v => v

/-! ## The ASP.NET form -/

theorem strLoop_plain (s : Str) (h : ∀ c ∈ s, 35 ≤ c ∧ c ≠ 92) (r : Str) (q : Str × Str) : ∀ f, strLoop f r = some q →
    strLoop (f + s.length) (s ++ r) = some (s ++ q.1, q.2) := by
  induction s with
  | nil => intro f hf; simpa using hf
  | cons c s ih =>
    intro f hf
    have hc := h c (by simp)
    have := ih (fun d hd => h d (by simp [hd])) f hf
    rw [List.length_cons, ← Nat.add_assoc, strLoop, List.cons_append, List.head?_cons, if_neg (by simp; omega)]
    have hu : unit (c :: (s ++ r)) = some (c, s ++ r) := by
      have : c ≠ 92 := by omega
      cases hs : s ++ r with
      | nil => simp [unit, this]; omega
      | cons e t => simp [unit, this]; omega
    rw [hu]
    dsimp only
    rw [this]
    rfl

theorem strLoop_mono : ∀ (f g : Nat) (s : Str) (q : Str × Str), strLoop f s = some q → f ≤ g → strLoop g s = some q := by
  intro f
  induction f with
  | zero => intro g s q h; simp [strLoop] at h
  | succ f ih =>
    intro g s q h hg
    obtain ⟨g, rfl⟩ : ∃ k, g = k + 1 := ⟨g - 1, by omega⟩
    rw [strLoop] at h ⊢
    split at h
    · rename_i hh; rw [if_pos hh]; exact h
    · rename_i hh
      rw [if_neg hh]
      cases hu : unit s with
      | none => rw [hu] at h; simp at h
      | some x =>
        rw [hu] at h
        dsimp only at h ⊢
        cases hl : strLoop f x.2 with
        | none => rw [hl] at h; simp at h
        | some y => rw [hl] at h; rw [ih g _ _ hl (by omega)]; exact h

theorem reads_date (body : Str) (h : ∀ c ∈ body, 43 ≤ c ∧ c ≤ 57) : Reads (dateJson body) (.str (aspText body)) := by
  intro f r hf _
  obtain ⟨f, rfl⟩ : ∃ g, f = g + 1 := ⟨f - 1, by omega⟩
  have h1 : skipWs (dateJson body ++ r) = dateJson body ++ r := skipWs_of (by intro c hc; simp [dateJson] at hc; subst hc; rfl)
  have h3 : (dateJson body ++ r).tail = 92 :: 47 :: (([68, 97, 116, 101, 40] ++ body ++ [41]) ++ (92 :: 47 :: 34 :: r)) := by
    have : chars "Date(" = [68, 97, 116, 101, 40] := by decide
    rw [dateJson, this]; simp
  unfold parseVal
  simp only [h1]
  rw [if_pos (by simp [dateJson]), h3]
  have hend : strLoop 2 (92 :: 47 :: 34 :: r) = some ([47], r) := by simp [strLoop, unit]
  have hmid := strLoop_plain ([68, 97, 116, 101, 40] ++ body ++ [41]) (by
    intro c hc
    simp only [List.mem_append, List.mem_cons, List.not_mem_nil, or_false] at hc
    rcases hc with (hc | hc) | hc
    · omega
    · have := h c hc; omega
    · omega) _ _ 2 hend
  have hall : strLoop (2 + ([68, 97, 116, 101, 40] ++ body ++ [41]).length + 1)
      (92 :: 47 :: (([68, 97, 116, 101, 40] ++ body ++ [41]) ++ (92 :: 47 :: 34 :: r))) = some (aspText body, r) := by
    rw [strLoop, List.head?_cons, if_neg (by decide)]
    have hu : ∀ t, unit (92 :: 47 :: t) = some (47, t) := by intro t; simp [unit]
    rw [hu]
    dsimp only
    rw [hmid]
    simp [aspText]
  unfold parseStr
  rw [strLoop_mono _ _ _ _ hall (by simp; omega)]
  rfl

/-! ## Reading ticks -/

theorem intStr_chars (n : Int) : ∀ c ∈ intStr n, 43 ≤ c ∧ c ≤ 57 := by
  intro c hc
  have : ∀ c ∈ decStr n.natAbs, 43 ≤ c ∧ c ≤ 57 := fun c hc => by
    have := decStr_isDigit _ c hc
    simp [isDigit] at this; omega
  unfold intStr at hc
  split at hc
  · simp only [List.mem_cons] at hc
    rcases hc with rfl | hc
    · omega
    · exact this c hc
  · exact this c hc

theorem digits_chars {s : Str} (h : ∀ c ∈ s, isDigit c = true) : ∀ c ∈ s, 48 ≤ c ∧ c ≤ 57 := fun c hc => by
  have := h c hc
  simp [isDigit] at this; omega

theorem pyInt_digits {s : Str} (hne : s ≠ []) (h : ∀ c ∈ s, isDigit c = true) : pyInt s = some (decVal s : Int) := by
  have hall : s.all isDigit = true := by simpa using h
  cases s with
  | nil => exact absurd rfl hne
  | cons c s =>
    have := digits_chars h c (by simp)
    unfold pyInt
    split
    · rename_i heq; cases heq; omega
    · rename_i heq; cases heq; omega
    · rw [if_pos (by simp [hall] )]

theorem pyInt_intStr (n : Int) : pyInt (intStr n) = some n := by
  unfold intStr
  split
  · have hd := decStr_isDigit n.natAbs
    have hne := decStr_ne_nil n.natAbs
    have hall : (decStr n.natAbs).all isDigit = true := by simpa using hd
    simp only [pyInt]
    rw [if_pos (by simp [hall, hne]), decVal_decStr]
    congr 1; omega
  · rw [pyInt_digits (decStr_ne_nil _) (decStr_isDigit _), decVal_decStr]
    congr 1; omega

theorem fmt4_digits (n : Int) (h : 0 ≤ n) : fmtInt 4 n ≠ [] ∧ (∀ c ∈ fmtInt 4 n, isDigit c = true) ∧ pyInt (fmtInt 4 n) = some n := by
  obtain ⟨k, rfl⟩ := Int.eq_ofNat_of_zero_le h
  rw [show fmtInt 4 (k : Int) = decPad 4 k by simp only [fmtInt]; rw [if_neg (by omega)]; rfl]
  have h1 : decPad 4 k ≠ [] := by simp [decPad, decStr_ne_nil]
  exact ⟨h1, decPad_isDigit _ _, by rw [pyInt_digits h1 (decPad_isDigit _ _), decVal_decPad]⟩

theorem splitTwo_of {sep : Nat} {a b : Str} (ha : sep ∉ a) (hb : sep ∉ b) : splitTwo sep (a ++ sep :: b) = some (a, b) := by
  have key := takeWhile_stop (p := fun x => decide (x ≠ sep)) (w := a) (r := sep :: b)
    (fun c hc => by simp; rintro rfl; exact ha hc) (fun c hc => by cases hc; simp)
  unfold splitTwo
  dsimp only
  rw [key.1, key.2]
  simp [hb]

theorem aspParts_east (n z : Int) (hz : 0 ≤ z) : aspParts (intStr n ++ 43 :: fmtInt 4 z) = some (intStr n, 1, z) := by
  have ⟨_, h2, h3⟩ := fmt4_digits z hz
  have ha : 43 ∉ intStr n := by
    unfold intStr
    split
    · intro h
      simp only [List.mem_cons] at h
      rcases h with h | h
      · omega
      · have := digits_chars (decStr_isDigit _) 43 h; omega
    · intro h; have := digits_chars (decStr_isDigit _) 43 h; omega
  have hb : 43 ∉ fmtInt 4 z := fun h => by have := digits_chars h2 43 h; omega
  unfold aspParts
  rw [if_pos (by simp), splitTwo_of ha hb]
  simp [h3]

theorem aspParts_west (n z : Int) (hn : 0 ≤ n) (hz : 0 ≤ z) : aspParts (intStr n ++ 45 :: fmtInt 4 z) = some (intStr n, -1, z) := by
  have ⟨_, h2, h3⟩ := fmt4_digits z hz
  have hi : intStr n = decStr n.natAbs := by unfold intStr; rw [if_neg (by omega)]
  have hd := digits_chars (decStr_isDigit n.natAbs)
  have ha : 45 ∉ intStr n := by rw [hi]; intro h; have := hd 45 h; omega
  have ha' : 43 ∉ intStr n := by rw [hi]; intro h; have := hd 43 h; omega
  have hb : 45 ∉ fmtInt 4 z := fun h => by have := digits_chars h2 45 h; omega
  have hb' : 43 ∉ fmtInt 4 z := fun h => by have := digits_chars h2 43 h; omega
  unfold aspParts
  rw [if_neg (by simp [ha', hb']), if_pos (by simp), splitTwo_of ha hb]
  simp [h3]

theorem aspParts_none (n : Int) (hn : 0 ≤ n) : aspParts (intStr n) = some (intStr n, 0, 0) := by
  have hi : intStr n = decStr n.natAbs := by unfold intStr; rw [if_neg (by omega)]
  have hd := digits_chars (decStr_isDigit n.natAbs)
  have ha : 45 ∉ intStr n := by rw [hi]; intro h; have := hd 45 h; omega
  have ha' : 43 ∉ intStr n := by rw [hi]; intro h; have := hd 43 h; omega
  unfold aspParts
  rw [if_neg ha', if_neg ha]

theorem asp_take (body : Str) : (aspText body).take 6 = chars "/Date(" ∧ (aspText body).drop ((aspText body).length - 2) = [41, 47] ∧
    ((aspText body).drop 6).dropLast.dropLast = body := by
  have h1 : chars "/Date(" = [47, 68, 97, 116, 101, 40] := by decide
  refine ⟨by rw [h1]; simp [aspText], ?_, ?_⟩
  · rw [show (aspText body).length - 2 = ([47, 68, 97, 116, 101, 40] ++ body).length by simp [aspText]]
    rw [aspText, List.drop_left]
  · rw [show (aspText body).drop 6 = body ++ [41, 47] by simp [aspText]]
    rw [show body ++ [41, 47] = (body ++ [41]) ++ [47] by simp, List.dropLast_concat, List.dropLast_concat]

/-- Reading the ticks of a clock reading on a date gives it back, in the zone named. -/
theorem parseAsp_text (d : YMD) (c : Clock) (hd : d.Valid) (hc : c.Valid) (h23 : c.h ≤ 23) (h59 : c.s ≤ 59) (body : Str) (zdir zoff : Int)
    (z : Zone) (hz : z.Valid) (hzn : z.Named (some zdir) (some (zoff / 60)) (some (zoff % 60)))
    (hb : aspParts body = some (intStr (millis d c), zdir, zoff)) : parseAsp (aspText body) = some (timePoint d c z) := by
  have ⟨e1, e2, e3⟩ := asp_take body
  unfold parseAsp
  rw [if_pos (by simp [e1, e2]), e3, hb]
  simp only [Option.bind_eq_bind, Option.bind_some, pyInt_intStr]
  have hm : millis d c % 1000 = 0 := by unfold millis; omega
  have hq : millis d c / 1000 = 86400 * (d.number - 719163) + c.seconds := by unfold millis; omega
  rw [if_neg (by omega), hq]
  obtain ⟨c', days, e, hv, hh, hs, heq⟩ := C13_offset ⟨0, 0, 0⟩ (by decide) (by decide) .unspecified trivial 0 0 (86400 * (d.number - 719163) + c.seconds)
  rw [e]
  have hcc : c' = c ∧ days = d.number - 719163 := by
    rcases c with ⟨h, m, s⟩
    rcases c' with ⟨h', m', s'⟩
    simp only [Clock.Valid, Clock.seconds] at *
    have : s' ≠ 60 := fun h => by have := (hs h).1; omega
    refine ⟨?_, by omega⟩
    simp only [Clock.mk.injEq]
    omega
  rw [hcc.1, hcc.2]
  have hw : (c.time .unspecified).withZone (some zdir) (some (zoff / 60)) (some (zoff % 60)) = some (c.time z) := by
    have := mkTime_named c z hz _ _ _ hzn
    rw [if_pos hc] at this
    exact this
  simp only [Option.bind_some]
  rw [hw, show 719163 + (d.number - 719163) = d.number by omega, ((C07_absolute_day_bijection.2.1) d hd).2.2.2]
  simp only [Option.bind_some]
  rw [mkTimePoint_complete d hd c z hz, if_pos hc]

theorem dateTicks_eq (d : YMD) (c : Clock) (hd : d.Valid) (h59 : c.s ≤ 59) (z : Zone) : dateTicks (timePoint d c z) = some (millis d c) := by
  have h1 : (timePoint d c z).date.getAbsoluteDay = some d.number := (C07_absolute_day_bijection.2.1 d hd).1
  have h2 : (timePoint d c z).time.totalSeconds = some c.seconds := by
    have : (timePoint d c z).time.totalSeconds = (if c.s = 60 then some (59 + c.m * 60 + c.h * 3600) else some (c.s + c.m * 60 + c.h * 3600)) := by
      cases z <;> rfl
    rw [this, if_neg (by omega)]
    unfold Clock.seconds
    congr 1; omega
  unfold dateTicks
  rw [h1, h2]
  simp only [Option.bind_eq_bind, Option.bind_some]
  unfold millis
  congr 1; omega

theorem complete_point (d : YMD) (c : Clock) (z : Zone) : (timePoint d c z).complete = true := by cases z <;> rfl

theorem setDto_point (d : YMD) (c : Clock) (z : Zone) (hu : z ≠ .unspecified) :
    setDateTimeOffset (timePoint d c z) = some (.dto (timePoint d c z)) := by
  unfold setDateTimeOffset
  rw [complete_point]
  cases z with
  | unspecified => exact absurd rfl hu
  | utc => rfl
  | east n => rfl
  | west n => rfl

theorem date_of_number {d d' : YMD} (h : d.Valid) (h' : d'.Valid) (e : d.number = d'.number) : d.date = d'.date := by
  have h1 := (C07_absolute_day_bijection.2.1 d h).2.2.2
  have h2 := (C07_absolute_day_bijection.2.1 d' h').2.2.2
  rw [e, h2] at h1
  exact (Option.some.inj h1).symm

/-- Shifting a UTC time to UTC changes nothing. -/
theorem shift_utc (d : YMD) (c : Clock) (hd : d.Valid) (hc : c.Valid) (h23 : c.h ≤ 23) :
    (timePoint d c .utc).shiftZone (some 0) none none = some (timePoint d c .utc) := by
  have hn := C07_absolute_day_bijection.2.1 d hd
  have hc0 := hc
  have hi : instant d c.onMinute .utc = 86400 * d.number + 3600 * c.h + 60 * c.m := by
    simp [instant, localSeconds, Clock.seconds, Clock.onMinute, Zone.minutes]; omega
  unfold Clock.Valid at hc0
  obtain ⟨d', c', hd', hc', h23', hs, hinst, e⟩ := C14_to_utc d hd c hc .utc trivial (by simp) (by rw [hi]; omega) (by rw [hi]; omega)
  rw [e]
  have hinst' : 86400 * d'.number + c'.seconds = 86400 * d.number + c.seconds := by
    simpa [instant, localSeconds, Zone.minutes] using hinst
  have hcv := hc'
  unfold Clock.Valid at hcv
  unfold Clock.seconds at hinst'
  have hnum : d'.number = d.number := by omega
  have hcc : c' = c := by
    rcases c with ⟨h, m, s⟩
    rcases c' with ⟨h', m', s'⟩
    simp only [Clock.mk.injEq] at *
    omega
  rw [hcc]
  unfold timePoint
  rw [date_of_number hd' hd hnum]

/-! ## The other types -/

theorem setTime_clock (c : Clock) (hc : c.Valid) : setTime (clockText c) = some (.time (c.time .unspecified) []) := by
  have ⟨h1, h2, h3⟩ := clock_ranges hc
  have hv := hc
  unfold Clock.Valid at hv
  have hlast : integer 0 60 (some 2) (fmtInt 2 c.s) = .ok c.s.toNat [] := by
    rw [fmt2 c.s h3]
    have hd : ∀ x ∈ [dg (c.s / 10), dg c.s], isDigit x = true := by
      intro x hx
      simp only [List.mem_cons, List.not_mem_nil, or_false] at hx
      rcases hx with rfl | rfl <;> exact isDigit_dg _
    have key := digits_exact 2 [dg (c.s / 10), dg c.s] [] rfl hd
    have hval : decVal [dg (c.s / 10), dg c.s] = c.s.toNat := by
      simp only [decVal, List.foldl_cons, List.foldl_nil, dg]; omega
    have k1 : digits 1 (some 2) [dg (c.s / 10), dg c.s] = .ok [dg (c.s / 10), dg c.s] [] := by
      have kk := takeWhile_stop (r := []) hd (fun d hd => by cases hd)
      rw [List.append_nil] at kk
      unfold digits
      dsimp only
      rw [kk.1]
      rfl
    unfold integer
    rw [k1]
    simp only [R.bind, hval]
    rw [if_neg (by omega)]
  unfold setTime timeBody clockText
  rw [integer_two 0 24 none (.inl rfl) c.h h1 (by omega) (by omega) 58 _ rfl]
  simp only [R.require, R.bind]
  rw [expect_self]
  simp only [R.bind]
  rw [integer_two 0 60 (some 2) (.inr rfl) c.m h2 (by omega) (by omega) 58 _ rfl]
  simp only [R.bind, seconds]
  rw [hlast]
  simp only [R.require, R.bind]
  rw [timeOf_clock c hc]

theorem setGuid_text (n : Nat) (h : n < 2 ^ 128) : setGuid (guidText n) = some (.guid n) := by
  have hx := hexPad_isHex 32 n
  have hl := hexPad_length 32 n
  have hv := hexNum_hexPad 32 n
  unfold guidText
  generalize hexPad 32 n = w at hx hl hv
  dsimp only
  unfold setGuid
  simp only [List.append_assoc, List.cons_append]
  rw [hexDigits_exact 8 (w.take 8) _ (by rw [List.length_take]; omega) (fun c hc => hx c (List.mem_of_mem_take hc))]
  simp only [R.require, R.bind]
  rw [expect_self]
  simp only [R.bind]
  rw [hexDigits_exact 4 ((w.drop 8).take 4) _ (by rw [List.length_take, List.length_drop]; omega) (fun c hc => hx c (mem_take_drop hc))]
  simp only [R.require, R.bind]
  rw [expect_self]
  simp only [R.bind]
  rw [hexDigits_exact 4 ((w.drop 12).take 4) _ (by rw [List.length_take, List.length_drop]; omega) (fun c hc => hx c (mem_take_drop hc))]
  simp only [R.require, R.bind]
  rw [expect_self]
  simp only [R.bind]
  rw [hexDigits_exact 4 ((w.drop 16).take 4) _ (by rw [List.length_take, List.length_drop]; omega) (fun c hc => hx c (mem_take_drop hc))]
  simp only [R.require, R.bind]
  rw [expect_self]
  simp only [R.bind]
  have hlast := hexDigits_exact 12 (w.drop 20) [] (by rw [List.length_drop]; omega) (fun c hc => hx c (List.mem_of_mem_drop hc))
  rw [List.append_nil] at hlast
  rw [hlast]
  simp only [R.bind]
  have hcat : w.take 8 ++ ((w.drop 8).take 4 ++ ((w.drop 12).take 4 ++ ((w.drop 16).take 4 ++ w.drop 20))) = w := by
    have e1 : (w.drop 16).take 4 ++ w.drop 20 = w.drop 16 := by
      have := List.take_append_drop 4 (w.drop 16)
      rwa [List.drop_drop] at this
    have e2 : (w.drop 12).take 4 ++ w.drop 16 = w.drop 12 := by
      have := List.take_append_drop 4 (w.drop 12)
      rwa [List.drop_drop] at this
    have e3 : (w.drop 8).take 4 ++ w.drop 12 = w.drop 8 := by
      have := List.take_append_drop 4 (w.drop 8)
      rwa [List.drop_drop] at this
    rw [e1, e2, e3, List.take_append_drop]
  rw [hcat, hv, Nat.mod_eq_of_lt (by simpa using h)]

theorem numEnd_nil : NumEnd [] := fun c hc => by cases hc

theorem decStr_len {k w : Nat} (h : k < 10 ^ w) (hw : 0 < w) : (decStr k).length ≤ w := decStr_length_le h hw

theorem setDecimal_text (neg : Bool) (coef scale : Nat) (hs : scale ≤ 29) (hc : coef < 10 ^ 29) :
    setNumeric setDecimal (decText neg coef scale) = some (.dec neg coef scale) := by
  have h := numeric_dec neg coef scale numEnd_nil
  rw [List.append_nil] at h
  unfold setNumeric
  rw [h]
  exact setDecimal_dec neg coef scale hs (decStr_len (Nat.lt_of_le_of_lt (Nat.div_le_self _ _) hc) (by decide))

theorem setInt64_text (n : Int) (h : -9223372036854775808 ≤ n ∧ n ≤ 9223372036854775807) : setNumeric setInt64 (intStr n) = some (.i64 n) := by
  have hn := numeric_int n numEnd_nil
  rw [List.append_nil] at hn
  unfold setNumeric
  rw [hn]
  dsimp only
  unfold setInt64
  rw [numeric_isInt n 19 (by omega) (by decide), if_pos rfl, numeric_value, if_neg (by omega)]

theorem scalar_ascii {c : Nat} (h : c < 128) : Scalar c := by unfold Scalar; omega

theorem dec_chars (neg : Bool) (coef scale : Nat) : ∀ c ∈ decText neg coef scale, c < 128 := by
  have hd : ∀ k, ∀ c ∈ decStr k, c < 128 := fun k c hc => by have := digits_chars (decStr_isDigit k) c hc; omega
  have hp : ∀ w k, ∀ c ∈ decPad w k, c < 128 := fun w k c hc => by have := digits_chars (decPad_isDigit w k) c hc; omega
  intro c hc
  unfold decText at hc
  rw [List.mem_append] at hc
  rcases hc with hc | hc
  · split at hc
    · simp at hc; omega
    · simp at hc
  · split at hc
    · exact hd _ _ hc
    · rw [List.mem_append, List.mem_cons] at hc
      rcases hc with hc | rfl | hc
      · exact hd _ _ hc
      · omega
      · exact hp _ _ _ hc

theorem hex_chars {c : Nat} (h : Uri.isHex c = true) : c < 128 := by
  unfold Uri.isHex at h
  simp [Uri.isDigit] at h
  omega

theorem guid_chars (n : Nat) : ∀ c ∈ guidText n, c < 128 := by
  have hx : ∀ c ∈ hexPad 32 n, c < 128 := fun c hc => hex_chars (hexPad_isHex 32 n c hc)
  unfold guidText
  generalize hexPad 32 n = w at hx
  dsimp only
  intro c hc
  simp only [List.mem_append, List.mem_cons] at hc
  have ht : ∀ i j, c ∈ (w.drop i).take j → c < 128 := fun i j h => hx c (mem_take_drop h)
  rcases hc with (((hc | hc | hc) | hc | hc) | hc | hc) | hc | hc
  · exact hx c (List.mem_of_mem_take hc)
  · omega
  · exact ht _ _ hc
  · omega
  · exact ht _ _ hc
  · omega
  · exact ht _ _ hc
  · omega
  · exact hx c (List.mem_of_mem_drop hc)

theorem clock_chars (c : Clock) (hc : c.Valid) : ∀ x ∈ clockText c, x < 128 := by
  have ⟨h1, h2, h3⟩ := clock_ranges hc
  have h : ∀ n : Int, 0 ≤ n ∧ n ≤ 99 → ∀ x ∈ fmtInt 2 n, x < 128 := by
    intro n hn x hx
    rw [fmt2 n hn] at hx
    simp only [List.mem_cons, List.not_mem_nil, or_false] at hx
    have := fun m => digits_chars (s := [dg m]) (by simpa using isDigit_dg m) (dg m) (by simp)
    rcases hx with rfl | rfl
    · have := this (n / 10); omega
    · have := this n; omega
  intro x hx
  unfold clockText at hx
  simp only [List.mem_append, List.mem_cons] at hx
  rcases hx with hx | rfl | hx | rfl | hx
  · exact h _ h1 x hx
  · omega
  · exact h _ h2 x hx
  · omega
  · exact h _ h3 x hx

theorem b64_ascii (b : List Nat) (h : ∀ x ∈ b, x < 256) : ∀ c ∈ Auth.b64encode b, c < 128 := by
  have hk : ∀ k : Fin 64, Auth.b64char k.val < 128 := by decide
  have hn : ∀ n, n < 64 → Auth.b64char n < 128 := fun n hn => hk ⟨n, hn⟩
  fun_induction Auth.b64encode b with
  | case1 => intro c hc; simp at hc
  | case2 a =>
    have := h a (by simp)
    intro c hc
    simp only [List.mem_cons, List.not_mem_nil, or_false] at hc
    rcases hc with rfl | rfl | rfl | rfl
    · exact hn _ (by omega)
    · exact hn _ (by omega)
    · omega
    · omega
  | case3 a b =>
    have := h a (by simp)
    have := h b (by simp)
    intro c hc
    simp only [List.mem_cons, List.not_mem_nil, or_false] at hc
    rcases hc with rfl | rfl | rfl | rfl
    · exact hn _ (by omega)
    · exact hn _ (by omega)
    · exact hn _ (by omega)
    · omega
  | case4 a b c r ih =>
    have := h a (by simp)
    have := h b (by simp)
    have := h c (by simp)
    intro x hx
    simp only [List.mem_cons] at hx
    rcases hx with rfl | rfl | rfl | rfl | hx
    · exact hn _ (by omega)
    · exact hn _ (by omega)
    · exact hn _ (by omega)
    · exact hn _ (by omega)
    · exact ih (fun y hy => h y (by simp [hy])) x hx

theorem millis_nonneg (d : YMD) (c : Clock) (hc : c.Valid) (h : 719163 ≤ d.number) : 0 ≤ millis d c := by
  unfold Clock.Valid at hc
  unfold millis Clock.seconds
  omega

theorem body_chars (n : Int) (sg : Nat) (hs : sg = 43 ∨ sg = 45) (z : Int) (hz : 0 ≤ z) : ∀ c ∈ intStr n ++ sg :: fmtInt 4 z, 43 ≤ c ∧ c ≤ 57 := by
  intro c hc
  simp only [List.mem_append, List.mem_cons] at hc
  rcases hc with hc | rfl | hc
  · exact intStr_chars n c hc
  · omega
  · have := digits_chars (fmt4_digits z hz).2.1 c hc; omega

/-- Every plain value is written as text that denotes it, and is read back. -/
theorem val_written {k : Kind} {v : Val} (h : Plain k v) :
    ∃ t j, valJson v = some t ∧ Denotes v j ∧ Reads t j ∧ valFrom k j = some (back v) := by
  cases h with
  | null => exact ⟨_, _, rfl, .null, reads_null, by cases k <;> rfl⟩
  | binary b hb =>
    have ha := b64_ascii b hb
    refine ⟨_, _, rfl, .binary b, reads_str _ fun c hc => scalar_ascii (ha c hc), ?_⟩
    have : (Auth.b64encode b).all (fun x => decide (x < 128)) = true := by simpa using ha
    simp only [valFrom]
    rw [if_pos this, Auth.b64_roundtrip b hb]
    rfl
  | boolean b => cases b <;> exact ⟨_, _, rfl, .boolean _, by first | exact reads_true | exact reads_false, rfl⟩
  | byte n hn =>
    refine ⟨_, _, rfl, .byte n, ?_, ?_⟩
    · have := reads_num (n : Int)
      rwa [show intStr (n : Int) = decStr n by unfold intStr; rw [if_neg (by omega)]; simp] at this
    · simp only [valFrom, inRange]
      rw [if_neg (by omega)]; rfl
  | sbyte n h1 h2 => exact ⟨_, _, rfl, .sbyte n, reads_num n, by simp only [valFrom, inRange]; rw [if_neg (by omega)]; rfl⟩
  | int16 n h1 h2 => exact ⟨_, _, rfl, .int16 n, reads_num n, by simp only [valFrom, inRange]; rw [if_neg (by omega)]; rfl⟩
  | int32 n h1 h2 => exact ⟨_, _, rfl, .int32 n, reads_num n, by simp only [valFrom, inRange]; rw [if_neg (by omega)]; rfl⟩
  | int64 n h1 h2 =>
    refine ⟨_, _, rfl, .int64 n, reads_str _ fun c hc => scalar_ascii ?_, setInt64_text n ⟨h1, h2⟩⟩
    have := intStr_chars n c hc; omega
  | decimal neg coef scale hs hc =>
    refine ⟨_, _, ?_, .decimal neg coef scale, reads_str _ fun c h => scalar_ascii (dec_chars _ _ _ c h), setDecimal_text neg coef scale hs hc⟩
    simp only [valJson]
    rw [if_pos ⟨hs, by have := decStr_len hc (by decide); omega⟩]
  | guid n hn => exact ⟨_, _, rfl, .guid n, reads_str _ fun c h => scalar_ascii (guid_chars n c h), setGuid_text n hn⟩
  | string s hs => exact ⟨_, _, rfl, .string s, reads_str s hs, rfl⟩
  | time c hc =>
    refine ⟨_, _, by simp only [valJson, time_string]; rfl, .time c, reads_str _ fun x h => scalar_ascii (clock_chars c hc x h), setTime_clock c hc⟩
  | dateTime d c hd hc h23 h59 h70 =>
    refine ⟨_, _, by simp only [valJson, if_true, dateTicks_eq d c hd h59]; rfl, .dateTime d c, reads_date _ (intStr_chars _), ?_⟩
    have hp := parseAsp_text d c hd hc h23 h59 _ 0 0 .utc trivial rfl (aspParts_none _ (millis_nonneg d c hc h70))
    simp only [valFrom]
    rw [if_pos (asp_take _).1, hp]
    simp only [Option.bind_eq_bind, Option.bind_some]
    rw [shift_utc d c hd hc h23]
    simp only [Option.bind_some]
    have hw : (c.time .utc).withZone none none none = some (c.time .unspecified) := by
      have := mkTime_named c .unspecified trivial none none none rfl
      rw [if_pos hc] at this
      exact this
    unfold setDateTime
    rw [show (timePoint d c .utc).time = c.time .utc from rfl, hw]
    rfl
  | east d c n hd hc h23 h59 hn hn' =>
    refine ⟨_, _, by simp only [valJson, dateTicks_eq d c hd h59]; rfl, .east d c n, reads_date _ (body_chars _ 43 (.inl rfl) n hn), ?_⟩
    have hp := parseAsp_text d c hd hc h23 h59 _ 1 n (.east n) ⟨hn, hn'⟩ ⟨rfl, n / 60, rfl, by simp; omega⟩ (aspParts_east (millis d c) n hn)
    simp only [valFrom]
    rw [if_pos (asp_take _).1, hp]
    exact setDto_point d c (.east n) (by simp)
  | west d c n hd hc h23 h59 hn hn' h70 =>
    refine ⟨_, _, by simp only [valJson, dateTicks_eq d c hd h59]; rfl, .west d c n, reads_date _ (body_chars _ 45 (.inr rfl) n hn), ?_⟩
    have hp := parseAsp_text d c hd hc h23 h59 _ (-1) n (.west n) ⟨hn, hn'⟩ ⟨rfl, n / 60, rfl, by simp; omega⟩
      (aspParts_west (millis d c) n (millis_nonneg d c hc h70) hn)
    simp only [valFrom]
    rw [if_pos (asp_take _).1, hp]
    exact setDto_point d c (.west n) (by simp)
  | utc d c hd hc h23 h59 h70 =>
    refine ⟨_, _, by simp only [valJson, dateTicks_eq d c hd h59]; rfl, .utc d c, reads_date _ (body_chars _ 45 (.inr rfl) 0 (by decide)), ?_⟩
    have hp := parseAsp_text d c hd hc h23 h59 _ (-1) 0 (.west 0) ⟨by decide, by decide⟩ ⟨rfl, 0, rfl, by simp⟩
      (aspParts_west (millis d c) 0 (millis_nonneg d c hc h70) (by decide))
    simp only [valFrom]
    rw [if_pos (asp_take _).1, hp]
    exact setDto_point d c (.west 0) (by simp)

end Verif.Json

import Verif.OData.Grammar
import Verif.OData.DateLit
/-!
# C61: literals written into a URI are read back as the same value
-/
namespace Verif.OData

open Verif.Text
open Verif.Iso (Date Time TimePoint YMD Clock Zone timePoint)

/-- The values the OData types allow (with whole seconds), apart from empty Binary values and floating point
numbers. -/
inductive Legal : Val → Prop
  | null : Legal .null
  | bool (b) : Legal (.bool b)
  | byte (n) : n ≤ 255 → Legal (.byte n)
  | sbyte (n) : -128 ≤ n ∧ n ≤ 127 → Legal (.sbyte n)
  | i16 (n) : -32768 ≤ n ∧ n ≤ 32767 → Legal (.i16 n)
  | i32 (n) : -2147483648 ≤ n ∧ n ≤ 2147483647 → Legal (.i32 n)
  | i64 (n) : -9223372036854775808 ≤ n ∧ n ≤ 9223372036854775807 → Legal (.i64 n)
  | dec (neg coef scale) : scale ≤ 29 → coef < 10 ^ (29 + scale) → Legal (.dec neg coef scale)
  | str (s) : Legal (.str s)
  | bin (b) : b ≠ [] → (∀ x ∈ b, x < 256) → Legal (.bin b)
  | guid (n) : n < 2 ^ 128 → Legal (.guid n)
  | dt {t : YMD} {c : Clock} : t.Valid → c.Valid → Legal (.dt (timePoint t c .unspecified) [])
  | dto {t : YMD} {c : Clock} {z : Zone} : t.Valid → c.Valid → z.Valid → z ≠ .unspecified → Legal (.dto (timePoint t c z))
  | time {c : Clock} : c.Valid → Legal (.time (c.time .unspecified) [])

/-- The value read back is the one written: the same number in the case of the small integer types, which have no
literal form of their own (core.py:1745-1748), the same instant with the offset written +00:00 for UTC. -/
inductive SameValue : Val → Val → Prop
  | refl (v) : SameValue v v
  | byte (n : Nat) : SameValue (.byte n) (.i32 n)
  | sbyte (n) : SameValue (.sbyte n) (.i32 n)
  | i16 (n) : SameValue (.i16 n) (.i32 n)
  | utc {t c} : SameValue (.dto (timePoint t c .utc)) (.dto (timePoint t c (.east 0)))

theorem decStr_intStr (n : Nat) : decStr n = intStr (n : Int) := by
  unfold intStr
  rw [if_neg (by omega), Int.natAbs_natCast]

theorem dec_lengths {coef scale : Nat} (h : coef < 10 ^ (29 + scale)) :
    (decStr coef).length ≤ 29 + scale ∧ (decStr (coef / 10 ^ scale)).length ≤ 29 := by
  refine ⟨decStr_length_le h (by omega), decStr_length_le ?_ (by omega)⟩
  rw [Nat.div_lt_iff_lt_mul (Nat.pow_pos (by decide)), ← Nat.pow_add]
  exact h

/-- C61.  The text written for a legal value is read as the same value wherever the literal may stand: at the end
of the text or before a space, a bracket, a comma or a slash. -/
theorem C61_uri_literal_round_trip (ids : Ids) {v : Val} (h : Legal v) :
    ∃ t w, formatLit v = some t ∧ SameValue v w ∧ LitText ids w t := by
  cases h with
  | null => exact ⟨_, _, rfl, .refl _, fun r hr => parseLit_null ids (hr.brk ids)⟩
  | bool b =>
    cases b with
    | true => exact ⟨_, _, rfl, .refl _, fun r hr => parseLit_true ids (hr.brk ids)⟩
    | false => exact ⟨_, _, rfl, .refl _, fun r hr => parseLit_false ids (hr.brk ids)⟩
  | byte n hn =>
    exact ⟨_, _, rfl, .byte n, fun r hr => by rw [decStr_intStr]; exact parseLit_i32 ids n (by omega) hr⟩
  | sbyte n hn => exact ⟨_, _, rfl, .sbyte n, fun r hr => parseLit_i32 ids n (by omega) hr⟩
  | i16 n hn => exact ⟨_, _, rfl, .i16 n, fun r hr => parseLit_i32 ids n (by omega) hr⟩
  | i32 n hn => exact ⟨_, _, rfl, .refl _, fun r hr => parseLit_i32 ids n hn hr⟩
  | i64 n hn =>
    exact ⟨_, _, rfl, .refl _, fun r hr => by rw [List.append_assoc]; exact parseLit_i64 ids n hn r⟩
  | dec neg coef scale hs hc =>
    have ⟨h1, h2⟩ := dec_lengths hc
    refine ⟨decText neg coef scale ++ [77], _, by simp [formatLit, hs, h1], .refl _, fun r hr => ?_⟩
    rw [List.append_assoc]
    exact parseLit_dec ids neg coef scale hs h1 r h2
  | str s => exact ⟨_, _, rfl, .refl _, fun r hr => parseLit_str ids s hr.noQuote⟩
  | bin b hb hx => exact ⟨_, _, rfl, .refl _, fun r hr => parseLit_bin ids b hb hx r⟩
  | guid n hn => exact ⟨_, _, rfl, .refl _, fun r hr => parseLit_guid ids n hn r⟩
  | dt ht hc =>
    rename_i t c
    obtain ⟨s, e, -⟩ := parseLit_datetime ids ht c hc []
    refine ⟨s, _, e, .refl _, fun r hr => ?_⟩
    obtain ⟨s', e', p⟩ := parseLit_datetime ids ht c hc r
    rw [e] at e'; cases e'; exact p
  | dto ht hc hz hu =>
    rename_i t c z
    obtain ⟨s, e, -⟩ := parseLit_dto ids ht c hc z hz hu []
    refine ⟨s, .dto (timePoint t c (offsetZone z)), e, ?_, fun r hr => ?_⟩
    · cases z <;> first | exact .refl _ | exact .utc
    · obtain ⟨s', e', p⟩ := parseLit_dto ids ht c hc z hz hu r
      rw [e] at e'; cases e'; exact p
  | time hc =>
    rename_i c
    obtain ⟨s, e, -⟩ := parseLit_time ids c hc []
    refine ⟨s, _, e, .refl _, fun r hr => ?_⟩
    obtain ⟨s', e', p⟩ := parseLit_time ids c hc r
    rw [e] at e'; cases e'; exact p

/-- An ASCII-only instance of the identifier classes, for the examples. -/
def asciiIds : Ids where
  start := fun c => Uri.isAlpha c
  cont := fun c => Uri.isAlnum c || c == 95
  start_cont := by intro c h; simp [Uri.isAlpha] at h; simp [Uri.isAlnum]; exact .inl (.inl h)
  start_ascii := by intro c _; rfl
  cont_ascii := by intro c _; rfl

/-- Non-vacuity: a quoted string, a decimal and a time. -/
example : Legal (.str (chars "O'Neil, (x)")) ∧ Legal (.dec true 12345 3) ∧
    formatLit (.str (chars "O'Neil")) = some (chars "'O''Neil'") ∧
    formatLit (.dec true 12345 3) = some (chars "-12.345M") := by
  refine ⟨.str _, .dec _ _ _ (by decide) (by decide), by decide +kernel, by decide +kernel⟩

/-- Violation: an empty Binary value is written as X'' and read back as something that is not a Binary value
(csdl.py:637-652 returns a character string) and cannot be written again. -/
theorem C61_empty_binary_violation (ids : Ids) :
    formatLit (.bin []) = some (chars "X''") ∧ (∀ r, parseLit ids (chars "X''" ++ r) = .ok .binText r) ∧
      formatLit .binText = none :=
  ⟨by decide +kernel, fun r => parseLit_bin_empty ids r, rfl⟩

theorem exponent_plus (sign l : Str) (rd : Option Str) (r : Str) :
    exponent sign l rd (101 :: 43 :: r) = .ok ⟨sign, l, rd, [43], some []⟩ (43 :: r) := by
  simp [exponent, isDigit]

/-- Violation: Python writes the Double 1e16 as 1e+16, so the literal is 1e+16D, which the parser rejects: an
exponent sign other than minus is not accepted (csdl.py:802-806). -/
theorem C61_exponent_plus_violation (ids : Ids) (r : Str) : parseLit ids (chars "1e+16D" ++ r) = .err := by
  show parseLit ids (49 :: (101 :: 43 :: 49 :: 54 :: 68 :: r)) = _
  rw [parseLit_number ids 49 _ (.inr (.inr rfl)), numeric_pos rfl]
  simp [numericBody, insensitive, lower, chars, isDigit, exponent, R.bind, suffix, setInt32, Numeric.isInt, orErr]

end Verif.OData

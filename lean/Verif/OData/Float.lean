import Mathlib.Data.Int.Log
import Mathlib.Data.Rat.Floor
import Mathlib.Tactic.Linarith
import Mathlib.Tactic.Positivity
import Mathlib.Tactic.FieldSimp
import Mathlib.Tactic.Ring
/-!
# Binary floating point with 53 bits of precision, as far as integer division needs it

Python floats are IEEE 754 doubles; the operations used by `evaluate_div` and `evaluate_mod` (core.py:649-650,
680-681) never leave the range of normal numbers, so underflow and overflow are left out.
-/
namespace Verif.OData

/-- The nearest integer, ties to even. -/
def roundEven (q : Rat) : Int :=
  if q - ⌊q⌋ < 1/2 then ⌊q⌋
  else if 1/2 < q - ⌊q⌋ then ⌊q⌋ + 1
  else if ⌊q⌋ % 2 = 0 then ⌊q⌋ else ⌊q⌋ + 1

/-- The weight of the last of the 53 bits. -/
def ulp (x : Rat) : Rat := (2 : Rat) ^ (Int.log 2 |x| - 52)

/-- The nearest number with 53 significant bits. -/
def rnd (x : Rat) : Rat := if x = 0 then 0 else roundEven (x / ulp x) * ulp x

/-- `int(x)` of a float: truncation towards zero. -/
def trunc (x : Rat) : Int := if 0 ≤ x then ⌊x⌋ else -⌊-x⌋

/-- `int(float(a) / float(b))`, core.py:649-650 (`b ≠ 0`). -/
def intDiv (a b : Int) : Int := trunc (rnd (rnd a / rnd b))

/-- `math.fmod(x, y)`, which is exact. -/
def fmod (x y : Rat) : Rat := x - y * trunc (x / y)

/-- `int(math.fmod(float(a), float(b)))`, core.py:680-681. -/
def intMod (a b : Int) : Int := trunc (fmod (rnd a) (rnd b))

theorem roundEven_err (q : Rat) : |(roundEven q : Rat) - q| ≤ 1/2 := by
  have h1 := Int.floor_le q
  have h2 := Int.lt_floor_add_one q
  unfold roundEven
  split
  · rw [abs_le]; constructor <;> linarith
  · split
    · push_cast; rw [abs_le]; constructor <;> linarith
    · split
      · rw [abs_le]; constructor <;> linarith
      · push_cast; rw [abs_le]; constructor <;> linarith

theorem roundEven_int (n : Int) : roundEven n = n := by
  unfold roundEven
  rw [Int.floor_intCast]
  simp

theorem ulp_pos (x : Rat) : 0 < ulp x := by unfold ulp; exact zpow_pos (by norm_num) _

theorem ulp_le {x : Rat} (h : x ≠ 0) : ulp x * 2 ^ 52 ≤ |x| := by
  have hp : 0 < |x| := abs_pos.2 h
  have := Int.zpow_log_le_self (b := 2) (by norm_num) hp
  unfold ulp
  rw [zpow_sub₀ (by norm_num)]
  norm_num at this ⊢
  exact this

theorem rnd_err (x : Rat) : |rnd x - x| ≤ |x| / 2 ^ 53 := by
  unfold rnd
  split
  · rename_i h; subst h; norm_num
  · rename_i h
    have hu := ulp_pos x
    have e := roundEven_err (x / ulp x)
    have : (roundEven (x / ulp x) : Rat) * ulp x - x = ((roundEven (x / ulp x) : Rat) - x / ulp x) * ulp x := by
      field_simp
    rw [this, abs_mul, abs_of_pos hu]
    have h2 := ulp_le h
    calc |(roundEven (x / ulp x) : Rat) - x / ulp x| * ulp x ≤ 1/2 * ulp x := by
          exact mul_le_mul_of_nonneg_right e hu.le
      _ ≤ |x| / 2 ^ 53 := by rw [le_div_iff₀ (by norm_num)]; linarith

/-- Integers up to 2^53 are represented exactly. -/
theorem rnd_int {n : Int} (h : |n| ≤ 2 ^ 53) : rnd (n : Rat) = n := by
  unfold rnd
  split
  · rename_i h0; exact h0.symm
  · rename_i h0
    have hn0 : n ≠ 0 := by rintro rfl; simp at h0
    -- x / ulp x is an integer
    have key : ∃ m : Int, (n : Rat) / ulp n = m := by
      have hp : 0 < |(n : Rat)| := abs_pos.2 h0
      have hlog0 : 0 ≤ Int.log 2 |(n : Rat)| := by
        have h1 : (1 : Rat) ≤ |(n : Rat)| := by
          rw [← Int.cast_abs]; exact_mod_cast Int.one_le_abs hn0
        have := Int.log_mono_right (b := 2) (by norm_num) h1
        simpa using this
      have hlog : Int.log 2 |(n : Rat)| ≤ 53 := by
        have h1 : |(n : Rat)| ≤ ((2 ^ 53 : ℕ) : Rat) := by
          rw [← Int.cast_abs]; exact_mod_cast h
        have := Int.log_mono_right (b := 2) hp h1
        rw [Int.log_natCast, Nat.log_pow (by norm_num)] at this
        exact this
      rcases lt_or_eq_of_le hlog with hlt | heq
      · -- ulp is 2^(-k)
        obtain ⟨k, hk⟩ : ∃ k : ℕ, Int.log 2 |(n : Rat)| - 52 = -(k : ℤ) :=
          ⟨(52 - Int.log 2 |(n : Rat)|).toNat, by omega⟩
        refine ⟨n * 2 ^ k, ?_⟩
        unfold ulp
        rw [hk, zpow_neg, zpow_natCast]
        push_cast
        field_simp
      · -- n = ±2^53
        have h2 := Int.zpow_log_le_self (b := 2) (by norm_num) hp
        rw [heq] at h2
        have h3 : (2 : ℤ) ^ 53 ≤ |n| := by
          rw [← Int.cast_abs] at h2
          have : ((2 ^ 53 : ℤ) : Rat) ≤ ((|n| : ℤ) : Rat) := by push_cast; norm_num at h2 ⊢; exact h2
          exact_mod_cast this
        have h4 : |n| = 2 ^ 53 := le_antisymm h h3
        unfold ulp
        rw [heq]
        rcases abs_eq (by norm_num : (0 : ℤ) ≤ 2 ^ 53) |>.1 h4 with rfl | rfl
        · exact ⟨2 ^ 52, by norm_num⟩
        · exact ⟨-2 ^ 52, by norm_num⟩
    obtain ⟨m, hm⟩ := key
    rw [hm, roundEven_int, ← hm]
    have := ulp_pos n
    field_simp

theorem floor_near {A B : ℕ} (hB : 0 < B) {s : Rat} (h : |s - A / B| < 1 / B)
    (hex : ∀ n : ℤ, (A : Rat) / B = n → s = n) : ⌊s⌋ = ((A / B : ℕ) : ℤ) := by
  have hBq : (0 : Rat) < B := by exact_mod_cast hB
  have hdm := Nat.div_add_mod A B
  have hlt := Nat.mod_lt A hB
  obtain ⟨h1, h2⟩ := abs_lt.1 h
  have hA : (A : Rat) = B * ((A / B : ℕ) : Rat) + ((A % B : ℕ) : Rat) := by exact_mod_cast hdm.symm
  have hq : (A : Rat) / B = ((A / B : ℕ) : Rat) + ((A % B : ℕ) : Rat) / B := by
    rw [div_eq_iff hBq.ne', add_mul, div_mul_cancel₀ _ hBq.ne']; linarith
  rw [Int.floor_eq_iff]
  rcases Nat.eq_zero_or_pos (A % B) with h0 | hpos
  · have : (A : Rat) / B = ((A / B : ℕ) : ℤ) := by rw [hq, h0, Nat.cast_zero, zero_div, add_zero]; norm_cast
    rw [hex _ this]
    constructor <;> linarith
  · have hr1 : (1 : Rat) / B ≤ ((A % B : ℕ) : Rat) / B := by
      apply div_le_div_of_nonneg_right _ hBq.le
      exact_mod_cast hpos
    have hr2 : ((A % B : ℕ) : Rat) / B ≤ 1 - 1 / B := by
      rw [div_le_iff₀ hBq, sub_mul, div_mul_cancel₀ _ hBq.ne', one_mul]
      have : A % B + 1 ≤ B := hlt
      have : ((A % B : ℕ) : Rat) + 1 ≤ B := by exact_mod_cast this
      linarith
    have hc : (((A / B : ℕ) : ℤ) : Rat) = ((A / B : ℕ) : Rat) := by norm_cast
    rw [hc]
    constructor <;> linarith

theorem floor_frac (A : ℕ) {B : ℕ} (hB : 0 < B) : ⌊(A : Rat) / B⌋ = ((A / B : ℕ) : ℤ) := by
  apply floor_near hB
  · have : (0 : Rat) < B := by exact_mod_cast hB
    simp [this]
  · intro n h; exact h

/-- The quotient is near the exact one. -/
theorem rnd_near {A B : ℕ} (hA : A < 2 ^ 53) (hB : 0 < B) {x : Rat} (hx : |x| = A / B) : |rnd x - x| < 1 / B := by
  refine lt_of_le_of_lt (rnd_err x) ?_
  have hBq : (0 : Rat) < B := by exact_mod_cast hB
  rw [hx, div_div, div_lt_div_iff₀ (by positivity) hBq]
  have : (A : Rat) < 2 ^ 53 := by exact_mod_cast hA
  nlinarith

theorem rnd_nonneg {x : Rat} (h : 0 ≤ x) : 0 ≤ rnd x := by
  have := (abs_le.1 (rnd_err x)).1
  rw [abs_of_nonneg h] at this
  have : x / 2 ^ 53 ≤ x := div_le_self h (by norm_num)
  linarith

theorem rnd_neg {x : Rat} (h : x < 0) : rnd x < 0 := by
  have := (abs_le.1 (rnd_err x)).2
  rw [abs_of_neg h] at this
  have : -x / 2 ^ 53 < -x := div_lt_self (by linarith) (by norm_num)
  linarith

theorem frac_int_small {A B : ℕ} (hA : A < 2 ^ 53) (hB : 0 < B) {n : ℤ} (h : (A : Rat) / B = n) : |n| ≤ 2 ^ 53 := by
  have hBq : (0 : Rat) < B := by exact_mod_cast hB
  have h1 : (0 : Rat) ≤ n := by rw [← h]; positivity
  have h2 : (n : Rat) ≤ A := by
    rw [← h]; apply div_le_self (by positivity)
    exact_mod_cast hB
  have h1' : 0 ≤ n := by exact_mod_cast h1
  have h2' : n ≤ A := by exact_mod_cast h2
  rw [abs_of_nonneg h1']; omega

theorem trunc_rnd_pos {A B : ℕ} (hA : A < 2 ^ 53) (hB : 0 < B) :
    trunc (rnd ((A : Rat) / B)) = ((A / B : ℕ) : ℤ) := by
  have hq : (0 : Rat) ≤ (A : Rat) / B := by positivity
  unfold trunc
  rw [if_pos (rnd_nonneg hq)]
  apply floor_near hB (rnd_near hA hB (abs_of_nonneg hq))
  intro n hn
  rw [hn]; exact rnd_int (frac_int_small hA hB hn)

theorem trunc_rnd_neg {A B : ℕ} (hA : A < 2 ^ 53) (hB : 0 < B) :
    trunc (rnd (-((A : Rat) / B))) = -((A / B : ℕ) : ℤ) := by
  have hq : (0 : Rat) ≤ (A : Rat) / B := by positivity
  rcases hq.lt_or_eq with hq | hq
  · unfold trunc
    rw [if_neg (not_le.2 (rnd_neg (by linarith)))]
    congr 1
    apply floor_near hB
    · have := rnd_near hA hB (x := -((A : Rat) / B)) (by rw [abs_neg, abs_of_pos hq])
      rw [← abs_neg]
      convert this using 2
      ring
    · intro n hn
      rw [hn]
      have h := frac_int_small hA hB hn
      have := rnd_int (n := -n) (by rwa [abs_neg])
      push_cast at this
      rw [this]; ring
  · have hBq : (0 : Rat) < B := by exact_mod_cast hB
    have : A = 0 := by
      have := hq.symm
      rw [div_eq_zero_iff] at this
      rcases this with h | h
      · exact_mod_cast h
      · exact absurd h hBq.ne'
    subst this
    simp [rnd, trunc]

/-- Integer division through floats is exact (and truncates towards zero) below 2^53. -/
theorem intDiv_eq {a b : ℤ} (ha : a.natAbs < 2 ^ 53) (hb : b.natAbs ≤ 2 ^ 53) (h0 : b ≠ 0) : intDiv a b = a.tdiv b := by
  have hB : 0 < b.natAbs := Int.natAbs_pos.2 h0
  unfold intDiv
  rw [rnd_int (by rw [Int.abs_eq_natAbs]; omega), rnd_int (by rw [Int.abs_eq_natAbs]; omega)]
  generalize hA' : a.natAbs = A at *
  generalize hB' : b.natAbs = B at *
  rcases Int.natAbs_eq a with e1 | e1 <;> rcases Int.natAbs_eq b with e2 | e2 <;> rw [hA'] at e1 <;> rw [hB'] at e2 <;>
    subst e1 <;> subst e2 <;> push_cast
  · rw [trunc_rnd_pos ha hB, Int.ofNat_tdiv]
  · rw [div_neg, trunc_rnd_neg ha hB, Int.tdiv_neg, Int.ofNat_tdiv]
  · rw [neg_div, trunc_rnd_neg ha hB, Int.neg_tdiv, Int.ofNat_tdiv]
  · rw [neg_div_neg_eq, trunc_rnd_pos ha hB, Int.neg_tdiv_neg, Int.ofNat_tdiv]

theorem trunc_frac (a : ℤ) {b : ℤ} (h0 : b ≠ 0) : trunc ((a : Rat) / b) = a.tdiv b := by
  have hB : 0 < b.natAbs := Int.natAbs_pos.2 h0
  generalize hA' : a.natAbs = A at *
  generalize hB' : b.natAbs = B at *
  have pos : trunc ((A : Rat) / B) = ((A / B : ℕ) : ℤ) := by
    unfold trunc
    rw [if_pos (by positivity), floor_frac A hB]
  have neg : trunc (-((A : Rat) / B)) = -((A / B : ℕ) : ℤ) := by
    have hq : (0 : Rat) ≤ (A : Rat) / B := by positivity
    rcases hq.lt_or_eq with hq | hq
    · unfold trunc
      rw [if_neg (by linarith), neg_neg, floor_frac A hB]
    · have := floor_frac A hB
      rw [← hq] at this ⊢
      rw [← this]; simp [trunc]
  rcases Int.natAbs_eq a with e1 | e1 <;> rcases Int.natAbs_eq b with e2 | e2 <;> rw [hA'] at e1 <;> rw [hB'] at e2 <;>
    subst e1 <;> subst e2 <;> push_cast
  · rw [pos, Int.ofNat_tdiv]
  · rw [div_neg, neg, Int.tdiv_neg, Int.ofNat_tdiv]
  · rw [neg_div, neg, Int.neg_tdiv, Int.ofNat_tdiv]
  · rw [neg_div_neg_eq, pos, Int.neg_tdiv_neg, Int.ofNat_tdiv]

theorem trunc_int (n : ℤ) : trunc n = n := by
  have := trunc_frac n (b := 1) one_ne_zero
  simpa using this

/-- The remainder through floats is exact up to 2^53 and has the sign of the dividend. -/
theorem intMod_eq {a b : ℤ} (ha : a.natAbs ≤ 2 ^ 53) (hb : b.natAbs ≤ 2 ^ 53) (h0 : b ≠ 0) : intMod a b = a.tmod b := by
  unfold intMod fmod
  rw [rnd_int (by rw [Int.abs_eq_natAbs]; omega), rnd_int (by rw [Int.abs_eq_natAbs]; omega), trunc_frac a h0]
  have : ((a : Rat) - b * (a.tdiv b : ℤ)) = ((a - b * a.tdiv b : ℤ) : Rat) := by push_cast; ring
  rw [this, trunc_int, Int.tmod_def]

/-- 2^53 + 1 is not representable. -/
theorem rnd_big : rnd ((9007199254740993 : ℤ) : Rat) = ((9007199254740992 : ℤ) : Rat) := by
  have hlog : Int.log 2 |((9007199254740993 : ℤ) : Rat)| = 53 := by
    have : |((9007199254740993 : ℤ) : Rat)| = ((9007199254740993 : ℕ) : Rat) := by norm_num
    rw [this, Int.log_natCast]
    have : Nat.log 2 9007199254740993 = 53 := by
      rw [Nat.log_eq_iff (by norm_num)]; norm_num
    rw [this]; rfl
  have hu : ulp ((9007199254740993 : ℤ) : Rat) = 2 := by unfold ulp; rw [hlog]; norm_num
  unfold rnd
  rw [hu, if_neg (by norm_num)]
  have hf : ⌊((9007199254740993 : ℤ) : Rat) / 2⌋ = 4503599627370496 := by rw [Int.floor_eq_iff]; norm_num
  have : roundEven (((9007199254740993 : ℤ) : Rat) / 2) = 4503599627370496 := by
    unfold roundEven
    rw [hf]; norm_num
  rw [this]; norm_num

end Verif.OData

import Verif.Iso.Strings
import Verif.Iso.TimeProps
import Verif.Iso.Checks
/-! # Property C17: strings round trip -/
namespace Verif.Iso
open Verif.Text

/-- The digit character of the units of `n`. -/
def dg (n : Int) : Nat := 48 + (n % 10).toNat

theorem isDigit_dg (n : Int) : isDigit (dg n) = true := by
  have h : 48 ≤ dg n ∧ dg n ≤ 57 := by simp only [dg]; omega
  simp [isDigit, h]
theorem dg_val (n : Int) : ((dg n : Nat) : Int) - 48 = n % 10 := by simp only [dg]; omega

theorem decStr_lt10 (n : Nat) (h : n < 10) : decStr n = [48 + n] := by rw [decStr, if_pos h]
theorem decStr_ge10 (n : Nat) (h : 10 ≤ n) : decStr n = decStr (n / 10) ++ [48 + n % 10] := by
  rw [decStr, if_neg (by omega)]

theorem fmtInt_nat (w k : Nat) : fmtInt w (k : Int) = decPad w k := by
  simp only [fmtInt]; rw [if_neg (by omega)]; rfl

theorem fmt1 (n : Int) (h : 0 ≤ n ∧ n ≤ 9) : fmtInt 0 n = [dg n] := by
  obtain ⟨k, rfl⟩ := Int.eq_ofNat_of_zero_le h.1
  have hk : k < 10 := by omega
  rw [fmtInt_nat, decPad, decStr_lt10 k hk]
  simp only [List.length_cons, List.length_nil, Nat.zero_sub, List.replicate_zero, List.nil_append, dg,
    List.cons.injEq, and_true]
  omega

theorem pad2 (k : Nat) (h : k < 100) : decPad 2 k = [48 + k / 10, 48 + k % 10] := by
  by_cases hk : k < 10
  · rw [decPad, decStr_lt10 k hk]
    have e1 : k / 10 = 0 := by omega
    have e2 : k % 10 = k := by omega
    rw [e1, e2]; rfl
  · rw [decPad, decStr_ge10 k (by omega), decStr_lt10 (k / 10) (by omega)]; rfl

theorem pad3 (k : Nat) (h : k < 1000) : decPad 3 k = [48 + k / 100, 48 + k / 10 % 10, 48 + k % 10] := by
  by_cases hk : k < 10
  · rw [decPad, decStr_lt10 k hk]
    have e0 : k / 100 = 0 := by omega
    have e1 : k / 10 % 10 = 0 := by omega
    have e2 : k % 10 = k := by omega
    rw [e0, e1, e2]; rfl
  · by_cases hk2 : k < 100
    · rw [decPad, decStr_ge10 k (by omega), decStr_lt10 (k / 10) (by omega)]
      have e0 : k / 100 = 0 := by omega
      have e1 : k / 10 % 10 = k / 10 := by omega
      rw [e0, e1]; rfl
    · rw [decPad, decStr_ge10 k (by omega), decStr_ge10 (k / 10) (by omega), decStr_lt10 (k / 10 / 10) (by omega)]
      have e0 : k / 100 = k / 10 / 10 := by omega
      rw [e0]; rfl

theorem fmt2 (n : Int) (h : 0 ≤ n ∧ n ≤ 99) : fmtInt 2 n = [dg (n / 10), dg n] := by
  obtain ⟨k, rfl⟩ := Int.eq_ofNat_of_zero_le h.1
  rw [fmtInt_nat, pad2 k (by omega)]
  simp only [dg, List.cons.injEq, and_true]
  omega

theorem fmt3 (n : Int) (h : 0 ≤ n ∧ n ≤ 999) : fmtInt 3 n = [dg (n / 100), dg (n / 10), dg n] := by
  obtain ⟨k, rfl⟩ := Int.eq_ofNat_of_zero_le h.1
  rw [fmtInt_nat, pad3 k (by omega)]
  simp only [dg, List.cons.injEq, and_true]
  omega

@[simp] theorem atDigit_dg (n : Int) (r : List Nat) : atDigit (dg n :: r) = true := isDigit_dg n
@[simp] theorem digit_dg {α : Type} (n : Int) (r : List Nat) (k : Int → List Nat → Option α) :
    digit (dg n :: r) k = k (n % 10) r := by
  simp only [digit, isDigit_dg, if_true, dg_val]

@[simp] theorem atDigit_hyphen (r : List Nat) : atDigit (45 :: r) = false := rfl
@[simp] theorem atDigit_W (r : List Nat) : atDigit (87 :: r) = false := rfl
@[simp] theorem atDigit_colon (r : List Nat) : atDigit (58 :: r) = false := rfl
@[simp] theorem atDigit_plus (r : List Nat) : atDigit (43 :: r) = false := rfl
@[simp] theorem atDigit_Z (r : List Nat) : atDigit (90 :: r) = false := rfl
@[simp] theorem atDigit_T (r : List Nat) : atDigit (84 :: r) = false := rfl
@[simp] theorem atChar_cons (c x : Nat) (r : List Nat) : atChar c (x :: r) = (x == c) := rfl

/-- The text ends here, or the time designator follows. -/
def Ends (r : List Nat) : Prop := r = [] ∨ ∃ r', r = 84 :: r'

theorem ends_digit {r : List Nat} (h : Ends r) : atDigit r = false := by
  rcases h with rfl | ⟨r', rfl⟩ <;> rfl
theorem ends_hyphen {r : List Nat} (h : Ends r) : atChar 45 r = false := by
  rcases h with rfl | ⟨r', rfl⟩ <;> rfl
theorem ends_W {r : List Nat} (h : Ends r) : atChar 87 r = false := by
  rcases h with rfl | ⟨r', rfl⟩ <;> rfl

theorem j2 (n : Int) (h : 0 ≤ n ∧ n ≤ 99) : n / 10 % 10 * 10 + n % 10 = n := by omega
theorem j3 (n : Int) (h : 0 ≤ n ∧ n ≤ 999) : (n / 100 % 10 * 10 + n / 10 % 10) * 10 + n % 10 = n := by omega

/-- The calendar formats without truncation, parsed (whatever follows `T`). -/
theorem parse_calendar_basic (base : Option Date) (c y m d : Int) (r : List Nat)
    (hc : 0 ≤ c ∧ c ≤ 99) (hy : 0 ≤ y ∧ y ≤ 99) (hm : 0 ≤ m ∧ m ≤ 99) (hd : 0 ≤ d ∧ d ≤ 99) :
    parseDateFormat base (fmtInt 2 c ++ fmtInt 2 y ++ fmtInt 2 m ++ fmtInt 2 d ++ r) =
      done { century := some c, year := some y, month := some m, day := some d, base := base } "YYYYMMDD" r := by
  rw [fmt2 c hc, fmt2 y hy, fmt2 m hm, fmt2 d hd]
  simp [parseDateFormat, parseYY, digit2, j2 c hc, j2 y hy, j2 m hm, j2 d hd]

theorem parse_calendar_ext (base : Option Date) (c y m d : Int) (r : List Nat)
    (hc : 0 ≤ c ∧ c ≤ 99) (hy : 0 ≤ y ∧ y ≤ 99) (hm : 0 ≤ m ∧ m ≤ 99) (hd : 0 ≤ d ∧ d ≤ 99) :
    parseDateFormat base (fmtInt 2 c ++ fmtInt 2 y ++ hyphen ++ fmtInt 2 m ++ hyphen ++ fmtInt 2 d ++ r) =
      done { century := some c, year := some y, month := some m, day := some d, base := base } "YYYY-MM-DD" r := by
  rw [fmt2 c hc, fmt2 y hy, fmt2 m hm, fmt2 d hd]
  simp [parseDateFormat, parseYY, digit2, j2 c hc, j2 y hy, j2 m hm, j2 d hd, hyphen]

theorem j1 (n : Int) (h : 0 ≤ n ∧ n ≤ 9) : n % 10 = n := by omega
theorem j3' (n : Int) (h : 0 ≤ n ∧ n ≤ 999) : (n / 100 % 10 * 10 + n / 10 % 10) * 10 + n % 10 = n := by omega
theorem j3'' (n : Int) (h : 0 ≤ n ∧ n ≤ 999) : n / 100 % 10 * 100 + n / 10 % 10 * 10 + n % 10 = n := by omega
theorem jd (a b : Int) (ha : 0 ≤ a ∧ a ≤ 9) (hb : 0 ≤ b ∧ b ≤ 9) :
    (a * 10 + b) / 10 = a ∧ (a * 10 + b) % 10 = b := by omega

theorem parse_ordinal_basic (base : Option Date) (c y o : Int) (r : List Nat) (hr : Ends r)
    (hc : 0 ≤ c ∧ c ≤ 99) (hy : 0 ≤ y ∧ y ≤ 99) (ho : 0 ≤ o ∧ o ≤ 999) :
    parseDateFormat base (fmtInt 2 c ++ fmtInt 2 y ++ fmtInt 3 o ++ r) = done { century := some c, year := some y, ordinal := some o, base := base } "YYYYDDD" r := by
  rw [fmt2 c hc, fmt2 y hy, fmt3 o ho]
  simp [parseDateFormat, parseYY, parseHyphen, digit2, hyphen, W, j2 c hc, j2 y hy, j3 o ho, j3' o ho, ends_digit hr, ends_hyphen hr, ends_W hr]

theorem parse_ordinal_ext (base : Option Date) (c y o : Int) (r : List Nat)
    (hc : 0 ≤ c ∧ c ≤ 99) (hy : 0 ≤ y ∧ y ≤ 99) (ho : 0 ≤ o ∧ o ≤ 999) :
    parseDateFormat base (fmtInt 2 c ++ fmtInt 2 y ++ hyphen ++ fmtInt 3 o ++ r) = done { century := some c, year := some y, ordinal := some o, base := base } "YYYY-DDD" r := by
  rw [fmt2 c hc, fmt2 y hy, fmt3 o ho]
  simp [parseDateFormat, parseYY, parseHyphen, digit2, hyphen, W, j2 c hc, j2 y hy, j3 o ho, j3' o ho]

theorem parse_week_basic (base : Option Date) (c a b w k : Int) (r : List Nat)
    (hc : 0 ≤ c ∧ c ≤ 99) (ha : 0 ≤ a ∧ a ≤ 9) (hb : 0 ≤ b ∧ b ≤ 9) (hw : 0 ≤ w ∧ w ≤ 99) (hk : 0 ≤ k ∧ k ≤ 9) :
    parseDateFormat base (fmtInt 2 c ++ fmtInt 0 a ++ fmtInt 0 b ++ W ++ fmtInt 2 w ++ fmtInt 0 k ++ r) = done { century := some c, decade := some a, year := some b, week := some w, weekday := some k, base := base } "YYYYWwwD" r := by
  rw [fmt2 c hc, fmt1 a ha, fmt1 b hb, fmt2 w hw, fmt1 k hk]
  simp [parseDateFormat, parseYY, parseHyphen, digit2, hyphen, W, j2 c hc, j1 a ha, j1 b hb, j2 w hw, j1 k hk, jd a b ha hb]

theorem parse_week_ext (base : Option Date) (c a b w k : Int) (r : List Nat)
    (hc : 0 ≤ c ∧ c ≤ 99) (ha : 0 ≤ a ∧ a ≤ 9) (hb : 0 ≤ b ∧ b ≤ 9) (hw : 0 ≤ w ∧ w ≤ 99) (hk : 0 ≤ k ∧ k ≤ 9) :
    parseDateFormat base (fmtInt 2 c ++ fmtInt 0 a ++ fmtInt 0 b ++ hyphen ++ W ++ fmtInt 2 w ++ hyphen ++ fmtInt 0 k ++ r) = done { century := some c, decade := some a, year := some b, week := some w, weekday := some k, base := base } "YYYY-Www-D" r := by
  rw [fmt2 c hc, fmt1 a ha, fmt1 b hb, fmt2 w hw, fmt1 k hk]
  simp [parseDateFormat, parseYY, parseHyphen, digit2, hyphen, W, j2 c hc, j1 a ha, j1 b hb, j2 w hw, j1 k hk, jd a b ha hb]

theorem parse_weekp_basic (base : Option Date) (c a b w : Int) (r : List Nat) (hr : Ends r)
    (hc : 0 ≤ c ∧ c ≤ 99) (ha : 0 ≤ a ∧ a ≤ 9) (hb : 0 ≤ b ∧ b ≤ 9) (hw : 0 ≤ w ∧ w ≤ 99) :
    parseDateFormat base (fmtInt 2 c ++ fmtInt 0 a ++ fmtInt 0 b ++ W ++ fmtInt 2 w ++ r) = done { century := some c, decade := some a, year := some b, week := some w, base := base } "YYYYWww" r := by
  rw [fmt2 c hc, fmt1 a ha, fmt1 b hb, fmt2 w hw]
  simp [parseDateFormat, parseYY, parseHyphen, digit2, hyphen, W, j2 c hc, j1 a ha, j1 b hb, j2 w hw, jd a b ha hb, ends_digit hr, ends_hyphen hr, ends_W hr]

theorem parse_weekp_ext (base : Option Date) (c a b w : Int) (r : List Nat) (hr : Ends r)
    (hc : 0 ≤ c ∧ c ≤ 99) (ha : 0 ≤ a ∧ a ≤ 9) (hb : 0 ≤ b ∧ b ≤ 9) (hw : 0 ≤ w ∧ w ≤ 99) :
    parseDateFormat base (fmtInt 2 c ++ fmtInt 0 a ++ fmtInt 0 b ++ hyphen ++ W ++ fmtInt 2 w ++ r) = done { century := some c, decade := some a, year := some b, week := some w, base := base } "YYYY-Www" r := by
  rw [fmt2 c hc, fmt1 a ha, fmt1 b hb, fmt2 w hw]
  simp [parseDateFormat, parseYY, parseHyphen, digit2, hyphen, W, j2 c hc, j1 a ha, j1 b hb, j2 w hw, jd a b ha hb, ends_digit hr, ends_hyphen hr, ends_W hr]

theorem parse_month (base : Option Date) (c y m : Int) (r : List Nat) (hr : Ends r)
    (hc : 0 ≤ c ∧ c ≤ 99) (hy : 0 ≤ y ∧ y ≤ 99) (hm : 0 ≤ m ∧ m ≤ 99) :
    parseDateFormat base (fmtInt 2 c ++ fmtInt 2 y ++ hyphen ++ fmtInt 2 m ++ r) = done { century := some c, year := some y, month := some m, base := base } "YYYY-MM" r := by
  rw [fmt2 c hc, fmt2 y hy, fmt2 m hm]
  simp [parseDateFormat, parseYY, parseHyphen, digit2, hyphen, W, j2 c hc, j2 y hy, j2 m hm, ends_digit hr, ends_hyphen hr, ends_W hr]

theorem parse_year (base : Option Date) (c y : Int) (r : List Nat) (hr : Ends r)
    (hc : 0 ≤ c ∧ c ≤ 99) (hy : 0 ≤ y ∧ y ≤ 99) :
    parseDateFormat base (fmtInt 2 c ++ fmtInt 2 y ++ r) = done { century := some c, year := some y, base := base } "YYYY" r := by
  rw [fmt2 c hc, fmt2 y hy]
  simp [parseDateFormat, parseYY, parseHyphen, digit2, hyphen, W, j2 c hc, j2 y hy, ends_digit hr, ends_hyphen hr, ends_W hr]

theorem parse_century (base : Option Date) (c : Int) (r : List Nat) (hr : Ends r)
    (hc : 0 ≤ c ∧ c ≤ 99) :
    parseDateFormat base (fmtInt 2 c ++ r) = done { century := some c, base := base } "YY" r := by
  rw [fmt2 c hc]
  simp [parseDateFormat, parseYY, parseHyphen, digit2, hyphen, W, j2 c hc, ends_digit hr, ends_hyphen hr, ends_W hr]

theorem parse_ymd_basic (base : Option Date) (y m d : Int) (r : List Nat) (hr : Ends r)
    (hy : 0 ≤ y ∧ y ≤ 99) (hm : 0 ≤ m ∧ m ≤ 99) (hd : 0 ≤ d ∧ d ≤ 99) :
    parseDateFormat base (fmtInt 2 y ++ fmtInt 2 m ++ fmtInt 2 d ++ r) = done { year := some y, month := some m, day := some d, base := base } "YYMMDD" r := by
  rw [fmt2 y hy, fmt2 m hm, fmt2 d hd]
  simp [parseDateFormat, parseYY, parseHyphen, digit2, hyphen, W, j2 y hy, j2 m hm, j2 d hd, ends_digit hr, ends_hyphen hr, ends_W hr]

theorem parse_ymd_ext (base : Option Date) (y m d : Int) (r : List Nat) (hr : Ends r)
    (hy : 0 ≤ y ∧ y ≤ 99) (hm : 0 ≤ m ∧ m ≤ 99) (hd : 0 ≤ d ∧ d ≤ 99) :
    parseDateFormat base (fmtInt 2 y ++ hyphen ++ fmtInt 2 m ++ hyphen ++ fmtInt 2 d ++ r) = done { year := some y, month := some m, day := some d, base := base } "YY-MM-DD" r := by
  rw [fmt2 y hy, fmt2 m hm, fmt2 d hd]
  simp [parseDateFormat, parseYY, parseHyphen, digit2, hyphen, W, j2 y hy, j2 m hm, j2 d hd, ends_digit hr, ends_hyphen hr, ends_W hr]

theorem parse_md_basic (base : Option Date) (m d : Int) (r : List Nat)
    (hm : 0 ≤ m ∧ m ≤ 99) (hd : 0 ≤ d ∧ d ≤ 99) :
    parseDateFormat base (hyphen ++ hyphen ++ fmtInt 2 m ++ fmtInt 2 d ++ r) = done { month := some m, day := some d, base := base } "--MMDD" r := by
  rw [fmt2 m hm, fmt2 d hd]
  simp [parseDateFormat, parseYY, parseHyphen, digit2, hyphen, W, j2 m hm, j2 d hd]

theorem parse_md_ext (base : Option Date) (m d : Int) (r : List Nat)
    (hm : 0 ≤ m ∧ m ≤ 99) (hd : 0 ≤ d ∧ d ≤ 99) :
    parseDateFormat base (hyphen ++ hyphen ++ fmtInt 2 m ++ hyphen ++ fmtInt 2 d ++ r) = done { month := some m, day := some d, base := base } "--MM-DD" r := by
  rw [fmt2 m hm, fmt2 d hd]
  simp [parseDateFormat, parseYY, parseHyphen, digit2, hyphen, W, j2 m hm, j2 d hd]

theorem parse_d (base : Option Date) (d : Int) (r : List Nat)
    (hd : 0 ≤ d ∧ d ≤ 99) :
    parseDateFormat base (hyphen ++ hyphen ++ hyphen ++ fmtInt 2 d ++ r) = done { day := some d, base := base } "---DD" r := by
  rw [fmt2 d hd]
  simp [parseDateFormat, parseYY, parseHyphen, digit2, hyphen, W, j2 d hd]

theorem parse_yo_basic (base : Option Date) (y o : Int) (r : List Nat) (hr : Ends r)
    (hy : 0 ≤ y ∧ y ≤ 99) (ho : 0 ≤ o ∧ o ≤ 999) :
    parseDateFormat base (fmtInt 2 y ++ fmtInt 3 o ++ r) = done { year := some y, ordinal := some o, base := base } "YYDDD" r := by
  rw [fmt2 y hy, fmt3 o ho]
  simp [parseDateFormat, parseYY, parseHyphen, digit2, hyphen, W, j2 y hy, j3 o ho, j3' o ho, ends_digit hr, ends_hyphen hr, ends_W hr]

theorem parse_yo_ext (base : Option Date) (y o : Int) (r : List Nat)
    (hy : 0 ≤ y ∧ y ≤ 99) (ho : 0 ≤ o ∧ o ≤ 999) :
    parseDateFormat base (fmtInt 2 y ++ hyphen ++ fmtInt 3 o ++ r) = done { year := some y, ordinal := some o, base := base } "YY-DDD" r := by
  rw [fmt2 y hy, fmt3 o ho]
  simp [parseDateFormat, parseYY, parseHyphen, digit2, hyphen, W, j2 y hy, j3 o ho, j3' o ho]

theorem parse_o (base : Option Date) (o : Int) (r : List Nat) (hr : Ends r)
    (ho : 0 ≤ o ∧ o ≤ 999) :
    parseDateFormat base (hyphen ++ fmtInt 3 o ++ r) = done { ordinal := some o, base := base } "-DDD" r := by
  rw [fmt3 o ho]
  simp [parseDateFormat, parseYY, parseHyphen, digit2, hyphen, W, j3 o ho, j3' o ho, ends_digit hr, ends_hyphen hr, ends_W hr]

theorem parse_yw_basic (base : Option Date) (a b w k : Int) (r : List Nat)
    (ha : 0 ≤ a ∧ a ≤ 9) (hb : 0 ≤ b ∧ b ≤ 9) (hw : 0 ≤ w ∧ w ≤ 99) (hk : 0 ≤ k ∧ k ≤ 9) :
    parseDateFormat base (fmtInt 0 a ++ fmtInt 0 b ++ W ++ fmtInt 2 w ++ fmtInt 0 k ++ r) = done { decade := some a, year := some b, week := some w, weekday := some k, base := base } "YYWwwD" r := by
  rw [fmt1 a ha, fmt1 b hb, fmt2 w hw, fmt1 k hk]
  simp [parseDateFormat, parseYY, parseHyphen, digit2, hyphen, W, j1 a ha, j1 b hb, j2 w hw, j1 k hk, jd a b ha hb]

theorem parse_yw_ext (base : Option Date) (a b w k : Int) (r : List Nat)
    (ha : 0 ≤ a ∧ a ≤ 9) (hb : 0 ≤ b ∧ b ≤ 9) (hw : 0 ≤ w ∧ w ≤ 99) (hk : 0 ≤ k ∧ k ≤ 9) :
    parseDateFormat base (fmtInt 0 a ++ fmtInt 0 b ++ hyphen ++ W ++ fmtInt 2 w ++ hyphen ++ fmtInt 0 k ++ r) = done { decade := some a, year := some b, week := some w, weekday := some k, base := base } "YY-Www-D" r := by
  rw [fmt1 a ha, fmt1 b hb, fmt2 w hw, fmt1 k hk]
  simp [parseDateFormat, parseYY, parseHyphen, digit2, hyphen, W, j1 a ha, j1 b hb, j2 w hw, j1 k hk, jd a b ha hb]

theorem parse_dw_basic (base : Option Date) (b w k : Int) (r : List Nat)
    (hb : 0 ≤ b ∧ b ≤ 9) (hw : 0 ≤ w ∧ w ≤ 99) (hk : 0 ≤ k ∧ k ≤ 9) :
    parseDateFormat base (hyphen ++ fmtInt 0 b ++ W ++ fmtInt 2 w ++ fmtInt 0 k ++ r) = done { year := some b, week := some w, weekday := some k, base := base } "-YWwwD" r := by
  rw [fmt1 b hb, fmt2 w hw, fmt1 k hk]
  simp [parseDateFormat, parseYY, parseHyphen, digit2, hyphen, W, j1 b hb, j2 w hw, j1 k hk]

theorem parse_dw_ext (base : Option Date) (b w k : Int) (r : List Nat)
    (hb : 0 ≤ b ∧ b ≤ 9) (hw : 0 ≤ w ∧ w ≤ 99) (hk : 0 ≤ k ∧ k ≤ 9) :
    parseDateFormat base (hyphen ++ fmtInt 0 b ++ hyphen ++ W ++ fmtInt 2 w ++ hyphen ++ fmtInt 0 k ++ r) = done { year := some b, week := some w, weekday := some k, base := base } "-Y-Www-D" r := by
  rw [fmt1 b hb, fmt2 w hw, fmt1 k hk]
  simp [parseDateFormat, parseYY, parseHyphen, digit2, hyphen, W, j1 b hb, j2 w hw, j1 k hk]

theorem parse_w_basic (base : Option Date) (w k : Int) (r : List Nat)
    (hw : 0 ≤ w ∧ w ≤ 99) (hk : 0 ≤ k ∧ k ≤ 9) :
    parseDateFormat base (hyphen ++ W ++ fmtInt 2 w ++ fmtInt 0 k ++ r) = done { week := some w, weekday := some k, base := base } "-WwwD" r := by
  rw [fmt2 w hw, fmt1 k hk]
  simp [parseDateFormat, parseYY, parseHyphen, digit2, hyphen, W, j2 w hw, j1 k hk]

theorem parse_w_ext (base : Option Date) (w k : Int) (r : List Nat)
    (hw : 0 ≤ w ∧ w ≤ 99) (hk : 0 ≤ k ∧ k ≤ 9) :
    parseDateFormat base (hyphen ++ W ++ fmtInt 2 w ++ hyphen ++ fmtInt 0 k ++ r) = done { week := some w, weekday := some k, base := base } "-Www-D" r := by
  rw [fmt2 w hw, fmt1 k hk]
  simp [parseDateFormat, parseYY, parseHyphen, digit2, hyphen, W, j2 w hw, j1 k hk]

theorem parse_wd (base : Option Date) (k : Int) (r : List Nat)
    (hk : 0 ≤ k ∧ k ≤ 9) :
    parseDateFormat base (hyphen ++ W ++ hyphen ++ fmtInt 0 k ++ r) = done { weekday := some k, base := base } "-W-D" r := by
  rw [fmt1 k hk]
  simp [parseDateFormat, parseYY, parseHyphen, digit2, hyphen, W, j1 k hk]

/-! ## C17 -/

theorem weekday_range (t : YMD) : 1 ≤ t.weekday ∧ t.weekday ≤ 7 := by
  unfold YMD.weekday; omega

/-- The parts of a valid date are in range for formatting. -/
theorem parts {t : YMD} (h : t.Valid) : (0 ≤ t.y / 100 ∧ t.y / 100 ≤ 99) ∧ (0 ≤ t.y % 100 ∧ t.y % 100 ≤ 99) ∧
    (0 ≤ t.m ∧ t.m ≤ 99) ∧ (0 ≤ t.d ∧ t.d ≤ 99) ∧ (0 ≤ t.ordinal ∧ t.ordinal ≤ 999) := by
  have ⟨v1, v2, v3, v4, v5, v6⟩ := h
  have or := ordinal_range h
  have hm : monthLen t.y t.m ≤ 31 := by unfold monthLen; split <;> (try split) <;> omega
  have hy : yearLen t.y ≤ 366 := by unfold yearLen; split <;> omega
  refine ⟨?_, ?_, ?_, ?_, ?_⟩ <;> omega

/-- The names of the basic or extended date formats. -/
def dateFormats (basic : Bool) : List String := if basic then basicDateFormats else extendedDateFormats
/-- The names of the basic or extended time formats. -/
def timeFormats (basic : Bool) : List String := if basic then basicTimeFormats else extendedTimeFormats

/-- C17: a complete date formatted as a calendar, ordinal or week date, basic or extended, is parsed back
to the same date (`r` is what follows it in a time point: nothing, or `T` and a time). -/
theorem C17_date_round_trip (t : YMD) (h : t.Valid) (basic : Bool) (r : List Nat) (hr : Ends r) :
    (∃ s f, t.date.calendarString basic .none = some s ∧ (dateFormats basic).contains f = true ∧
      parseDateFormat none (s ++ r) = some (t.date, f, r)) ∧
    (∃ s f, t.date.ordinalString basic .none = some s ∧ (dateFormats basic).contains f = true ∧
      parseDateFormat none (s ++ r) = some (t.date, f, r)) ∧
    (∃ s f, t.date.weekString basic .none = some s ∧ (dateFormats basic).contains f = true ∧
      parseDateFormat none (s ++ r) = some (t.date, f, r)) := by
  obtain ⟨pc, py, pm, pd, po⟩ := parts h
  refine ⟨?_, ?_, ?_⟩
  · have e := checkDate_date h
    have e : mkDate { century := some (t.y / 100), year := some (t.y % 100), month := some t.m, day := some t.d } =
      some t.date := e
    cases basic
    · exact ⟨_, "YYYY-MM-DD", rfl, by decide +kernel, (parse_calendar_ext none _ _ _ _ r pc py pm pd).trans (by rw [done, e]; rfl)⟩
    · exact ⟨_, "YYYYMMDD", rfl, by decide +kernel, (parse_calendar_basic none _ _ _ _ r pc py pm pd).trans (by rw [done, e]; rfl)⟩
  · obtain ⟨e1, e2⟩ := C11_ordinal t h
    unfold Date.ordinalString
    rw [e1]
    cases basic
    · exact ⟨_, "YYYY-DDD", rfl, by decide +kernel, by rw [parse_ordinal_ext none _ _ _ r pc py po, done, e2]; rfl⟩
    · exact ⟨_, "YYYYDDD", rfl, by decide +kernel, by rw [parse_ordinal_basic none _ _ _ r hr pc py po, done, e2]; rfl⟩
  · obtain ⟨y, w, hin, h1, h2, h3, h4, hg, hm⟩ := C10_week_round_trip t h
    have hw := weekCount_range y
    have hk := weekday_range t
    unfold Date.weekString
    rw [hg]
    cases basic
    · exact ⟨_, "YYYY-Www-D", rfl, by decide +kernel, by
        rw [parse_week_ext none _ _ _ _ _ r (by omega) (by omega) (by omega) (by omega) (by omega), done, hm]; rfl⟩
    · exact ⟨_, "YYYYWwwD", rfl, by decide +kernel, by
        rw [parse_week_basic none _ _ _ _ _ r (by omega) (by omega) (by omega) (by omega) (by omega), done, hm]; rfl⟩

/-- C17 for reduced precision: months, years, centuries and weeks are parsed back to the same date. -/
theorem C17_reduced_round_trip (y : Int) (hy : 1 ≤ y ∧ y ≤ 9999) (basic : Bool) :
    (∀ m : Int, 1 ≤ m ∧ m ≤ 12 → ∃ s, (monthDate y m).calendarString basic .none = some s ∧
      Date.fromStr s none = some (monthDate y m)) ∧
    (∃ s, (yearDate y).calendarString basic .none = some s ∧ Date.fromStr s none = some (yearDate y)) ∧
    (∃ s, Date.calendarString ⟨y / 100, none, none, none, none⟩ basic .none = some s ∧
      Date.fromStr s none = some ⟨y / 100, none, none, none, none⟩) ∧
    (∀ w : Int, 1 ≤ w ∧ w ≤ weekCount y → ∃ s, (weekDate y w).weekString basic .none = some s ∧
      Date.fromStr s none = some (weekDate y w)) := by
  have hr : Ends [] := .inl rfl
  have e100 : 100 * (y / 100) + y % 100 = y := by omega
  refine ⟨?_, ?_, ?_, ?_⟩
  · intro m hm
    refine ⟨_, rfl, ?_⟩
    have := parse_month none (y / 100) (y % 100) m [] hr (by omega) (by omega) (by omega)
    rw [List.append_nil] at this
    have c := (C37_calendar (y / 100) (y % 100) m 0).2.2.1
    rw [if_pos (by omega), e100] at c
    exact (congrArg (Option.map (·.1)) this).trans (by rw [done, c])
  · refine ⟨_, rfl, ?_⟩
    have := parse_year none (y / 100) (y % 100) [] hr (by omega) (by omega)
    rw [List.append_nil] at this
    have c := (C37_calendar (y / 100) (y % 100) 0 0).2.1
    rw [if_pos (by omega), e100] at c
    exact (congrArg (Option.map (·.1)) this).trans (by rw [done, c])
  · refine ⟨_, rfl, ?_⟩
    have := parse_century none (y / 100) [] hr (by omega)
    rw [List.append_nil] at this
    have c := (C37_calendar (y / 100) 0 0 0).1
    rw [if_pos (by omega)] at c
    exact (congrArg (Option.map (·.1)) this).trans (by rw [done, c])
  · intro w hw
    have hwr := weekCount_range y
    have hy3 : 100 * (y / 100) + 10 * (y % 100 / 10) + y % 100 % 10 = y := by omega
    have c := C37_week_precision (y / 100) (y % 100 / 10) (y % 100 % 10) w (by omega)
    rw [if_pos (by rw [hy3]; omega), hy3] at c
    have hg : (weekDate y w).getWeekDay = some (y / 100, some (y % 100 / 10), some (y % 100 % 10), some w, none) := by
      have : w ≠ 0 := by omega
      simp [Date.getWeekDay, weekDate, truthy, this]
    unfold Date.weekString
    rw [hg]
    cases basic
    · refine ⟨_, rfl, ?_⟩
      have := parse_weekp_ext none (y / 100) (y % 100 / 10) (y % 100 % 10) w [] hr (by omega) (by omega) (by omega)
        (by omega)
      rw [List.append_nil] at this
      exact (congrArg (Option.map (·.1)) this).trans (by rw [done, c])
    · refine ⟨_, rfl, ?_⟩
      have := parse_weekp_basic none (y / 100) (y % 100 / 10) (y % 100 % 10) w [] hr (by omega) (by omega) (by omega)
        (by omega)
      rw [List.append_nil] at this
      exact (congrArg (Option.map (·.1)) this).trans (by rw [done, c])

/-- C17 is not vacuous. -/
example : Date.fromStr [50, 48, 50, 52, 45, 87, 48, 57, 45, 52] none = some (YMD.date ⟨2024, 2, 29⟩) := by
  decide +kernel

/-- C17, truncated forms: parsing the truncated string of `t` with a base date is the constructor call
with the components the string shows (C36 says which date that is). -/
theorem C17_truncated (b : Option Date) (t : YMD) (h : t.Valid) (basic : Bool) :
    (∃ s, t.date.calendarString basic .century = some s ∧ Date.fromStr s b =
      mkDate { base := b, year := some (t.y % 100), month := some t.m, day := some t.d }) ∧
    (∃ s, t.date.calendarString basic .year = some s ∧ Date.fromStr s b =
      mkDate { base := b, month := some t.m, day := some t.d }) ∧
    (∃ s, t.date.calendarString basic .month = some s ∧ Date.fromStr s b = mkDate { base := b, day := some t.d }) ∧
    (∃ s, t.date.ordinalString basic .century = some s ∧ Date.fromStr s b =
      mkDate { base := b, year := some (t.y % 100), ordinal := some t.ordinal }) ∧
    (∃ s, t.date.ordinalString basic .year = some s ∧ Date.fromStr s b =
      mkDate { base := b, ordinal := some t.ordinal }) ∧
    (∃ y w, t.InWeek y w ∧
      (∃ s, t.date.weekString basic .century = some s ∧ Date.fromStr s b =
        mkDate { base := b, decade := some (y % 100 / 10), year := some (y % 10), week := some w,
                 weekday := some t.weekday }) ∧
      (∃ s, t.date.weekString basic .decade = some s ∧ Date.fromStr s b =
        mkDate { base := b, year := some (y % 10), week := some w, weekday := some t.weekday }) ∧
      (∃ s, t.date.weekString basic .year = some s ∧ Date.fromStr s b =
        mkDate { base := b, week := some w, weekday := some t.weekday }) ∧
      (∃ s, t.date.weekString basic .week = some s ∧ Date.fromStr s b =
        mkDate { base := b, weekday := some t.weekday })) := by
  obtain ⟨pc, py, pm, pd, po⟩ := parts h
  have hr : Ends [] := .inl rfl
  have key : ∀ (s : List Nat) (a : Args) (f : String), parseDateFormat b (s ++ []) = done a f [] →
      Date.fromStr s b = mkDate a := by
    intro s a f e
    rw [List.append_nil] at e
    rw [Date.fromStr, e, done]
    cases mkDate a <;> rfl
  refine ⟨?_, ?_, ?_, ?_, ?_, ?_⟩
  · cases basic
    · exact ⟨_, rfl, key _ _ _ (parse_ymd_ext b _ _ _ [] hr py pm pd)⟩
    · exact ⟨_, rfl, key _ _ _ (parse_ymd_basic b _ _ _ [] hr py pm pd)⟩
  · cases basic
    · exact ⟨_, rfl, key _ _ _ (parse_md_ext b _ _ [] pm pd)⟩
    · exact ⟨_, rfl, key _ _ _ (parse_md_basic b _ _ [] pm pd)⟩
  · exact ⟨_, rfl, key _ _ _ (parse_d b _ [] pd)⟩
  · unfold Date.ordinalString
    rw [(C11_ordinal t h).1]
    cases basic
    · exact ⟨_, rfl, key _ _ _ (parse_yo_ext b _ _ [] py po)⟩
    · exact ⟨_, rfl, key _ _ _ (parse_yo_basic b _ _ [] hr py po)⟩
  · unfold Date.ordinalString
    rw [(C11_ordinal t h).1]
    exact ⟨_, rfl, key _ _ _ (parse_o b _ [] hr po)⟩
  · obtain ⟨y, w, hin, h1, h2, h3, h4, hg, hm⟩ := C10_week_round_trip t h
    have hw := weekCount_range y
    have hk := weekday_range t
    have pw : 0 ≤ w ∧ w ≤ 99 := by omega
    have pk : 0 ≤ t.weekday ∧ t.weekday ≤ 9 := by omega
    have pa : 0 ≤ y % 100 / 10 ∧ y % 100 / 10 ≤ 9 := by omega
    have pb : 0 ≤ y % 10 ∧ y % 10 ≤ 9 := by omega
    refine ⟨y, w, hin, ?_, ?_, ?_, ?_⟩ <;> unfold Date.weekString <;> rw [hg]
    · cases basic
      · exact ⟨_, rfl, key _ _ _ (parse_yw_ext b _ _ _ _ [] pa pb pw pk)⟩
      · exact ⟨_, rfl, key _ _ _ (parse_yw_basic b _ _ _ _ [] pa pb pw pk)⟩
    · cases basic
      · exact ⟨_, rfl, key _ _ _ (parse_dw_ext b _ _ _ [] pb pw pk)⟩
      · exact ⟨_, rfl, key _ _ _ (parse_dw_basic b _ _ _ [] pb pw pk)⟩
    · cases basic
      · exact ⟨_, rfl, key _ _ _ (parse_w_ext b _ _ [] pw pk)⟩
      · exact ⟨_, rfl, key _ _ _ (parse_w_basic b _ _ [] pw pk)⟩
    · exact ⟨_, rfl, key _ _ _ (parse_wd b _ [] pk)⟩

/-! ### Times and time points -/

/-- The zone part: what `parse_time_zone_format` makes of the zone string. -/
theorem zone_round_trip (c : Clock) (z : Zone) (hz : z.Valid) (hu : z ≠ .unspecified) (basic full : Bool) :
    ∃ s zd zh zm f, (c.time z).zoneString basic full = some s ∧ z.Named (some zd) zh zm ∧
      (atChar 90 s = true ∨ atChar 43 s = true ∨ atChar 45 s = true) ∧ atDigit s = false ∧ atPoint s = false ∧
      atChar 58 s = false ∧
      (f = "Z" ∨ f = (if basic then "+hhmm" else "+hh:mm") ∨ f = "+hh") ∧
      ∀ {α : Type} (k : Int → Option Int → Option Int → String → List Nat → Option α),
        parseZone s k = k zd zh zm f [] := by
  cases z with
  | unspecified => exact absurd rfl hu
  | utc =>
    refine ⟨[90], 0, some 0, some 0, "Z", rfl, rfl, .inl rfl, rfl, rfl, rfl, .inl rfl, ?_⟩
    intro α k; rfl
  | east n =>
    simp only [Zone.Valid] at hz
    have q1 : 0 ≤ n / 60 ∧ n / 60 ≤ 99 := by omega
    have q2 : 0 ≤ n % 60 ∧ n % 60 ≤ 99 := by omega
    have q3 : n % 60 / 10 % 10 * 10 + n % 10 = n % 60 := by omega
    have e : (Clock.time c (.east n)).zoneString basic full =
        if full = true ∨ n % 60 > 0 then
          if basic = true then some (43 :: (fmtInt 2 (n / 60) ++ fmtInt 2 (n % 60)))
          else some (43 :: (fmtInt 2 (n / 60) ++ colon ++ fmtInt 2 (n % 60)))
        else some (43 :: fmtInt 2 (n / 60)) := by
      simp [Time.zoneString, Clock.time]
    rw [e]
    by_cases hf : full = true ∨ n % 60 > 0
    · rw [if_pos hf]
      cases basic
      · refine ⟨_, 1, some (n / 60), some (n % 60), "+hh:mm", rfl, ⟨rfl, _, rfl, by simp; omega⟩,
          .inr (.inl rfl), rfl, rfl, rfl, .inr (.inl rfl), ?_⟩
        intro α k
        rw [fmt2 _ q1, fmt2 _ q2]
        simp [parseZone, colon, digit2, j2 _ q1, q3]
      · refine ⟨_, 1, some (n / 60), some (n % 60), "+hhmm", rfl, ⟨rfl, _, rfl, by simp; omega⟩,
          .inr (.inl rfl), rfl, rfl, rfl, .inr (.inl rfl), ?_⟩
        intro α k
        rw [fmt2 _ q1, fmt2 _ q2]
        simp [parseZone, digit2, j2 _ q1, q3]
    · rw [if_neg hf]
      refine ⟨_, 1, some (n / 60), none, "+hh", rfl, ⟨rfl, _, rfl, by simp; omega⟩,
          .inr (.inl rfl), rfl, rfl, rfl, .inr (.inr rfl), ?_⟩
      intro α k
      rw [fmt2 _ q1]
      simp [parseZone, digit2, j2 _ q1, atDigit, atChar]
  | west n =>
    simp only [Zone.Valid] at hz
    have q1 : 0 ≤ n / 60 ∧ n / 60 ≤ 99 := by omega
    have q2 : 0 ≤ n % 60 ∧ n % 60 ≤ 99 := by omega
    have q3 : n % 60 / 10 % 10 * 10 + n % 10 = n % 60 := by omega
    have e : (Clock.time c (.west n)).zoneString basic full =
        if full = true ∨ n % 60 > 0 then
          if basic = true then some (45 :: (fmtInt 2 (n / 60) ++ fmtInt 2 (n % 60)))
          else some (45 :: (fmtInt 2 (n / 60) ++ colon ++ fmtInt 2 (n % 60)))
        else some (45 :: fmtInt 2 (n / 60)) := by
      simp [Time.zoneString, Clock.time]
    rw [e]
    by_cases hf : full = true ∨ n % 60 > 0
    · rw [if_pos hf]
      cases basic
      · refine ⟨_, -1, some (n / 60), some (n % 60), "+hh:mm", rfl, ⟨rfl, _, rfl, by simp; omega⟩,
          .inr (.inr rfl), rfl, rfl, rfl, .inr (.inl rfl), ?_⟩
        intro α k
        rw [fmt2 _ q1, fmt2 _ q2]
        simp [parseZone, colon, digit2, j2 _ q1, q3]
      · refine ⟨_, -1, some (n / 60), some (n % 60), "+hhmm", rfl, ⟨rfl, _, rfl, by simp; omega⟩,
          .inr (.inr rfl), rfl, rfl, rfl, .inr (.inl rfl), ?_⟩
        intro α k
        rw [fmt2 _ q1, fmt2 _ q2]
        simp [parseZone, digit2, j2 _ q1, q3]
    · rw [if_neg hf]
      refine ⟨_, -1, some (n / 60), none, "+hh", rfl, ⟨rfl, _, rfl, by simp; omega⟩,
          .inr (.inr rfl), rfl, rfl, rfl, .inr (.inr rfl), ?_⟩
      intro α k
      rw [fmt2 _ q1]
      simp [parseZone, digit2, j2 _ q1, atDigit, atChar]

/-- C17 for times: a complete time, with or without a zone, is parsed back to the same time, with or
without the time designator. -/
theorem C17_time_round_trip (c : Clock) (hc : c.Valid) (z : Zone) (hz : z.Valid) (basic full : Bool) :
    ∃ s f, (c.time z).string basic .none full = some s ∧ (timeFormats basic).contains f = true ∧
      parseTimeFormat none (84 :: s) = some (c.time z, 0, f, []) ∧
      parseTimeFormat none s = some (c.time z, 0, f, []) := by
  have hs : (c.time z).second = some c.s := by cases z <;> rfl
  have hm : (c.time z).minute = some c.m := by cases z <;> rfl
  have hh : (c.time z).hour = c.h := by cases z <;> rfl
  have q1 : 0 ≤ c.h ∧ c.h ≤ 99 := by unfold Clock.Valid at hc; omega
  have q2 : 0 ≤ c.m ∧ c.m ≤ 99 := by unfold Clock.Valid at hc; omega
  have q3 : 0 ≤ c.s ∧ c.s ≤ 99 := by unfold Clock.Valid at hc; omega
  by_cases hu : z = .unspecified
  · subst hu
    have key : timeEnd none c.h (some c.m) (some c.s) (if basic then "hhmmss" else "hh:mm:ss") [] =
        some (c.time .unspecified, 0, (if basic then "hhmmss" else "hh:mm:ss"), []) := by
      have := mkTime_named c .unspecified trivial none none none rfl
      rw [if_pos hc] at this
      simp only [timeEnd, atChar]
      rw [this]; simp
    have es : (c.time .unspecified).string basic .none full = some (if basic then fmtInt 2 c.h ++ fmtInt 2 c.m ++ fmtInt 2 c.s
        else fmtInt 2 c.h ++ colon ++ fmtInt 2 c.m ++ colon ++ fmtInt 2 c.s) := by
      cases basic <;> simp [Time.string, Clock.time, Time.zoneString]
    refine ⟨_, if basic then "hhmmss" else "hh:mm:ss", es, by cases basic <;> decide +kernel, ?_⟩
    rw [fmt2 _ q1, fmt2 _ q2, fmt2 _ q3]
    have hT : ∀ n : Int, (dg n == 84) = false := by intro n; simp [dg]; omega
    cases basic
    · simp only [Bool.false_eq_true, if_false] at key ⊢
      constructor <;>
        simp [parseTimeFormat, colon, digit2, j2 _ q1, j2 _ q2, j2 _ q3, key, atPoint, hT, show atChar 46 [] = false from rfl,
          show atChar 44 [] = false from rfl]
    · simp only [if_true] at key ⊢
      constructor <;>
        simp [parseTimeFormat, colon, digit2, j2 _ q1, j2 _ q2, j2 _ q3, key, atPoint, hT, show atChar 46 [] = false from rfl,
          show atChar 44 [] = false from rfl]
  · obtain ⟨zs, zd, zh, zm, zf, e1, hn, hat, hd, hp, hco, hzf, hk⟩ := zone_round_trip c z hz hu basic full
    have hcont : (timeFormats basic).contains ((if basic then "hhmmss" else "hh:mm:ss") ++ zf) = true := by
      rcases hzf with rfl | rfl | rfl <;> cases basic <;> decide +kernel
    have hcont' : (basicTimeFormats.contains ((if basic then "hhmmss" else "hh:mm:ss") ++ zf) ||
        extendedTimeFormats.contains ((if basic then "hhmmss" else "hh:mm:ss") ++ zf)) = true := by
      cases basic
      · simp only [timeFormats, Bool.false_eq_true, if_false] at hcont ⊢; rw [hcont]; simp
      · simp only [timeFormats, if_true] at hcont ⊢; rw [hcont]; simp
    have key : timeEnd none c.h (some c.m) (some c.s) (if basic then "hhmmss" else "hh:mm:ss") zs =
        some (c.time z, 0, (if basic then "hhmmss" else "hh:mm:ss") ++ zf, []) := by
      have := mkTime_named c z hz (some zd) zh zm hn
      rw [if_pos hc] at this
      unfold timeEnd
      rw [if_pos hat, hk]
      dsimp only
      rw [hcont', this]
      rfl
    have es : (c.time z).string basic .none full = some ((if basic then fmtInt 2 c.h ++ fmtInt 2 c.m ++ fmtInt 2 c.s
        else fmtInt 2 c.h ++ colon ++ fmtInt 2 c.m ++ colon ++ fmtInt 2 c.s) ++ zs) := by
      unfold Time.string
      rw [hs, hm, hh, e1]
      cases basic <;> simp
    refine ⟨_, (if basic then "hhmmss" else "hh:mm:ss") ++ zf, es, hcont, ?_⟩
    rw [fmt2 _ q1, fmt2 _ q2, fmt2 _ q3]
    have h58 : ∀ l, atPoint (58 :: l) = false := fun _ => rfl
    have hT : ∀ n : Int, (dg n == 84) = false := by intro n; simp [dg]; omega
    cases basic
    · simp only [Bool.false_eq_true, if_false] at key ⊢
      constructor <;>
        simp [parseTimeFormat, colon, digit2, j2 _ q1, j2 _ q2, j2 _ q3, key, hp, hT, h58]
    · simp only [if_true] at key ⊢
      constructor <;>
        simp [parseTimeFormat, colon, digit2, j2 _ q1, j2 _ q2, j2 _ q3, key, hp, hT, h58]

theorem mkTime_reduced (c : Clock) (hc : c.Valid) (z : Zone) (hz : z.Valid) (zd zh zm : Option Int)
    (hn : z.Named zd zh zm) :
    mkTime { hour := some c.h, minute := some c.m, zdir := zd, zhour := zh, zminute := zm } =
      some { c.time z with second := none } ∧
    mkTime { hour := some c.h, zdir := zd, zhour := zh, zminute := zm } =
      some { c.time z with minute := none, second := none } := by
  have hc' := hc
  unfold Clock.Valid at hc
  have a1 : ¬ (c.h < 0 ∨ c.h > 24) := by omega
  have a2 : ¬ (c.h = 24 ∧ c.m > 0) := by omega
  have a3 : ¬ (c.m < 0 ∨ c.m > 59) := by omega
  cases z with
  | unspecified =>
    simp only [Zone.Named] at hn; subst hn
    simp [mkTime, zoneOffset, Clock.time, checkTime, checkTime.checkHMS, a1, a2, a3]
  | utc =>
    simp only [Zone.Named] at hn; subst hn
    simp [mkTime, zoneOffset, Clock.time, checkTime, checkTime.checkHMS, a1, a2, a3]
  | east n =>
    obtain ⟨rfl, h, rfl, rfl⟩ := hn
    simp only [Zone.Valid] at hz
    have a4 : ¬ (60 * h + zm.getD 0 ≥ 1440) := by omega
    cases zm <;> simp [Int.mul_comm] at a4 <;>
      simp [mkTime, zoneOffset, Clock.time, checkTime, checkTime.checkHMS, a1, a2, a3, Int.mul_comm] <;> omega
  | west n =>
    obtain ⟨rfl, h, rfl, rfl⟩ := hn
    simp only [Zone.Valid] at hz
    have a4 : ¬ (60 * h + zm.getD 0 ≥ 1440) := by omega
    cases zm <;> simp [Int.mul_comm] at a4 <;>
      simp [mkTime, zoneOffset, Clock.time, checkTime, checkTime.checkHMS, a1, a2, a3, Int.mul_comm] <;> omega

/-- What follows the hours and minutes: nothing or a zone. -/
theorem timeEnd_reduced (c : Clock) (hc : c.Valid) (z : Zone) (hz : z.Valid) (basic full : Bool) :
    ∃ zs, (c.time z).zoneString basic full = some zs ∧ atDigit zs = false ∧ atPoint zs = false ∧
      atChar 58 zs = false ∧
      (∃ f, (timeFormats basic).contains f = true ∧
        timeEnd none c.h (some c.m) none (if basic then "hhmm" else "hh:mm") zs =
          some ({ c.time z with second := none }, 0, f, [])) ∧
      (∃ f, (timeFormats basic).contains f = true ∧
        timeEnd none c.h none none "hh" zs = some ({ c.time z with minute := none, second := none }, 0, f, [])) := by
  by_cases hu : z = .unspecified
  · subst hu
    have hm := mkTime_reduced c hc .unspecified trivial none none none rfl
    refine ⟨[], rfl, rfl, rfl, rfl, ⟨if basic then "hhmm" else "hh:mm", by cases basic <;> decide +kernel, ?_⟩,
      ⟨"hh", by cases basic <;> decide +kernel, ?_⟩⟩
    · simp only [timeEnd, atChar]
      rw [hm.1]; simp
    · simp only [timeEnd, atChar]
      rw [hm.2]; simp
  · obtain ⟨zs, zd, zh, zm, zf, e1, hn, hat, hd, hp, hco, hzf, hk⟩ := zone_round_trip c z hz hu basic full
    have hm := mkTime_reduced c hc z hz (some zd) zh zm hn
    have hcont : ∀ g, g = "hh" ∨ g = (if basic then "hhmm" else "hh:mm") → (timeFormats basic).contains (g ++ zf) = true := by
      rintro g (rfl | rfl) <;> rcases hzf with rfl | rfl | rfl <;> cases basic <;> decide +kernel
    have hcont' : ∀ g, g = "hh" ∨ g = (if basic then "hhmm" else "hh:mm") →
        (basicTimeFormats.contains (g ++ zf) || extendedTimeFormats.contains (g ++ zf)) = true := by
      intro g hg
      have := hcont g hg
      cases basic
      · simp only [timeFormats, Bool.false_eq_true, if_false] at this; rw [this]; simp
      · simp only [timeFormats, if_true] at this; rw [this]; simp
    refine ⟨zs, e1, hd, hp, hco, ⟨_, hcont _ (.inr rfl), ?_⟩, ⟨_, hcont _ (.inl rfl), ?_⟩⟩
    · unfold timeEnd
      rw [if_pos hat, hk]
      dsimp only
      rw [hcont' _ (.inr rfl), hm.1]; rfl
    · unfold timeEnd
      rw [if_pos hat, hk]
      dsimp only
      rw [hcont' _ (.inl rfl), hm.2]; rfl

/-- C17 for times with reduced precision: hours and minutes, or hours alone, with any zone. -/
theorem C17_reduced_time_round_trip (c : Clock) (hc : c.Valid) (z : Zone) (hz : z.Valid) (basic full : Bool) :
    (∃ s f, ({ c.time z with second := none } : Time).string basic .none full = some s ∧
      (timeFormats basic).contains f = true ∧
      parseTimeFormat none s = some ({ c.time z with second := none }, 0, f, [])) ∧
    (∃ s f, ({ c.time z with minute := none, second := none } : Time).string basic .none full = some s ∧
      (timeFormats basic).contains f = true ∧
      parseTimeFormat none s = some ({ c.time z with minute := none, second := none }, 0, f, [])) := by
  have hm : (c.time z).minute = some c.m := by cases z <;> rfl
  have hh : (c.time z).hour = c.h := by cases z <;> rfl
  have q1 : 0 ≤ c.h ∧ c.h ≤ 99 := by unfold Clock.Valid at hc; omega
  have q2 : 0 ≤ c.m ∧ c.m ≤ 99 := by unfold Clock.Valid at hc; omega
  obtain ⟨zs, hz1, hd, hp, h58, ⟨f1, k1, k2⟩, ⟨f2, k3, k4⟩⟩ := timeEnd_reduced c hc z hz basic full
  have hp58 : ∀ l, atPoint (58 :: l) = false := fun _ => rfl
  have hT : ∀ n : Int, (dg n == 84) = false := by intro n; simp [dg]; omega
  have z1 : ({ c.time z with second := none } : Time).zoneString basic full = some zs := hz1
  have z2 : ({ c.time z with minute := none, second := none } : Time).zoneString basic full = some zs := hz1
  refine ⟨⟨(if basic then fmtInt 2 c.h ++ fmtInt 2 c.m else fmtInt 2 c.h ++ colon ++ fmtInt 2 c.m) ++ zs, f1, ?_, k1, ?_⟩,
    ⟨fmtInt 2 c.h ++ zs, f2, ?_, k3, ?_⟩⟩
  · unfold Time.string
    rw [z1]
    simp only [hm, hh]
    cases basic <;> rfl
  · rw [fmt2 _ q1, fmt2 _ q2]
    cases basic
    · simp only [Bool.false_eq_true, if_false] at k2 ⊢
      simp [parseTimeFormat, colon, digit2, j2 _ q1, j2 _ q2, k2, hp, hT, hp58, h58]
    · simp only [if_true] at k2 ⊢
      simp [parseTimeFormat, digit2, j2 _ q1, j2 _ q2, k2, hp, hT, hd]
  · unfold Time.string
    rw [z2]
    simp only [hh]
    rfl
  · rw [fmt2 _ q1]
    simp [parseTimeFormat, digit2, j2 _ q1, k4, hp, hT, hd, h58]

/-- C17 for truncated times: the printed form is read back as `base.extend` of the printed components. -/
theorem C17_truncated_time (c : Clock) (hc : c.Valid) (z : Zone) (basic full : Bool) (b : Time) :
    (∃ s f, (c.time z).string basic .hour full = some s ∧ parseTimeFormat (some b) s =
      (b.extend none (some c.m) (some c.s)).map fun p => (p.1, p.2, f, [])) ∧
    (∃ s f, (c.time z).string basic .minute full = some s ∧ parseTimeFormat (some b) s =
      (b.extend none none (some c.s)).map fun p => (p.1, p.2, f, [])) ∧
    (∃ s f, ({ c.time z with second := none } : Time).string basic .hour full = some s ∧ parseTimeFormat (some b) s =
      (b.extend none (some c.m) none).map fun p => (p.1, p.2, f, [])) := by
  have hs : (c.time z).second = some c.s := by cases z <;> rfl
  have hm : (c.time z).minute = some c.m := by cases z <;> rfl
  have q2 : 0 ≤ c.m ∧ c.m ≤ 99 := by unfold Clock.Valid at hc; omega
  have q3 : 0 ≤ c.s ∧ c.s ≤ 99 := by unfold Clock.Valid at hc; omega
  have hp58 : ∀ l, atPoint (58 :: l) = false := fun _ => rfl
  have hpn : atPoint [] = false := rfl
  have hdn : ∀ l, atDigit (45 :: l) = false := fun _ => rfl
  have hdc : ∀ l, atDigit (58 :: l) = false := fun _ => rfl
  have hd0 : atDigit [] = false := rfl
  have hc0 : atChar 58 [] = false := rfl
  have hte : ∀ m s f, timeEndTruncated (some b) m s f [] = (b.extend none m s).map fun p => (p.1, p.2, f, []) := by
    intro m s f
    simp only [timeEndTruncated, Option.bind_eq_bind, Option.bind_some]
    cases b.extend none m s <;> rfl
  refine ⟨⟨if basic then hyphen ++ fmtInt 2 c.m ++ fmtInt 2 c.s else hyphen ++ fmtInt 2 c.m ++ colon ++ fmtInt 2 c.s,
      if basic then "-mmss" else "-mm:ss", ?_, ?_⟩, ⟨hyphen ++ hyphen ++ fmtInt 2 c.s, "--ss", ?_, ?_⟩,
      ⟨hyphen ++ fmtInt 2 c.m, "-mm", ?_, ?_⟩⟩
  · unfold Time.string
    simp only [hm, hs]
    cases basic <;> rfl
  · rw [fmt2 _ q2, fmt2 _ q3]
    cases basic <;>
    simp [parseTimeFormat, hyphen, colon, digit2, j2 _ q2, j2 _ q3, hte, hp58, hpn, hdn, hdc, hd0, hc0]
  · unfold Time.string
    simp only [hs]
    rfl
  · rw [fmt2 _ q3]
    simp [parseTimeFormat, hyphen, digit2, j2 _ q3, hte, hpn, hdn]
  · unfold Time.string
    simp only [hm]
    rfl
  · rw [fmt2 _ q2]
    simp [parseTimeFormat, hyphen, digit2, j2 _ q2, hte, hpn, hdn, hd0, hc0]

/-- C17 for time points: calendar, ordinal and week forms, basic and extended, any zone. -/
theorem C17_time_point_round_trip (t : YMD) (h : t.Valid) (c : Clock) (hc : c.Valid) (z : Zone) (hz : z.Valid)
    (basic full : Bool) :
    (∃ s, (timePoint t c z).string Date.calendarString basic .none full = some s ∧
      TimePoint.fromStr s none = some (timePoint t c z)) ∧
    (∃ s, (timePoint t c z).string Date.ordinalString basic .none full = some s ∧
      TimePoint.fromStr s none = some (timePoint t c z)) ∧
    (∃ s, (timePoint t c z).string Date.weekString basic .none full = some s ∧
      TimePoint.fromStr s none = some (timePoint t c z)) := by
  obtain ⟨ts, tf, e1, hf, e2, -⟩ := C17_time_round_trip c hc z hz basic full
  obtain ⟨⟨s1, f1, a1, b1, c1⟩, ⟨s2, f2, a2, b2, c2⟩, ⟨s3, f3, a3, b3, c3⟩⟩ :=
    C17_date_round_trip t h basic (84 :: ts) (.inr ⟨ts, rfl⟩)
  have key : ∀ s f, (dateFormats basic).contains f = true → parseDateFormat none (s ++ 84 :: ts) = some (t.date, f, 84 :: ts) →
      TimePoint.fromStr (s ++ [84] ++ ts) none = some (timePoint t c z) := by
    intro s f hdf e
    have hcons : ((extendedTimeFormats.contains tf && extendedDateFormats.contains f) ||
         (basicTimeFormats.contains tf && basicDateFormats.contains f)) = true := by
      cases basic
      · simp only [timeFormats, dateFormats, Bool.false_eq_true, if_false] at hf hdf
        rw [hf, hdf]; rfl
      · simp only [timeFormats, dateFormats, if_true] at hf hdf
        rw [hf, hdf]; simp
    have hmk := mkTimePoint_complete t h c z hz
    rw [if_pos hc] at hmk
    have hcomp : t.date.complete = true := rfl
    unfold TimePoint.fromStr parseTimePointFormat
    rw [List.append_assoc, List.singleton_append, e]
    simp only [Option.bind_eq_bind, Option.bind_some]
    rw [hcomp, e2]
    simp only [Bool.not_true, Bool.false_eq_true, if_false, atChar_cons, BEq.rfl, Option.bind_some, ne_eq,
      not_true_eq_false]
    rw [hcons, hmk]
    rfl
  have hst : ∀ (g : Date → Bool → Truncation → Option (List Nat)) s, g t.date basic .none = some s →
      (timePoint t c z).string g basic .none full = some (s ++ [84] ++ ts) := by
    intro g s hg
    have e1' : (timePoint t c z).time.string basic .none full = some ts := e1
    have hg' : g (timePoint t c z).date basic .none = some s := hg
    rw [TimePoint.string, e1', hg']; rfl
  exact ⟨⟨_, hst _ _ a1, key _ _ b1 c1⟩, ⟨_, hst _ _ a2, key _ _ b2 c2⟩, ⟨_, hst _ _ a3, key _ _ b3 c3⟩⟩

/-- Trailing characters are silently ignored by `from_str` (so it accepts more than ISO 8601 dates). -/
theorem C17_trailing_garbage : Date.fromStr ([50, 48, 50, 52, 45, 48, 50, 45, 50, 57] ++ [33, 33]) none =
    some (YMD.date ⟨2024, 2, 29⟩) := by decide +kernel

end Verif.Iso

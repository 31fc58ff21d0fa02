import Verif.Text.Decimal
import Verif.Xsd.White

/-!
# Integers, decimals and booleans, `pyslet/xml/xsdatatypes.py:38-106, 484-512`: C49

`ValueError` is `none`.  A decimal is the exact rational number that `float` rounds: `⟨m, k⟩` is `m / 10^k`; the rounding is
not modelled.
-/
namespace Verif.Xsd
open Verif.Text

/-- `boolean_from_str`, xsdatatypes.py:39-55 (for a `src` that is not None). -/
def booleanFromStr (src : Str) : Option Bool :=
  if src = [116, 114, 117, 101] then some true
  else if src = [102, 97, 108, 115, 101] then some false
  else if src = [49] then some true
  else if src = [48] then some false
  else none

/-- `boolean_to_str`, xsdatatypes.py:59-70 (for a `src` that is not None). -/
def booleanToStr (src : Bool) : Str := if src then [116, 114, 117, 101] else [102, 97, 108, 115, 101]

/-- `+` or `-`. -/
def isSign (c : Nat) : Bool := c == 0x2B || c == 0x2D

/-- The loop of `integer_from_str`, xsdatatypes.py:491-505: `false` is ValueError. -/
def integerLoop : Str → Bool → Bool
  | [], _ => true
  | v :: r, sign =>
    if isSign v then if sign then false else integerLoop r true
    else if v < 0x30 || v > 0x39 then false
    else integerLoop r true

/-- `int(src)` for strings of ASCII digits and signs: an optional sign and at least one digit. -/
def pyInt : Str → Option Int
  | [] => none
  | c :: r =>
    if isSign c then if r ≠ [] ∧ r.all isDigit then some (if c = 0x2D then -(decVal r : Int) else decVal r) else none
    else if (c :: r).all isDigit then some (decVal (c :: r)) else none

/-- `integer_from_str`, xsdatatypes.py:485-506. -/
def integerFromStr (src : Str) : Option Int := if integerLoop src false then pyInt src else none

/-- `integer_to_str`, xsdatatypes.py:510-512. -/
def integerToStr (v : Int) : Str := if v < 0 then 0x2D :: decStr v.natAbs else decStr v.natAbs

/-- The rational number `m / 10^k`. -/
structure Dec where
  m : Int
  k : Nat
  deriving DecidableEq, Repr

/-- The loop of `decimal_from_str`, xsdatatypes.py:79-105: `false` is ValueError. -/
def decimalLoop : Str → Bool → Bool → Bool → Bool
  | [], _, _, digit => digit
  | v :: r, sign, point, digit =>
    if isSign v then if sign then false else decimalLoop r true point digit
    else if v == 0x2E then if point then false else decimalLoop r sign true digit
    else if v < 0x30 || v > 0x39 then false
    else decimalLoop r true point true

/-- `float(src)` without a sign for strings of ASCII digits and points: digits, at most one point, at least one digit. -/
def pyUnsigned (s : Str) : Option (Nat × Nat) :=
  let a := s.takeWhile isDigit
  match s.dropWhile isDigit with
  | [] => if a ≠ [] then some (decVal a, 0) else none
  | c :: b => if c == 0x2E && b.all isDigit && (a ++ b) ≠ [] then some (decVal (a ++ b), b.length) else none

/-- `float(src)` for strings of ASCII digits, signs and points. -/
def pyFloat : Str → Option Dec
  | [] => none
  | c :: r =>
    if isSign c then (pyUnsigned r).map fun p => ⟨if c = 0x2D then -(p.1 : Int) else p.1, p.2⟩
    else (pyUnsigned (c :: r)).map fun p => ⟨p.1, p.2⟩

/-- `decimal_from_str`, xsdatatypes.py:74-106. -/
def decimalFromStr (src : Str) : Option Dec := if decimalLoop src false false false then pyFloat src else none

/-! ## Specification: the lexical spaces of XML Schema -/

/-- An optional sign and its value. -/
def Sign (s : Str) (neg : Bool) : Prop := (s = [] ∧ neg = false) ∨ (s = [0x2B] ∧ neg = false) ∨ (s = [0x2D] ∧ neg = true)

/-- `src` is a lexical representation of the integer `v`. -/
def IsInteger (src : Str) (v : Int) : Prop := ∃ sg neg ds, Sign sg neg ∧ src = sg ++ ds ∧ ds ≠ [] ∧ (∀ c ∈ ds, isDigit c = true) ∧
  v = if neg then -(decVal ds : Int) else decVal ds

/-- `src` is a lexical representation of the decimal `d`. -/
def IsDecimal (src : Str) (d : Dec) : Prop := ∃ sg neg a b pt, Sign sg neg ∧ src = sg ++ a ++ pt ++ b ∧
  ((pt = [] ∧ b = []) ∨ pt = [0x2E]) ∧ a ++ b ≠ [] ∧ (∀ c ∈ a ++ b, isDigit c = true) ∧
  d = ⟨if neg then -(decVal (a ++ b) : Int) else decVal (a ++ b), b.length⟩

/-! ## Proofs -/

theorem isDigit_iff {c : Nat} : isDigit c = true ↔ 0x30 ≤ c ∧ c ≤ 0x39 := by simp [isDigit]

theorem not_digit_sign {c : Nat} (h : isDigit c = true) : isSign c = false := by
  rw [isDigit_iff] at h
  simp only [isSign, Bool.or_eq_false_iff, beq_eq_false_iff_ne, ne_eq]
  omega

theorem integerLoop_true : ∀ (r : Str), integerLoop r true = r.all isDigit := by
  intro r
  induction r with
  | nil => rfl
  | cons c r ih =>
    rw [integerLoop]
    by_cases hs : isSign c = true
    · have : isDigit c = false := by
        cases h : isDigit c with
        | false => rfl
        | true => rw [not_digit_sign h] at hs; cases hs
      simp [hs, this]
    · by_cases hd : isDigit c = true
      · have := isDigit_iff.mp hd
        simp only [hs, Bool.false_eq_true, if_false, List.all_cons, hd, Bool.true_and, ← ih]
        rw [if_neg (by simp; omega)]
      · have hd' : isDigit c = false := by simpa using hd
        have : ¬ (0x30 ≤ c ∧ c ≤ 0x39) := fun h => hd (isDigit_iff.mpr h)
        simp only [hs, Bool.false_eq_true, if_false, List.all_cons, hd', Bool.false_and]
        rw [if_pos (by simp; omega)]

theorem pyInt_spec {s : Str} {v : Int} : pyInt s = some v ↔ IsInteger s v := by
  cases s with
  | nil =>
    simp only [pyInt, reduceCtorEq, false_iff]
    rintro ⟨sg, neg, ds, _, h, hn, _⟩
    exact hn (by simpa using (List.append_eq_nil_iff.mp h.symm).2)
  | cons c r =>
    rw [pyInt]
    constructor
    · intro h
      split at h
      · rename_i hs
        split at h
        · rename_i hr
          simp only [Option.some.injEq] at h
          by_cases hc : c = 0x2D
          · exact ⟨[c], true, r, .inr (.inr ⟨by rw [hc], rfl⟩), rfl, hr.1, by simpa using hr.2, by rw [← h]; simp [hc]⟩
          · have hc2 : c = 0x2B := by simp only [isSign, Bool.or_eq_true, beq_iff_eq] at hs; rcases hs with h | h; exact h; exact absurd h hc
            exact ⟨[c], false, r, .inr (.inl ⟨by rw [hc2], rfl⟩), rfl, hr.1, by simpa using hr.2, by rw [← h]; simp [hc]⟩
        · cases h
      · split at h
        · rename_i hr
          simp only [Option.some.injEq] at h
          exact ⟨[], false, c :: r, .inl ⟨rfl, rfl⟩, rfl, by simp, by simpa using hr, by rw [← h]; simp⟩
        · cases h
    · rintro ⟨sg, neg, ds, hsg, he, hn, hd, rfl⟩
      rcases hsg with ⟨rfl, rfl⟩ | ⟨rfl, rfl⟩ | ⟨rfl, rfl⟩
      · simp only [List.nil_append] at he
        subst he
        rw [if_neg (by rw [not_digit_sign (hd c (by simp))]; simp), if_pos (by simpa using hd)]
        rfl
      · simp only [List.singleton_append, List.cons.injEq] at he
        obtain ⟨rfl, rfl⟩ := he
        rw [if_pos (by decide), if_pos ⟨hn, by simpa using hd⟩]
        simp
      · simp only [List.singleton_append, List.cons.injEq] at he
        obtain ⟨rfl, rfl⟩ := he
        rw [if_pos (by decide), if_pos ⟨hn, by simpa using hd⟩]
        simp

/-- **C49**: `integer_from_str` accepts exactly the lexical representations of integers, and returns the integer. -/
theorem C49_integer (src : Str) (v : Int) : integerFromStr src = some v ↔ IsInteger src v := by
  unfold integerFromStr
  constructor
  · intro h
    split at h
    · exact pyInt_spec.mp h
    · cases h
  · intro h
    rw [if_pos, pyInt_spec.mpr h]
    obtain ⟨sg, neg, ds, hsg, he, hn, hd, _⟩ := h
    have hall : ds.all isDigit = true := by simpa using hd
    rcases hsg with ⟨rfl, rfl⟩ | ⟨rfl, rfl⟩ | ⟨rfl, rfl⟩
    · rw [List.nil_append] at he
      rw [he]
      cases ds with
      | nil => exact absurd rfl hn
      | cons c r =>
        rw [integerLoop, if_neg (by rw [not_digit_sign (hd c (by simp))]; simp)]
        have := isDigit_iff.mp (hd c (by simp))
        rw [if_neg (by simp; omega), integerLoop_true]
        simp only [List.all_cons, Bool.and_eq_true] at hall
        exact hall.2
    · subst he
      rw [List.singleton_append, integerLoop, if_pos (by decide), if_neg (by simp), integerLoop_true]
      exact hall
    · subst he
      rw [List.singleton_append, integerLoop, if_pos (by decide), if_neg (by simp), integerLoop_true]
      exact hall

/-- **C49**: what `integer_to_str` writes is read back. -/
theorem C49_integer_round_trip (v : Int) : integerFromStr (integerToStr v) = some v := by
  rw [C49_integer]
  unfold integerToStr
  split
  · refine ⟨[0x2D], true, decStr v.natAbs, .inr (.inr ⟨rfl, rfl⟩), rfl, decStr_ne_nil _, decStr_isDigit _, ?_⟩
    rw [decVal_decStr]
    simp; omega
  · refine ⟨[], false, decStr v.natAbs, .inl ⟨rfl, rfl⟩, rfl, decStr_ne_nil _, decStr_isDigit _, ?_⟩
    rw [decVal_decStr]
    simp; omega

/-- **C49**: `boolean_from_str` accepts exactly the four literals. -/
theorem C49_boolean (src : Str) (b : Bool) : booleanFromStr src = some b ↔
    (b = true ∧ (src = [116, 114, 117, 101] ∨ src = [49])) ∨ (b = false ∧ (src = [102, 97, 108, 115, 101] ∨ src = [48])) := by
  unfold booleanFromStr
  constructor
  · intro h
    repeat' split at h
    all_goals simp_all
  · rintro (⟨rfl, rfl | rfl⟩ | ⟨rfl, rfl | rfl⟩) <;> decide

theorem C49_boolean_round_trip (b : Bool) : booleanFromStr (booleanToStr b) = some b := by cases b <;> decide

/-! ### Decimals -/

theorem takeWhile_digits {a r : Str} (h : ∀ c ∈ a, isDigit c = true) (hr : ∀ c r', r = c :: r' → isDigit c = false) :
    (a ++ r).takeWhile isDigit = a ∧ (a ++ r).dropWhile isDigit = r := by
  induction a with
  | nil =>
    cases r with
    | nil => simp
    | cons c r => simp [hr c r rfl]
  | cons x a ih =>
    have := ih fun c hc => h c (by simp [hc])
    simp [h x (by simp), this.1, this.2]

theorem pyUnsigned_spec {s : Str} {n k : Nat} : pyUnsigned s = some (n, k) ↔ ∃ a b pt, s = a ++ pt ++ b ∧
    ((pt = [] ∧ b = []) ∨ pt = [0x2E]) ∧ a ++ b ≠ [] ∧ (∀ c ∈ a ++ b, isDigit c = true) ∧ n = decVal (a ++ b) ∧ k = b.length := by
  constructor
  · intro h
    unfold pyUnsigned at h
    dsimp only at h
    have hs : s.takeWhile isDigit ++ s.dropWhile isDigit = s := List.takeWhile_append_dropWhile
    have ha : ∀ c ∈ s.takeWhile isDigit, isDigit c = true := by
      intro c hc; exact List.all_eq_true.mp (List.all_takeWhile) c hc
    split at h
    · rename_i hd
      split at h
      · rename_i hn
        simp only [Option.some.injEq, Prod.mk.injEq] at h
        rw [hd] at hs
        exact ⟨s.takeWhile isDigit, [], [], by simpa using hs.symm, .inl ⟨rfl, rfl⟩, by simpa using hn, by simpa using ha, by simp [h.1], by simp [h.2]⟩
      · cases h
    · rename_i c b hd
      split at h
      · rename_i hn
        simp only [Option.some.injEq, Prod.mk.injEq] at h
        simp only [Bool.and_eq_true, beq_iff_eq, decide_eq_true_eq] at hn
        obtain ⟨⟨rfl, hb⟩, hn⟩ := hn
        rw [hd] at hs
        refine ⟨s.takeWhile isDigit, b, [0x2E], by simpa using hs.symm, .inr rfl, hn, ?_, h.1.symm, h.2.symm⟩
        intro c hc
        rcases List.mem_append.mp hc with hc | hc
        · exact ha c hc
        · exact List.all_eq_true.mp hb c hc
      · cases h
  · rintro ⟨a, b, pt, rfl, hp, hn, hd, rfl, rfl⟩
    have ha : ∀ c ∈ a, isDigit c = true := fun c hc => hd c (by simp [hc])
    have hb : ∀ c ∈ b, isDigit c = true := fun c hc => hd c (by simp [hc])
    unfold pyUnsigned
    dsimp only
    rcases hp with ⟨rfl, rfl⟩ | rfl
    · obtain ⟨h1, h2⟩ := takeWhile_digits (r := []) ha (by simp)
      simp only [List.append_nil] at h1 h2 hn ⊢
      rw [h1, h2]
      simp [hn]
    · obtain ⟨h1, h2⟩ := takeWhile_digits (r := 0x2E :: b) ha (by intro c r' e; cases e; decide)
      rw [List.append_assoc, List.singleton_append, h1, h2]
      simp only
      rw [if_pos]
      simp only [beq_self_eq_true, Bool.true_and, Bool.and_eq_true, decide_eq_true_eq]
      exact ⟨by simpa using hb, hn⟩

theorem pyFloat_spec {s : Str} {d : Dec} : pyFloat s = some d ↔ IsDecimal s d := by
  cases s with
  | nil =>
    simp only [pyFloat, reduceCtorEq, false_iff]
    rintro ⟨sg, neg, a, b, pt, _, h, hp, hn, _⟩
    have := List.append_eq_nil_iff.mp h.symm
    have h2 := List.append_eq_nil_iff.mp this.1
    have h3 := List.append_eq_nil_iff.mp h2.1
    exact hn (by rw [h3.2, this.2]; rfl)
  | cons c r =>
    rw [pyFloat]
    constructor
    · intro h
      split at h
      · rename_i hs
        simp only [Option.map_eq_some_iff] at h
        obtain ⟨⟨n, k⟩, h1, rfl⟩ := h
        obtain ⟨a, b, pt, rfl, h2, h3, h4, rfl, rfl⟩ := pyUnsigned_spec.mp h1
        by_cases hc : c = 0x2D
        · exact ⟨[c], true, a, b, pt, .inr (.inr ⟨by rw [hc], rfl⟩), by simp, h2, h3, h4, by simp [hc]⟩
        · have hc2 : c = 0x2B := by simp only [isSign, Bool.or_eq_true, beq_iff_eq] at hs; rcases hs with h | h; exact h; exact absurd h hc
          exact ⟨[c], false, a, b, pt, .inr (.inl ⟨by rw [hc2], rfl⟩), by simp, h2, h3, h4, by simp [hc]⟩
      · simp only [Option.map_eq_some_iff] at h
        obtain ⟨⟨n, k⟩, h1, rfl⟩ := h
        obtain ⟨a, b, pt, h0, h2, h3, h4, rfl, rfl⟩ := pyUnsigned_spec.mp h1
        exact ⟨[], false, a, b, pt, .inl ⟨rfl, rfl⟩, by simp [h0], h2, h3, h4, by simp⟩
    · rintro ⟨sg, neg, a, b, pt, hsg, he, hp, hn, hd, rfl⟩
      have hu := pyUnsigned_spec.mpr ⟨a, b, pt, rfl, hp, hn, hd, rfl, rfl⟩
      rcases hsg with ⟨rfl, rfl⟩ | ⟨rfl, rfl⟩ | ⟨rfl, rfl⟩
      · simp only [List.nil_append] at he
        have hc : isSign c = false := by
          cases a with
          | cons x a =>
            simp only [List.cons_append, List.cons.injEq] at he
            rw [he.1]; exact not_digit_sign (hd x (by simp))
          | nil =>
            rcases hp with ⟨rfl, rfl⟩ | rfl
            · simp at hn
            · simp only [List.nil_append, List.singleton_append, List.cons.injEq] at he
              rw [he.1]; decide
        rw [if_neg (by simp [hc]), he, hu]
        simp
      · simp only [List.singleton_append, List.cons_append, List.cons.injEq] at he
        obtain ⟨rfl, rfl⟩ := he
        rw [if_pos (by decide), List.nil_append, hu]
        simp
      · simp only [List.singleton_append, List.cons_append, List.cons.injEq] at he
        obtain ⟨rfl, rfl⟩ := he
        rw [if_pos (by decide), List.nil_append, hu]
        simp

theorem decimalLoop_digits : ∀ (a r : Str) (sign point digit : Bool), (∀ c ∈ a, isDigit c = true) →
    decimalLoop (a ++ r) sign point digit = decimalLoop r (sign || !a.isEmpty) point (digit || !a.isEmpty) := by
  intro a
  induction a with
  | nil => intro r sign point digit _; simp
  | cons c a ih =>
    intro r sign point digit h
    have hc := h c (by simp)
    have := isDigit_iff.mp hc
    rw [List.cons_append, decimalLoop, if_neg (by rw [not_digit_sign hc]; simp), if_neg (by simp; omega),
      if_neg (by simp; omega), ih r true point true fun x hx => h x (by simp [hx])]
    simp

/-- **C49**: `decimal_from_str` accepts exactly the lexical representations of decimals, and returns (the float nearest to)
the decimal. -/
theorem C49_decimal (src : Str) (d : Dec) : decimalFromStr src = some d ↔ IsDecimal src d := by
  unfold decimalFromStr
  constructor
  · intro h
    split at h
    · exact pyFloat_spec.mp h
    · cases h
  · intro h
    rw [if_pos, pyFloat_spec.mpr h]
    obtain ⟨sg, neg, a, b, pt, hsg, he, hp, hn, hd, _⟩ := h
    have ha : ∀ c ∈ a, isDigit c = true := fun c hc => hd c (by simp [hc])
    have hb : ∀ c ∈ b, isDigit c = true := fun c hc => hd c (by simp [hc])
    have key : ∀ sign, decimalLoop (a ++ pt ++ b) sign false false = true := by
      intro sign
      rw [List.append_assoc, decimalLoop_digits a _ _ _ _ ha]
      rcases hp with ⟨rfl, rfl⟩ | rfl
      · cases a with
        | nil => simp at hn
        | cons x a => simp [decimalLoop]
      · rw [List.singleton_append, decimalLoop, if_neg (by decide), if_pos (by decide), if_neg (by simp)]
        have := decimalLoop_digits b [] (sign || !a.isEmpty) true (false || !a.isEmpty) hb
        rw [List.append_nil] at this
        rw [this, decimalLoop]
        cases a with
        | cons x a => simp
        | nil =>
          cases b with
          | nil => simp at hn
          | cons x b => simp
    have key2 : ∀ c, isSign c = true → decimalLoop (c :: (a ++ pt ++ b)) false false false = true := by
      intro c hc
      rw [decimalLoop, if_pos hc, if_neg (by simp)]
      exact key true
    rcases hsg with ⟨rfl, rfl⟩ | ⟨rfl, rfl⟩ | ⟨rfl, rfl⟩
    · rw [he]; simpa using key false
    · rw [he]; simpa using key2 0x2B (by decide)
    · rw [he]; simpa using key2 0x2D (by decide)

/-- `-12.50` is the decimal -1250/100; `.+5`, `+` and `1.2.3` are refused. -/
example : decimalFromStr [45, 49, 50, 46, 53, 48] = some ⟨-1250, 2⟩ ∧ decimalFromStr [46, 43, 53] = none ∧
    decimalFromStr [43] = none ∧ decimalFromStr [49, 46, 50, 46, 51] = none ∧ integerFromStr [43, 48, 55] = some 7 ∧
    integerFromStr [45] = none ∧ integerFromStr [53, 45] = none := by decide +kernel

end Verif.Xsd

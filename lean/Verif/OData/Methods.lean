import Verif.OData.FilterProps
import Verif.OData.DateLit
import Mathlib.Data.Rat.Floor
import Mathlib.Algebra.Order.Round
import Mathlib.Algebra.Order.Floor.Ring
import Mathlib.Tactic.FieldSimp
import Mathlib.Tactic.Linarith
import Mathlib.Tactic.Positivity
/-!
# The remaining methods of filter expressions, `pyslet/odata2/core.py:1039-1292` (C67, C161)
-/
namespace Verif.OData

/-! ### Strings -/

/-- What Python's `str` provides: `lower`, `upper` and the characters `strip` removes. -/
structure PyStr where
  lower : Str → Str
  upper : Str → Str
  ws : Nat → Bool

/-- `s.replace(p, r)` for `p` not empty; the first argument bounds the number of steps. -/
def replaceLoop (p r : Str) : Nat → Str → Str
  | 0, s => s
  | n + 1, s =>
    if p.isPrefixOf s then r ++ replaceLoop p r n (s.drop p.length)
    else match s with
      | [] => []
      | c :: s' => c :: replaceLoop p r n s'

/-- `s.replace(p, r)`: an empty `p` is found before every character and at the end. -/
def pyReplace (s p r : Str) : Str :=
  if p = [] then s.flatMap (fun c => r ++ [c]) ++ r else replaceLoop p r (s.length + 1) s

/-- `s.strip()`. -/
def pyStrip (py : PyStr) (s : Str) : Str := ((s.dropWhile py.ws).reverse.dropWhile py.ws).reverse

/-- `evaluate_replace`, `evaluate_tolower`, `evaluate_toupper`, `evaluate_trim`, core.py:1039-1055, 1069-1100; the other string
methods are in `evalCall`. -/
def evalStrCall (py : PyStr) (m : Method) (args : List Value) : Except Err Value :=
  match m, args with
  | .replace, [a, b, c] => do
    let s ← strArg false a; let p ← strArg false b; let r ← strArg false c
    return orNull .string (s.bind fun s => p.bind fun p => r.map fun r => .text (pyReplace s p r))
  | .tolower, [a] => do let s ← strArg false a; return orNull .string (s.map fun s => .text (py.lower s))
  | .toupper, [a] => do let s ← strArg false a; return orNull .string (s.map fun s => .text (py.upper s))
  | .trim, [a] => do let s ← strArg false a; return orNull .string (s.map fun s => .text (pyStrip py s))
  | _, _ => .error .eval

/-! ### specification -/

/-- The pieces with `p` between them. -/
def glue (p : Str) : List Str → Str
  | [] => []
  | [w] => w
  | w :: ws => w ++ p ++ glue p ws

/-- `ws` are the pieces of `s` between the occurrences of `p` found from left to right: in each piece followed by `p`, the first
occurrence of `p` is at the end; in the last piece there is none. -/
def Pieces (p : Str) : List Str → Prop
  | [] => False
  | [w] => ∀ u v, w ≠ u ++ p ++ v
  | w :: ws => (∀ u v, w ++ p = u ++ p ++ v → v = []) ∧ Pieces p ws

theorem glue_cons (p w : Str) (ws : List Str) (h : ws ≠ []) : glue p (w :: ws) = w ++ p ++ glue p ws := by
  cases ws with
  | nil => exact absurd rfl h
  | cons x xs => rfl

theorem Pieces.ne {p : Str} {ws : List Str} (h : Pieces p ws) : ws ≠ [] := by rintro rfl; exact h

theorem Pieces.cons {p : Str} {w : Str} {ws : List Str} (h1 : ∀ u v, w ++ p = u ++ p ++ v → v = []) (h : Pieces p ws) : Pieces p (w :: ws) := by
  cases ws with
  | nil => exact absurd rfl h.ne
  | cons x xs => exact ⟨h1, h⟩

/-- A character before the first piece, where `p` does not begin. -/
theorem Pieces.char {p : Str} (hp : p ≠ []) {ws : List Str} (h : Pieces p ws) (c : Nat) (hn : ¬ p <+: (c :: glue p ws)) :
    ∃ w ws', ws = w :: ws' ∧ Pieces p ((c :: w) :: ws') := by
  cases ws with
  | nil => exact absurd rfl h.ne
  | cons w ws =>
    refine ⟨w, ws, rfl, ?_⟩
    cases ws with
    | nil =>
      intro u v e
      cases u with
      | nil => exact hn ⟨v, by simpa [glue] using e.symm⟩
      | cons d u =>
        simp only [List.cons_append, List.cons.injEq] at e
        exact h u v e.2
    | cons x xs =>
      refine ⟨?_, h.2⟩
      intro u v e
      cases u with
      | nil =>
        exfalso
        refine hn ⟨v ++ glue p (x :: xs), ?_⟩
        rw [glue_cons p w _ (by simp)]
        rw [List.nil_append] at e
        rw [← List.append_assoc, ← e]
        simp
      | cons d u =>
        simp only [List.cons_append, List.cons.injEq] at e
        exact h.1 u v e.2

theorem replaceLoop_pieces (p r : Str) (hp : p ≠ []) : ∀ (n : Nat) (s : Str), s.length < n →
    ∃ ws, Pieces p ws ∧ s = glue p ws ∧ replaceLoop p r n s = glue r ws := by
  intro n
  induction n with
  | zero => intro s h; omega
  | succ n ih =>
    intro s h
    rw [replaceLoop.eq_def]
    dsimp only
    by_cases hpre : p.isPrefixOf s = true
    · rw [if_pos hpre]
      obtain ⟨v, hv⟩ := List.isPrefixOf_iff_prefix.1 hpre
      have hl : 0 < p.length := List.length_pos_iff.mpr hp
      have hd : s.drop p.length = v := by rw [← hv]; simp
      have hlen : s.length = p.length + v.length := by rw [← hv]; simp
      obtain ⟨ws, h1, h2, h3⟩ := ih v (by omega)
      refine ⟨[] :: ws, h1.cons ?_, ?_, ?_⟩
      · intro u v' e
        have := congrArg List.length e
        simp at this
        exact List.length_eq_zero_iff.mp (by omega)
      · rw [glue_cons p [] ws h1.ne, ← h2, List.nil_append, hv]
      · rw [hd, h3, glue_cons r [] ws h1.ne, List.nil_append]
    · rw [if_neg hpre]
      cases s with
      | nil =>
        refine ⟨[[]], ?_, rfl, rfl⟩
        intro u v e
        have := congrArg List.length e
        simp at this
        exact hp (List.length_eq_zero_iff.mp (by omega))
      | cons c s =>
        obtain ⟨ws, h1, h2, h3⟩ := ih s (by simp at h; omega)
        obtain ⟨w, ws', rfl, h5⟩ := h1.char hp c (by
          rw [← h2]
          exact fun hx => hpre (List.isPrefixOf_iff_prefix.2 hx))
        refine ⟨(c :: w) :: ws', h5, ?_, ?_⟩
        · rw [h2]
          cases ws' <;> simp [glue]
        · dsimp only
          rw [h3]
          cases ws' <;> simp [glue]

/-- The pieces are determined. -/
theorem Pieces.unique {p : Str} : ∀ {ws vs : List Str}, Pieces p ws → Pieces p vs → glue p ws = glue p vs → ws = vs := by
  have aux : ∀ (w : Str) (ws : List Str) (v : Str) (vs : List Str), Pieces p (w :: ws) → Pieces p (v :: vs) → vs ≠ [] →
      glue p (w :: ws) = glue p (v :: vs) → w.length ≤ v.length := by
    intro w ws v vs hw hv hne e
    by_contra hlt
    rw [glue_cons p v vs hne] at e
    have hvp := hv
    cases ws with
    | nil =>
      simp only [glue] at e
      exact hw v (glue p vs) e
    | cons x xs =>
      rw [glue_cons p w _ (by simp)] at e
      have hpre : v ++ p <+: w ++ p := by
        have h1 : v ++ p <+: w ++ p ++ glue p (x :: xs) := ⟨glue p vs, e.symm⟩
        refine List.prefix_of_prefix_length_le h1 ⟨_, rfl⟩ ?_
        simp; omega
      obtain ⟨t, ht⟩ := hpre
      have := hw.1 v t ht.symm
      subst this
      have := congrArg List.length ht
      simp at this
      omega
  intro ws
  induction ws with
  | nil => intro vs h; exact absurd rfl h.ne
  | cons w ws ih =>
    intro vs hw hv e
    cases vs with
    | nil => exact absurd rfl hv.ne
    | cons v vs =>
      cases ws with
      | nil =>
        cases vs with
        | nil => simpa [glue] using e
        | cons y ys =>
          rw [glue_cons p v _ (by simp)] at e
          exact absurd e (hw v _)
      | cons x xs =>
        cases vs with
        | nil =>
          rw [glue_cons p w _ (by simp)] at e
          exact absurd e.symm (hv w _)
        | cons y ys =>
          have h1 := aux w (x :: xs) v (y :: ys) hw hv (by simp) e
          have h2 := aux v (y :: ys) w (x :: xs) hv hw (by simp) e.symm
          rw [glue_cons p w _ (by simp), glue_cons p v _ (by simp), List.append_assoc, List.append_assoc] at e
          obtain ⟨e1, e2⟩ := List.append_inj e (by omega)
          have e3 := List.append_cancel_left e2
          rw [e1, ih hw.2 hv.2 e3]

/-- **C67**: `replace` puts the third argument for every occurrence of the second, found from left to right without overlap. -/
theorem C67_replace (py : PyStr) (s p r : Str) (hp : p ≠ []) :
    (∃ ws, Pieces p ws ∧ s = glue p ws) ∧
    ∀ ws, Pieces p ws → s = glue p ws → evalStrCall py .replace [strVal s, strVal p, strVal r] = .ok (strVal (glue r ws)) := by
  obtain ⟨ws, h1, h2, h3⟩ := replaceLoop_pieces p r hp (s.length + 1) s (by omega)
  refine ⟨⟨ws, h1, h2⟩, ?_⟩
  intro vs g1 g2
  have : vs = ws := Pieces.unique g1 h1 (g2.symm.trans h2)
  subst this
  show Except.ok (orNull .string (some (.text (pyReplace s p r)))) = _
  rw [pyReplace, if_neg hp, h3]
  rfl

/-- **C67**: `trim` takes away the white space at both ends and nothing else. -/
theorem C67_trim (py : PyStr) (a w b : Str) (ha : ∀ c ∈ a, py.ws c = true) (hb : ∀ c ∈ b, py.ws c = true)
    (h1 : ∀ c, w.head? = some c → py.ws c = false) (h2 : ∀ c, w.getLast? = some c → py.ws c = false) :
    evalStrCall py .trim [strVal (a ++ w ++ b)] = .ok (strVal w) := by
  have dw : ∀ (l r : Str), (∀ c ∈ l, py.ws c = true) → (l ++ r).dropWhile py.ws = r.dropWhile py.ws := by
    intro l r hl
    induction l with
    | nil => rfl
    | cons c l ih => rw [List.cons_append, List.dropWhile_cons_of_pos (hl c (by simp)), ih fun x hx => hl x (by simp [hx])]
  have keep : ∀ (r : Str), (∀ c, r.head? = some c → py.ws c = false) → r.dropWhile py.ws = r := by
    intro r hr
    cases r with
    | nil => rfl
    | cons c r => rw [List.dropWhile_cons_of_neg (by simp [hr c rfl])]
  show Except.ok (orNull .string (some (.text (pyStrip py (a ++ w ++ b))))) = _
  have : pyStrip py (a ++ w ++ b) = w := by
    unfold pyStrip
    rw [List.append_assoc, dw a _ ha]
    cases w with
    | nil =>
      have := dw b [] hb
      rw [List.append_nil] at this
      rw [List.nil_append, this]; rfl
    | cons c w =>
      rw [keep ((c :: w) ++ b) (fun x hx => h1 x (by simpa using hx)), List.reverse_append, dw b.reverse _ (by simpa using hb), keep, List.reverse_reverse]
      intro x hx
      rw [List.head?_reverse] at hx
      exact h2 x hx
  rw [this]; rfl

/-- **C67**: `tolower`, `toupper`; NULL gives NULL. -/
theorem C67_case (py : PyStr) (s : Str) (t : Option Ty) (ht : t = none ∨ t = some .string) :
    evalStrCall py .tolower [strVal s] = .ok (strVal (py.lower s)) ∧
    evalStrCall py .toupper [strVal s] = .ok (strVal (py.upper s)) ∧
    (∀ m ∈ [Method.tolower, .toupper, .trim], evalStrCall py m [.null t] = .ok (.null (some .string))) ∧
    evalStrCall py .replace [.null t, strVal s, strVal s] = .ok (.null (some .string)) ∧
    evalStrCall py .replace [strVal s, .null t, strVal s] = .ok (.null (some .string)) ∧
    evalStrCall py .replace [strVal s, strVal s, .null t] = .ok (.null (some .string)) := by
  refine ⟨rfl, rfl, ?_, ?_⟩
  · intro m hm
    simp only [List.mem_cons, List.not_mem_nil, or_false] at hm
    rcases hm with rfl | rfl | rfl <;> rcases ht with rfl | rfl <;> rfl
  · rcases ht with rfl | rfl <;> exact ⟨rfl, rfl, rfl⟩

/-- Non-vacuity: aaa.replace(aa, b) is ba. -/
example (py : PyStr) : evalStrCall py .replace [strVal [97, 97, 97], strVal [97, 97], strVal [98]] = .ok (strVal [98, 97]) := rfl

/-! ### Rounding -/

/-- A finite Decimal: the coefficient with its sign, and the exponent. -/
structure Dec where
  m : Int
  e : Int
deriving DecidableEq, Repr

inductive Rounding where
  | halfUp | floor | ceiling
deriving DecidableEq, Repr

/-- `Decimal.to_integral(rounding)`: without fractional digits the number itself; else the digits before the point, increased in
magnitude by one if the rounding says so. -/
def Dec.toIntegral (mode : Rounding) (d : Dec) : Dec :=
  if 0 ≤ d.e then d
  else
    let b := 10 ^ (-d.e).toNat
    let q := d.m.natAbs / b
    let rest := d.m.natAbs % b
    let up : Bool := match mode with
      | .halfUp => 2 * rest ≥ b
      | .floor => d.m < 0 && rest ≠ 0
      | .ceiling => 0 < d.m && rest ≠ 0
    let k : Nat := if up then q + 1 else q
    ⟨if d.m < 0 then -(k : Int) else k, 0⟩

/-- The numeric arguments of the rounding methods that can become Decimals. -/
inductive RArg where
  | null
  | int (n : Int)
  | dec (d : Dec)

/-- The Decimal of a RArg, core.py:994-1002, csdl.py:1559-1576 (integers of 64 bits are below the limit). -/
def RArg.target : RArg → Option Dec
  | .null => none
  | .int n => some ⟨n, 0⟩
  | .dec d => some d

/-- `10 ** 29 - 1` in the context of 28 digits, csdl.py:1517-1518. -/
def decMax : Rat := 10 ^ 29

/-- The number. -/
def Dec.val (d : Dec) : Rat := d.m * 10 ^ d.e

/-- `evaluate_round`, `evaluate_floor`, `evaluate_ceiling`, core.py:1235-1292, for arguments that can become Decimals; `none` for the
ValueError of `set_from_value`. -/
def evalRound (mode : Rounding) (a : RArg) : Option (Option Dec) :=
  match a.target with
  | none => some none
  | some d => if |(d.toIntegral mode).val| > decMax then none else some (some (d.toIntegral mode))

theorem dec_neg {d : Dec} (h : ¬ 0 ≤ d.e) : d.val = d.m / ((10 ^ (-d.e).toNat : Nat) : Rat) := by
  unfold Dec.val
  have : (10 : Rat) ^ d.e = ((10 ^ (-d.e).toNat : Nat) : Rat)⁻¹ := by
    have h1 : d.e = -(((-d.e).toNat : Nat) : Int) := by omega
    conv => lhs; rw [h1]
    rw [zpow_neg, zpow_natCast]
    push_cast
    rfl
  rw [this]; rfl

theorem dec_pos {d : Dec} (h : 0 ≤ d.e) : ∃ n : Int, d.val = n := by
  refine ⟨d.m * 10 ^ d.e.toNat, ?_⟩
  unfold Dec.val
  have h1 : d.e = ((d.e.toNat : Nat) : Int) := by omega
  conv => lhs; rw [h1]
  rw [zpow_natCast]
  push_cast
  rfl

theorem val_int (n : Int) : Dec.val ⟨n, 0⟩ = n := by simp [Dec.val]

/-- The parts of a Decimal with fractional digits. -/
theorem dec_parts (d : Dec) : ∃ b q r : Nat, 0 < b ∧ b = 10 ^ (-d.e).toNat ∧ q = d.m.natAbs / b ∧ r = d.m.natAbs % b ∧ r < b ∧ d.m.natAbs = b * q + r := by
  refine ⟨10 ^ (-d.e).toNat, _, _, by positivity, rfl, rfl, rfl, Nat.mod_lt _ (by positivity), (Nat.div_add_mod _ _).symm⟩

/-- The magnitude of a Decimal with fractional digits. -/
theorem abs_val {d : Dec} (h : ¬ 0 ≤ d.e) : ∃ b q r : Nat, 0 < b ∧ b = 10 ^ (-d.e).toNat ∧ q = d.m.natAbs / b ∧ r = d.m.natAbs % b ∧ r < b ∧
    (0 ≤ d.m → d.val = q + (r : Rat) / b) ∧ (d.m < 0 → d.val = -(q + (r : Rat) / b)) := by
  obtain ⟨b, q, r, hb, e1, e2, e3, hr, e⟩ := dec_parts d
  have hb' : (b : Rat) ≠ 0 := by positivity
  have habs : ((d.m.natAbs : Nat) : Rat) / b = q + (r : Rat) / b := by
    rw [e]; push_cast; field_simp
  refine ⟨b, q, r, hb, e1, e2, e3, hr, fun hm => ?_, fun hm => ?_⟩
  · rw [dec_neg h, ← e1, ← habs]
    have : d.m = (d.m.natAbs : Int) := by omega
    conv => lhs; rw [this]
    simp
  · rw [dec_neg h, ← e1, ← habs]
    generalize hn : d.m.natAbs = n
    have : d.m = -(n : Int) := by omega
    rw [this, Int.cast_neg, Int.cast_natCast, neg_div]

theorem frac_bounds {b r : Nat} (hb : 0 < b) (hr : r < b) : 0 ≤ (r : Rat) / b ∧ (r : Rat) / b < 1 ∧ ((r : Rat) / b = 0 ↔ r = 0) ∧
    ((r : Rat) / b < 1 / 2 ↔ 2 * r < b) ∧ ((r : Rat) / b = 1 / 2 ↔ 2 * r = b) := by
  have hb' : (0 : Rat) < b := by positivity
  refine ⟨by positivity, ?_, ?_, ?_, ?_⟩
  · rw [div_lt_one hb']; exact_mod_cast hr
  · rw [div_eq_zero_iff]
    constructor
    · rintro (h | h)
      · exact_mod_cast h
      · exact absurd h hb'.ne'
    · rintro rfl; left; simp
  · rw [div_lt_iff₀ hb']
    constructor
    · intro h
      have : (2 * r : Rat) < b := by linarith
      exact_mod_cast this
    · intro h
      have : (2 * r : Rat) < b := by exact_mod_cast h
      linarith
  · rw [div_eq_iff hb'.ne']
    constructor
    · intro h
      have : (2 * r : Rat) = b := by linarith
      exact_mod_cast this
    · intro h
      have : (2 * r : Rat) = b := by exact_mod_cast h
      linarith

theorem toIntegral_floor (d : Dec) : (d.toIntegral .floor).val = ⌊d.val⌋ := by
  unfold Dec.toIntegral
  by_cases h : 0 ≤ d.e
  · rw [if_pos h]
    obtain ⟨n, hn⟩ := dec_pos h
    rw [hn, Int.floor_intCast]
  · rw [if_neg h]
    dsimp only
    obtain ⟨b, q, r, hb, e1, e2, e3, hr, hp, hn⟩ := abs_val h
    rw [← e1, ← e2, ← e3, val_int]
    obtain ⟨f1, f2, f3, -, -⟩ := frac_bounds hb hr
    congr 1
    symm
    rw [Int.floor_eq_iff]
    by_cases hm : d.m < 0
    · rw [hn hm]
      by_cases hr0 : r = 0
      · simp [hm, hr0]
      · have : (r : Rat) / b ≠ 0 := fun e => hr0 (f3.mp e)
        have hpos : 0 < (r : Rat) / b := lt_of_le_of_ne f1 (Ne.symm this)
        simp [hm, hr0]
        constructor <;> linarith
    · rw [hp (by omega)]
      simp [hm]
      exact ⟨f1, f2⟩

theorem toIntegral_ceiling (d : Dec) : (d.toIntegral .ceiling).val = ⌈d.val⌉ := by
  unfold Dec.toIntegral
  by_cases h : 0 ≤ d.e
  · rw [if_pos h]
    obtain ⟨n, hn⟩ := dec_pos h
    rw [hn, Int.ceil_intCast]
  · rw [if_neg h]
    dsimp only
    obtain ⟨b, q, r, hb, e1, e2, e3, hr, hp, hn⟩ := abs_val h
    rw [← e1, ← e2, ← e3, val_int]
    obtain ⟨f1, f2, f3, -, -⟩ := frac_bounds hb hr
    congr 1
    symm
    rw [Int.ceil_eq_iff]
    by_cases hm : d.m < 0
    · rw [hn hm]
      have : ¬ 0 < d.m := by omega
      simp [hm, this]
      constructor <;> linarith
    · rw [hp (by omega)]
      by_cases hr0 : r = 0
      · simp [hm, hr0]
      · have : (r : Rat) / b ≠ 0 := fun e => hr0 (f3.mp e)
        have hpos : 0 < (r : Rat) / b := lt_of_le_of_ne f1 (Ne.symm this)
        have hm' : 0 < d.m := by
          rcases lt_or_eq_of_le (not_lt.mp hm) with h | h
          · exact h
          · exfalso; apply hr0; rw [e3, ← h]; simp
        simp [hm, hr0, hm']
        constructor <;> linarith

theorem toIntegral_round (d : Dec) : ∃ n : Int, (d.toIntegral .halfUp).val = n ∧ |d.val - n| ≤ 1 / 2 ∧ (|d.val - n| = 1 / 2 → |d.val| < |(n : Rat)|) := by
  unfold Dec.toIntegral
  by_cases h : 0 ≤ d.e
  · rw [if_pos h]
    obtain ⟨n, hn⟩ := dec_pos h
    exact ⟨n, hn, by rw [hn]; norm_num, by rw [hn]; norm_num⟩
  · rw [if_neg h]
    dsimp only
    obtain ⟨b, q, r, hb, e1, e2, e3, hr, hp, hn⟩ := abs_val h
    rw [← e1, ← e2, ← e3]
    obtain ⟨f1, f2, -, f4, f5⟩ := frac_bounds hb hr
    refine ⟨_, val_int _, ?_⟩
    have hq : (0 : Rat) ≤ q := by positivity
    have key : ∀ (k : Nat), k = (if 2 * r ≥ b then q + 1 else q) → |(q + (r : Rat) / b) - k| ≤ 1 / 2 ∧ (|(q + (r : Rat) / b) - k| = 1 / 2 → (q + (r : Rat) / b) < k) := by
      intro k hk
      by_cases hc : 2 * r ≥ b
      · rw [if_pos hc] at hk
        have g : ¬ (r : Rat) / b < 1 / 2 := fun g => by have := f4.mp g; omega
        rw [hk]; push_cast
        refine ⟨?_, fun _ => by linarith⟩
        rw [abs_le]; constructor <;> linarith
      · rw [if_neg hc] at hk
        have g := f4.mpr (by omega)
        rw [hk]
        have e : (q : Rat) + (r : Rat) / b - q = (r : Rat) / b := by ring
        rw [e, abs_of_nonneg f1]
        exact ⟨g.le, fun h => by linarith⟩
    obtain ⟨k1, k2⟩ := key _ rfl
    simp only [decide_eq_true_eq]
    generalize (if 2 * r ≥ b then q + 1 else q) = k at k1 k2
    have hv : 0 ≤ q + (r : Rat) / b := by linarith
    by_cases hm : d.m < 0
    · rw [if_pos hm, hn hm]
      push_cast
      have e : -(q + (r : Rat) / b) - -(k : Rat) = -((q + (r : Rat) / b) - k) := by ring
      rw [e, abs_neg, abs_neg, abs_neg, abs_of_nonneg hv, Nat.abs_cast]
      exact ⟨k1, k2⟩
    · rw [if_neg hm, hp (by omega)]
      push_cast
      rw [abs_of_nonneg hv, Nat.abs_cast]
      exact ⟨k1, k2⟩

/-- **C161**: `floor` of a Decimal within the limits is the greatest integer not above it, `ceiling` the least not below it. -/
theorem C161_floor_ceiling (d : Dec) (h : |d.val| ≤ 10 ^ 29) :
    (∃ r, evalRound .floor (.dec d) = some (some r) ∧ r.val = ⌊d.val⌋) ∧ ∃ r, evalRound .ceiling (.dec d) = some (some r) ∧ r.val = ⌈d.val⌉ := by
  rw [abs_le] at h
  have e : (10 ^ 29 : Rat) = ((10 ^ 29 : Int) : Rat) := by push_cast; rfl
  constructor
  · refine ⟨_, ?_, toIntegral_floor d⟩
    simp only [evalRound, RArg.target]
    rw [if_neg]
    rw [toIntegral_floor, not_lt, decMax, abs_le]
    constructor
    · have : -(10 ^ 29 : Int) ≤ ⌊d.val⌋ := Int.le_floor.mpr (by push_cast; exact h.1)
      have : ((-(10 ^ 29 : Int) : Int) : Rat) ≤ (⌊d.val⌋ : Int) := by exact_mod_cast this
      push_cast at this
      exact this
    · exact le_trans (Int.floor_le _) h.2
  · refine ⟨_, ?_, toIntegral_ceiling d⟩
    simp only [evalRound, RArg.target]
    rw [if_neg]
    rw [toIntegral_ceiling, not_lt, decMax, abs_le]
    constructor
    · exact le_trans h.1 (Int.le_ceil _)
    · have : ⌈d.val⌉ ≤ (10 ^ 29 : Int) := Int.ceil_le.mpr (by push_cast; exact h.2)
      have : ((⌈d.val⌉ : Int) : Rat) ≤ ((10 ^ 29 : Int) : Rat) := by exact_mod_cast this
      push_cast at this
      exact this

/-- **C161**: `round` of a Decimal within the limits is the nearest integer, of two nearest the one farther from zero. -/
theorem C161_round (d : Dec) (h : |d.val| ≤ 10 ^ 29) :
    ∃ r, evalRound .halfUp (.dec d) = some (some r) ∧ ∃ n : Int, r.val = n ∧ |d.val - n| ≤ 1 / 2 ∧ (|d.val - n| = 1 / 2 → |d.val| < |(n : Rat)|) := by
  obtain ⟨n, h1, h2, h3⟩ := toIntegral_round d
  refine ⟨_, ?_, n, h1, h2, h3⟩
  simp only [evalRound, RArg.target]
  rw [if_neg]
  rw [h1, not_lt, decMax]
  rw [abs_le] at h h2 ⊢
  have b1 : -(10 ^ 29 : Int) ≤ n := by
    by_contra hc
    have : n + 1 ≤ -(10 ^ 29 : Int) := by omega
    have : ((n + 1 : Int) : Rat) ≤ ((-(10 ^ 29 : Int) : Int) : Rat) := by exact_mod_cast this
    push_cast at this
    linarith
  have b2 : n ≤ (10 ^ 29 : Int) := by
    by_contra hc
    have : (10 ^ 29 : Int) + 1 ≤ n := by omega
    have : (((10 ^ 29 : Int) + 1 : Int) : Rat) ≤ (n : Rat) := by exact_mod_cast this
    push_cast at this
    linarith
  constructor
  · have : ((-(10 ^ 29 : Int) : Int) : Rat) ≤ n := by exact_mod_cast b1
    push_cast at this; exact this
  · have : (n : Rat) ≤ ((10 ^ 29 : Int) : Rat) := by exact_mod_cast b2
    push_cast at this; exact this

/-- **C161**: integers of 64 bits are not changed, NULL gives NULL. -/
theorem C161_integers (mode : Rounding) :
    (∀ n : Int, -9223372036854775808 ≤ n → n ≤ 9223372036854775807 → ∃ r, evalRound mode (.int n) = some (some r) ∧ r.val = n) ∧
    evalRound mode .null = some none := by
  refine ⟨fun n h1 h2 => ⟨⟨n, 0⟩, ?_, val_int n⟩, rfl⟩
  have e : Dec.toIntegral mode ⟨n, 0⟩ = ⟨n, 0⟩ := by simp [Dec.toIntegral]
  simp only [evalRound, RArg.target]
  rw [e, if_neg]
  rw [val_int, not_lt, decMax, abs_le]
  have g1 : ((-9223372036854775808 : Int) : Rat) ≤ n := by exact_mod_cast h1
  have g2 : (n : Rat) ≤ ((9223372036854775807 : Int) : Rat) := by exact_mod_cast h2
  push_cast at g1 g2
  constructor <;> linarith

example : evalRound .halfUp (.dec ⟨-25, -1⟩) = some (some ⟨-3, 0⟩) ∧ evalRound .floor (.dec ⟨-25, -1⟩) = some (some ⟨-3, 0⟩) ∧
    evalRound .ceiling (.dec ⟨-25, -1⟩) = some (some ⟨-2, 0⟩) := by decide +kernel

/-! ### Parts of dates -/

/-- `evaluate_year` to `evaluate_second`, core.py:1162-1233, of a DateTime value; `none` when the part is None (the result is NULL). -/
def evalDatePart (m : Method) (v : Val) : Except Err Value :=
  match v with
  | .null => .error .eval
  | .dt p _ => match m with
    | .year => match p.date.year with
      | some y => setInt .i32 (p.date.century * 100 + y)
      | none => .error .type
    | .month => (p.date.month.map (setInt .i32)).getD (.ok (.null (some .i32)))
    | .day => (p.date.day.map (setInt .i32)).getD (.ok (.null (some .i32)))
    | .hour => setInt .i32 p.time.hour
    | .minute => (p.time.minute.map (setInt .i32)).getD (.ok (.null (some .i32)))
    | .second => (p.time.second.map (setInt .i32)).getD (.ok (.null (some .i32)))
    | _ => .error .eval
  | _ => .error .eval

/-- **C161**: the parts of the literal of a date and time are the parts of that date and time. -/
theorem C161_date_parts (ids : Ids) {t : Iso.YMD} (h : t.Valid) (c : Iso.Clock) (hc : c.Valid) :
    ∃ s v, parseLit ids s = .ok v [] ∧ formatLit (.dt (Iso.timePoint t c .unspecified) []) = some s ∧
      evalDatePart .year v = .ok (.of .i32 (.int t.y)) ∧ evalDatePart .month v = .ok (.of .i32 (.int t.m)) ∧
      evalDatePart .day v = .ok (.of .i32 (.int t.d)) ∧ evalDatePart .hour v = .ok (.of .i32 (.int c.h)) ∧
      evalDatePart .minute v = .ok (.of .i32 (.int c.m)) ∧ evalDatePart .second v = .ok (.of .i32 (.int c.s)) := by
  obtain ⟨s, h1, h2⟩ := parseLit_datetime ids h c hc []
  rw [List.append_nil] at h2
  obtain ⟨y1, y2, m1, m2, d1, d2⟩ := h
  obtain ⟨a1, a2, a3, a4, a5, a6, -⟩ := hc
  have hd := monthLen_le t.y t.m
  have key : ∀ n : Int, 0 ≤ n → n ≤ 9999 → setInt .i32 n = .ok (.of .i32 (.int n)) := by
    intro n h1 h2
    simp only [setInt, intRange]
    rw [if_neg (by omega)]
  refine ⟨s, _, h2, h1, ?_, ?_, ?_, ?_, ?_, ?_⟩
  · have : t.y / 100 * 100 + t.y % 100 = t.y := by omega
    show setInt .i32 (t.y / 100 * 100 + t.y % 100) = _
    rw [this]; exact key _ (by omega) (by omega)
  · exact key _ (by omega) (by omega)
  · exact key _ (by omega) (by omega)
  · exact key c.h (by omega) (by omega)
  · exact key _ (by omega) (by omega)
  · exact key _ (by omega) (by omega)

example : (⟨2012, 2, 29⟩ : Iso.YMD).Valid ∧ (⟨23, 59, 60⟩ : Iso.Clock).Valid := by decide

end Verif.OData

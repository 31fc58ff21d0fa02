import Verif.OData.Eval
/-!
# C64-C67: the evaluation of expressions
-/
namespace Verif.OData

/-! ### C64: numeric promotion -/

/-- The numeric types from the narrowest to the widest. -/
def rank : Ty → Option Nat
  | .byte => some 0 | .i16 => some 1 | .i32 => some 2 | .i64 => some 3 | .decimal => some 4 | .single => some 5
  | .double => some 6
  | _ => none

/-- The wider of two types. -/
def wider (a b : Ty) : Option Ty :=
  if a = b then some a
  else match rank a, rank b with
    | some i, some j => some (if i < j then b else a)
    | _, _ => none

/-- C64.  Two operand types are promoted to the wider one; types that are not numeric go only with themselves, and
an untyped null takes the type of the other operand. -/
theorem C64_promotion (a b : Ty) :
    promote (some a) (some b) = (match wider a b with | some c => .ok (some c) | none => .error .eval) ∧
    promote none (some b) = .ok (some b) ∧ promote (some a) none = .ok (some a) ∧ promote none none = .ok none := by
  refine ⟨?_, ?_, ?_, rfl⟩
  · cases a <;> cases b <;> rfl
  · cases b <;> rfl
  · cases a <;> rfl

/-- C64.  Promotion does not depend on the order of the operands. -/
theorem C64_promotion_comm (a b : Option Ty) : promote a b = promote b a := by
  rcases a with _ | a <;> rcases b with _ | b
  · rfl
  · cases b <;> rfl
  · cases a <;> rfl
  · cases a <;> cases b <;> rfl

/-- C64.  ... nor on the order in which three of them are combined. -/
theorem C64_promotion_assoc (a b c : Ty) :
    (wider a b).bind (fun d => wider d c) = (wider b c).bind (fun d => wider a d) := by
  cases a <;> cases b <;> cases c <;> rfl

/-- Non-vacuity. -/
example : wider .byte .i64 = some .i64 ∧ wider .decimal .single = some .single ∧ wider .string .i32 = none := by decide

/-- Violation: an SByte cannot be combined with any other numeric type, and not even two of them can be compared
or added. -/
theorem C64_sbyte_violation (x : Ext) (m n : Int) (op : Op) :
    (∀ t, t ≠ .sbyte → promote (some .sbyte) (some t) = .error .eval) ∧
    evalArith x op (.of .sbyte (.int m)) (.of .sbyte (.int n)) = .error .eval ∧
    evalEq x (.of .sbyte (.int m)) (.of .sbyte (.int n)) = .error .eval := by
  refine ⟨?_, rfl, rfl⟩
  intro t ht
  cases t <;> first | rfl | exact absurd rfl ht

/-- Violation: two operands of type Byte or Int16 are promoted to at most Int16, which no operator accepts: they
cannot be added or compared; nor can two Booleans be compared. -/
theorem C64_narrow_violation (x : Ext) (m n : Int) (op : Op) (b c : Bool) :
    evalArith x op (.of .i16 (.int m)) (.of .byte (.int n)) = .error .eval ∧
    evalEq x (.of .i16 (.int m)) (.of .i16 (.int n)) = .error .eval ∧
    evalRel x op (.of .byte (.int m)) (.of .byte (.int n)) = .error .eval ∧
    evalEq x (boolVal b) (boolVal c) = .error .eval :=
  ⟨rfl, rfl, rfl, rfl⟩

/-! ### C65: integer arithmetic -/

/-- A number of an integer type: Byte, Int16, Int32 or Int64. -/
def IsInt (t : Ty) (n : Int) : Prop :=
  t = .byte ∧ 0 ≤ n ∧ n ≤ 255 ∨ t = .i16 ∧ -32768 ≤ n ∧ n ≤ 32767 ∨ t = .i32 ∧ -2147483648 ≤ n ∧ n ≤ 2147483647 ∨
  t = .i64 ∧ -9223372036854775808 ≤ n ∧ n ≤ 9223372036854775807

/-- The mathematical result; division truncates towards zero. -/
def exact (op : Op) (m n : Int) : Option Int :=
  match op with
  | .add => some (m + n)
  | .sub => some (m - n)
  | .mul => some (m * n)
  | .div => if n = 0 then none else some (m.tdiv n)
  | .mod => if n = 0 then none else some (m.tmod n)
  | _ => none

theorem castTo_int (x : Ext) {s t : Ty} {n : Int} (h : IsInt s n) {u : Ty} (hw : wider s u = some t) (ht : t = .i32 ∨ t = .i64) :
    castTo x t (.of s (.int n)) = .ok (.of t (.int n)) ∧ IsInt t n := by
  unfold IsInt at h
  have key : (s = t ∨ s = .byte ∨ s = .i16 ∨ (s = .i32 ∧ t = .i64)) := by
    rcases ht with rfl | rfl <;> cases s <;> cases u <;> simp +decide [wider, rank] at hw ⊢
  unfold castTo
  by_cases e : s = t
  · subst e
    rw [if_pos (by rfl)]
    exact ⟨rfl, h⟩
  · rw [if_neg (by intro h'; exact e (Option.some.inj h'))]
    rcases ht with rfl | rfl
    · have hr : -2147483648 ≤ n ∧ n ≤ 2147483647 := by
        rcases key with rfl | rfl | rfl | ⟨rfl, h'⟩
        · exact absurd rfl e
        · rcases h with h | h | h | h <;> simp at h; omega
        · rcases h with h | h | h | h <;> simp at h; omega
        · cases h'
      refine ⟨?_, .inr (.inr (.inl ⟨rfl, hr⟩))⟩
      simp only [Value.of, intRange, Option.isSome, if_true, setInt]
      rw [if_neg (by omega)]
    · have hr : -9223372036854775808 ≤ n ∧ n ≤ 9223372036854775807 := by
        rcases key with rfl | rfl | rfl | ⟨rfl, h'⟩
        · exact absurd rfl e
        · rcases h with h | h | h | h <;> simp at h; omega
        · rcases h with h | h | h | h <;> simp at h; omega
        · rcases h with h | h | h | h <;> simp at h; omega
      refine ⟨?_, .inr (.inr (.inr ⟨rfl, hr⟩))⟩
      simp only [Value.of, intRange, Option.isSome, if_true, setInt]
      rw [if_neg (by omega)]

theorem wider_comm (a b : Ty) : wider a b = wider b a := by cases a <;> cases b <;> rfl

/-- C65.  Arithmetic on integers is exact: the result is the mathematical one, of the wider type, or an error if it
does not fit or the divisor is zero: it never wraps around.  Division and remainder go through floating point
numbers and are covered for operands below 2^53, in particular for all Int32 (see `C65_int64_division_violation`). -/
theorem C65_integer_arithmetic_partial (x : Ext) (op : Op)
    (hop : op = .add ∨ op = .sub ∨ op = .mul ∨ op = .div ∨ op = .mod) {s t u : Ty} {m n : Int}
    (hm : IsInt s m) (hn : IsInt t n) (hw : wider s t = some u) (hu : u = .i32 ∨ u = .i64)
    (hsmall : op = .div ∨ op = .mod → m.natAbs < 2 ^ 53 ∧ n.natAbs < 2 ^ 53) :
    match exact op m n with
    | none => evalArith x op (.of s (.int m)) (.of t (.int n)) = .error .eval
    | some k =>
      (IsInt u k → evalArith x op (.of s (.int m)) (.of t (.int n)) = .ok (.of u (.int k))) ∧
      (¬ IsInt u k → evalArith x op (.of s (.int m)) (.of t (.int n)) = .error .value) := by
  have hp : promote (some s) (some t) = .ok (some u) := by rw [(C64_promotion s t).1, hw]
  have c1 := castTo_int x hm hw hu
  have c2 := castTo_int x hn (by rw [wider_comm]; exact hw) hu
  have hmem : u ∈ arithTypes := by rcases hu with rfl | rfl <;> decide
  have e : evalArith x op (.of s (.int m)) (.of t (.int n)) = arithOp x op u (.int m) (.int n) := by
    unfold evalArith
    show (promote (some s) (some t) >>= _) = _
    rw [hp]
    show (if u ∈ arithTypes then _ else _) = _
    rw [if_pos hmem]
    rw [c1.1, c2.1]
    rfl
  have hset : ∀ k : Int, (IsInt u k → setInt u k = .ok (.of u (.int k))) ∧ (¬ IsInt u k → setInt u k = .error .value) := by
    intro k
    constructor
    · intro h
      unfold IsInt at h
      rcases hu with rfl | rfl <;> simp at h <;> simp only [setInt, intRange] <;> rw [if_neg (by omega)]
    · intro h
      unfold IsInt at h
      rcases hu with rfl | rfl <;> simp at h <;> simp only [setInt, intRange] <;> rw [if_pos (by omega)]
  rw [e]
  unfold arithOp
  dsimp only
  rw [if_pos hu]
  rcases hop with rfl | rfl | rfl | rfl | rfl
  · exact hset _
  · exact hset _
  · exact hset _
  · unfold exact
    dsimp only
    by_cases h0 : n = 0
    · rw [if_pos h0, if_pos h0]
    · rw [if_neg h0, if_neg h0, intDiv_eq (hsmall (.inl rfl)).1 (hsmall (.inl rfl)).2.le h0]
      exact hset _
  · unfold exact
    dsimp only
    by_cases h0 : n = 0
    · rw [if_pos h0, if_pos h0]
    · rw [if_neg h0, if_neg h0, intMod_eq (hsmall (.inr rfl)).1.le (hsmall (.inr rfl)).2.le h0]
      dsimp only
      have hin : IsInt u (m.tmod n) := by
        have h1 : (m.tmod n).natAbs ≤ m.natAbs := by rw [Int.natAbs_tmod]; exact Nat.mod_le _ _
        have h2 : 0 ≤ m → 0 ≤ m.tmod n := Int.tmod_nonneg n
        have h4 : m ≤ 0 → m.tmod n ≤ 0 := by
          intro h
          have := Int.tmod_nonneg n (a := -m) (by omega)
          rw [Int.neg_tmod] at this; omega
        have h3 := c1.2
        unfold IsInt at h3 ⊢
        rcases hu with rfl | rfl <;> simp at h3 ⊢ <;> omega
      refine ⟨fun h => ?_, fun h => absurd hin h⟩
      rw [(hset _).1 h]

/-- C65.  An arithmetic operator with a NULL operand gives NULL. -/
theorem C65_null_arithmetic (x : Ext) (op : Op) {t : Ty} {n : Int} (h : IsInt t n) (hu : t = .i32 ∨ t = .i64) :
    evalArith x op (.of t (.int n)) (.null none) = .ok (.null t) ∧
    evalArith x op (.null none) (.of t (.int n)) = .ok (.null t) ∧
    evalArith x op (.null none) (.null none) = .ok (.null (some .i32)) := by
  rcases hu with rfl | rfl <;> exact ⟨rfl, rfl, rfl⟩

/-- C65.  Negation is exact: the result is an Int64 for an Int64 and otherwise an Int32, or an error if it does not
fit. -/
theorem C65_negate (x : Ext) {t : Ty} {n : Int} (h : IsInt t n) :
    ∃ u, u = (if t = .i64 then Ty.i64 else .i32) ∧
      (IsInt u (-n) → evalNegate x (.of t (.int n)) = .ok (.of u (.int (-n)))) ∧
      (¬ IsInt u (-n) → evalNegate x (.of t (.int n)) = .error .value) := by
  refine ⟨_, rfl, ?_⟩
  have z : ∀ u : Ty, setInt u (0 - n) = setInt u (-n) := by intro u; rw [Int.zero_sub]
  rcases h with ⟨rfl, h1, h2⟩ | ⟨rfl, h1, h2⟩ | ⟨rfl, h1, h2⟩ | ⟨rfl, h1, h2⟩
  · have c : castTo x .i32 (.of .byte (.int n)) = setInt .i32 n := rfl
    have e : setInt .i32 n = .ok (.of .i32 (.int n)) := by simp only [setInt, intRange]; rw [if_neg (by omega)]
    have : evalNegate x (.of .byte (.int n)) = setInt .i32 (0 - n) := by
      unfold evalNegate; simp only [Value.of] at c e ⊢; simp [c, e, bind, Except.bind]
    rw [this, z]
    simp only [setInt, intRange, IsInt]
    refine ⟨fun _ => by rw [if_neg (by omega)]; rfl, fun hn => by exfalso; apply hn; simp; omega⟩
  · have c : castTo x .i32 (.of .i16 (.int n)) = setInt .i32 n := rfl
    have e : setInt .i32 n = .ok (.of .i32 (.int n)) := by simp only [setInt, intRange]; rw [if_neg (by omega)]
    have : evalNegate x (.of .i16 (.int n)) = setInt .i32 (0 - n) := by
      unfold evalNegate; simp only [Value.of] at c e ⊢; simp [c, e, bind, Except.bind]
    rw [this, z]
    simp only [setInt, intRange, IsInt]
    refine ⟨fun _ => by rw [if_neg (by omega)]; rfl, fun hn => by exfalso; apply hn; simp; omega⟩
  · have : evalNegate x (.of .i32 (.int n)) = setInt .i32 (0 - n) := rfl
    rw [this, z]
    simp only [setInt, intRange, IsInt]
    refine ⟨fun h => ?_, fun h => ?_⟩
    · simp at h; rw [if_neg (by omega)]; rfl
    · simp at h; rw [if_pos (by omega)]
  · have : evalNegate x (.of .i64 (.int n)) = setInt .i64 (0 - n) := rfl
    rw [this, z]
    simp only [setInt, intRange, IsInt]
    refine ⟨fun h => ?_, fun h => ?_⟩
    · simp at h; rw [if_neg (by omega)]; rfl
    · simp at h; rw [if_pos (by omega)]

/-- Non-vacuity: 7 div -2 and an overflow. -/
example (x : Ext) : evalArith x .div (.of .byte (.int 7)) (.of .i32 (.int (-2))) = .ok (.of .i32 (.int (-3))) ∧
    evalArith x .mul (.of .i32 (.int 65536)) (.of .i32 (.int 65536)) = .error .value := by
  constructor
  · have := C65_integer_arithmetic_partial x .div (by simp) (s := .byte) (t := .i32) (u := .i32) (m := 7) (n := -2)
      (by unfold IsInt; simp) (by unfold IsInt; simp) rfl (.inl rfl) (fun _ => by decide)
    exact this.1 (by unfold IsInt; decide)
  · have := C65_integer_arithmetic_partial x .mul (by simp) (s := .i32) (t := .i32) (u := .i32) (m := 65536) (n := 65536)
      (by unfold IsInt; simp) (by unfold IsInt; simp) rfl (.inl rfl) (fun h => by simp at h)
    exact this.2 (by unfold IsInt; decide)

/-- Violation: Int64 division and remainder lose precision: 9007199254740993 div 1 is 9007199254740992, and
9007199254740993 mod 2 is 0. -/
theorem C65_int64_division_violation (x : Ext) :
    evalArith x .div (.of .i64 (.int 9007199254740993)) (.of .i64 (.int 1)) = .ok (.of .i64 (.int 9007199254740992)) ∧
    evalArith x .mod (.of .i64 (.int 9007199254740993)) (.of .i64 (.int 2)) = .ok (.of .i64 (.int 0)) := by
  have r1 : rnd ((1 : ℤ) : Rat) = ((1 : ℤ) : Rat) := rnd_int (by norm_num)
  have r2 : rnd ((2 : ℤ) : Rat) = ((2 : ℤ) : Rat) := rnd_int (by norm_num)
  have rb : rnd ((9007199254740992 : ℤ) : Rat) = ((9007199254740992 : ℤ) : Rat) := rnd_int (by norm_num)
  have h1 : intDiv 9007199254740993 1 = 9007199254740992 := by
    unfold intDiv
    rw [rnd_big, r1]
    have : ((9007199254740992 : ℤ) : Rat) / ((1 : ℤ) : Rat) = ((9007199254740992 : ℤ) : Rat) := by norm_num
    rw [this, rb, trunc_int]
  have h2 : intMod 9007199254740993 2 = 0 := by
    unfold intMod fmod
    rw [rnd_big, r2, trunc_frac 9007199254740992 (b := 2) (by norm_num)]
    have : (((9007199254740992 : ℤ) : Rat) - ((2 : ℤ) : Rat) * (((9007199254740992 : ℤ).tdiv 2 : ℤ) : Rat)) = ((0 : ℤ) : Rat) := by
      have : (9007199254740992 : ℤ).tdiv 2 = 4503599627370496 := by decide
      rw [this]; norm_num
    rw [this, trunc_int]
  constructor
  · show arithOp x .div .i64 (.int 9007199254740993) (.int 1) = _
    simp only [arithOp, h1]
    rfl
  · show arithOp x .mod .i64 (.int 9007199254740993) (.int 2) = _
    simp only [arithOp, h2]
    rfl

end Verif.OData

import Verif.Sql.C84
import Verif.OData.Eval
/-!
# C86: a filter that SQLite applies selects the entities that satisfy the OData expression

The values and operators of SQLite (https://sqlite.org/lang_expr.html) are a specification of the environment.
-/
namespace Verif.Sql
open Verif.OData

/-- A value in SQLite; `other` stands for reals and blobs. -/
inductive SqlVal where
  | null
  | int (n : Int)
  | text (s : Str)
  | other
deriving DecidableEq, Repr

/-- The conversions of SQLite that are not specified here: the numeric value of a text, the text of a number. -/
structure Conv where
  num : Str → Int
  str : SqlVal → Str

/-- The truth value: `none` is unknown. -/
def truth (k : Conv) : SqlVal → Option Bool
  | .null => none
  | .int n => some (n != 0)
  | .text s => some (k.num s != 0)
  | .other => some true

/-- A truth value as a value. -/
def ofTruth : Option Bool → SqlVal
  | none => .null
  | some true => .int 1
  | some false => .int 0

/-- AND in three-valued logic. -/
def and3 : Option Bool → Option Bool → Option Bool
  | some false, _ | _, some false => some false
  | some true, some true => some true
  | _, _ => none

/-- OR in three-valued logic. -/
def or3 : Option Bool → Option Bool → Option Bool
  | some true, _ | _, some true => some true
  | some false, some false => some false
  | _, _ => none

/-- The order of the values that are not NULL: numbers before texts, texts by code points. -/
def valLt : SqlVal → SqlVal → Bool
  | .int m, .int n => m < n
  | .text s, .text t => s < t
  | .int _, .text _ => true
  | _, _ => false

/-- A comparison: unknown if one of the operands is NULL. -/
def compare3 (f : SqlVal → SqlVal → Bool) : SqlVal → SqlVal → Option Bool
  | .null, _ | _, .null => none
  | a, b => some (f a b)

/-- Arithmetic on 64-bit integers; a result out of range becomes a real. -/
def arith3 (f : Int → Int → Int) : SqlVal → SqlVal → SqlVal
  | .null, _ | _, .null => .null
  | .int m, .int n =>
    if f m n < -9223372036854775808 ∨ f m n > 9223372036854775807 then .other else .int (f m n)
  | _, _ => .other

/-- Concatenation. -/
def concat3 (k : Conv) : SqlVal → SqlVal → SqlVal
  | .null, _ | _, .null => .null
  | a, b => .text (txt a ++ txt b)
where
  /-- the operand as a text -/
  txt : SqlVal → Str
    | .text s => s
    | v => k.str v

/-- The value that is sent for a parameter, `prepare_sql_value`, sqlds.py:5137-5153, 5488-5500: a Boolean becomes
the integer 0 or 1. -/
def paramVal : Val → SqlVal
  | .null => .null
  | .bool b => .int (if b then 1 else 0)
  | .byte n => .int n
  | .sbyte n | .i16 n | .i32 n | .i64 n => .int n
  | .str s => .text s
  | _ => .other

/-- What SQLite makes of an expression for a row of the table.  LIKE and the functions are arbitrary. -/
def sqlite (k : Conv) (like : SqlVal → SqlVal → SqlVal) (fn1 : Method → SqlVal → SqlVal)
    (fn2 : Method → SqlVal → SqlVal → SqlVal) (row : Str → SqlVal) : Sem SqlVal where
  bin o a b := match o with
    | .or => ofTruth (or3 (truth k a) (truth k b))
    | .and => ofTruth (and3 (truth k a) (truth k b))
    | .eq => ofTruth (compare3 (fun a b => a == b) a b)
    | .ne => ofTruth (compare3 (fun a b => a != b) a b)
    | .lt => ofTruth (compare3 valLt a b)
    | .gt => ofTruth (compare3 (fun a b => valLt b a) a b)
    | .le => ofTruth (compare3 (fun a b => !valLt b a) a b)
    | .ge => ofTruth (compare3 (fun a b => !valLt a b) a b)
    | .add => arith3 (· + ·) a b
    | .sub => arith3 (· - ·) a b
    | .mul => arith3 (· * ·) a b
    | .div => .other
    | .concat => concat3 k a b
    | .like => like a b
  fn1 := fn1
  fn2 := fn2
  col := row
  val := paramVal
  pct := .text [37]

theorem truth_ofTruth (k : Conv) (b : Option Bool) : truth k (ofTruth b) = b := by
  rcases b with _ | _ | _ <;> rfl

theorem and3_assoc (a b c : Option Bool) : and3 (and3 a b) c = and3 a (and3 b c) := by
  rcases a with _ | _ | _ <;> rcases b with _ | _ | _ <;> rcases c with _ | _ | _ <;> rfl

theorem or3_assoc (a b c : Option Bool) : or3 (or3 a b) c = or3 a (or3 b c) := by
  rcases a with _ | _ | _ <;> rcases b with _ | _ | _ <;> rcases c with _ | _ | _ <;> rfl

theorem concat3_assoc (k : Conv) (a b c : SqlVal) : concat3 k (concat3 k a b) c = concat3 k a (concat3 k b c) := by
  cases a <;> cases b <;> cases c <;> simp [concat3, concat3.txt]

theorem sqlite_assoc (k : Conv) (like fn1 fn2 row) : (sqlite k like fn1 fn2 row).Assoc where
  and a b c := by
    show ofTruth (and3 (truth k (ofTruth _)) _) = ofTruth (and3 _ (truth k (ofTruth _)))
    rw [truth_ofTruth, truth_ofTruth, and3_assoc]
  or a b c := by
    show ofTruth (or3 (truth k (ofTruth _)) _) = ofTruth (or3 _ (truth k (ofTruth _)))
    rw [truth_ofTruth, truth_ofTruth, or3_assoc]
  concat a b c := concat3_assoc k a b c

/-- `WHERE` keeps a row when the condition is true. -/
def selected (k : Conv) (v : SqlVal) : Prop := truth k v = some true

/-! ### Values on both sides -/

/-- An integer type. -/
def isInt (t : Ty) : Bool := (intRange t).isSome

/-- The SQL value `d` stands for the OData value `v`: the same integer (in the 64-bit range) or string, NULL for
null; a Boolean is true exactly when the SQL value is. -/
inductive Agree (k : Conv) : Value → SqlVal → Prop where
  | int {t n} : isInt t = true → -9223372036854775808 ≤ n → n ≤ 9223372036854775807 →
      Agree k (.of t (.int n)) (.int n)
  | intNull {t} : isInt t = true → Agree k (.null (some t)) .null
  | text {s} : Agree k (.of .string (.text s)) (.text s)
  | textNull : Agree k (.null (some .string)) .null
  | bool {b d} : (selected k d ↔ b = true) → Agree k (.of .boolean (.bool b)) d

/-- The expressions of the property: properties, integer, string and Boolean literals, addition, subtraction,
multiplication, comparisons, `and` and `or`. -/
inductive Core : Expr → Prop where
  | prop (n : Str) : Core (.prop n)
  | bool (b : Bool) : Core (.lit (.bool b))
  | i32 (n : Int) : -2147483648 ≤ n → n ≤ 2147483647 → Core (.lit (.i32 n))
  | i64 (n : Int) : -9223372036854775808 ≤ n → n ≤ 9223372036854775807 → Core (.lit (.i64 n))
  | str (s : Str) : Core (.lit (.str s))
  | node {op : Op} {a b : Expr} : op ∈ [Op.add, .sub, .mul, .lt, .gt, .le, .ge, .eq, .ne, .and, .or] →
      Core a → Core b → Core (.node op [a, b])

/-- The value of the expression is not null. -/
def NotNull (x : Ext) (ent : Str → Option Value) (e : Expr) : Prop := ∀ v, eval x ent e = .ok v → v.v ≠ none

/-- No `eq` compares null with null, and no `ne` has a null operand. -/
inductive EqSafe (x : Ext) (ent : Str → Option Value) : Expr → Prop where
  | prop (n : Str) : EqSafe x ent (.prop n)
  | lit (v : Val) : EqSafe x ent (.lit v)
  | node {op : Op} {a b : Expr} : EqSafe x ent a → EqSafe x ent b →
      (op = .eq → NotNull x ent a ∨ NotNull x ent b) → (op = .ne → NotNull x ent a ∧ NotNull x ent b) →
      EqSafe x ent (.node op [a, b])

/-- The row holds the entity. -/
def RowOf (k : Conv) (cols : Cols) (row : Str → SqlVal) (ent : Str → Option Value) : Prop :=
  ∀ n v, ent n = some v → ∃ c, cols [n] = some c ∧ Agree k v (row c)

/-! ### Proofs -/

theorem intRange_le (t : Ty) (lo hi n : Int) (h : intRange t = some (lo, hi)) (h1 : ¬ (n < lo ∨ n > hi)) :
    -9223372036854775808 ≤ n ∧ n ≤ 9223372036854775807 := by
  cases t <;> simp only [intRange, reduceCtorEq, Option.some.injEq, Prod.mk.injEq] at h <;> omega

theorem setInt_ok {t : Ty} {n : Int} {v : Value} (h : setInt t n = .ok v) :
    v = .of t (.int n) ∧ isInt t = true ∧ -9223372036854775808 ≤ n ∧ n ≤ 9223372036854775807 := by
  unfold setInt at h
  cases hr : intRange t with
  | none => rw [hr] at h; exact absurd h (by simp)
  | some r =>
    obtain ⟨lo, hi⟩ := r
    rw [hr] at h
    dsimp only at h
    by_cases hb : n < lo ∨ n > hi
    · rw [if_pos hb] at h; exact absurd h (by simp)
    · rw [if_neg hb] at h
      exact ⟨(Except.ok.inj h).symm, by rw [isInt, hr]; rfl, intRange_le t lo hi n hr hb⟩

/-- The datum of an integer value. -/
def IntLike (v : Value) (d : SqlVal) : Prop :=
  (∃ t n, isInt t = true ∧ v = .of t (.int n) ∧ d = .int n ∧ -9223372036854775808 ≤ n ∧ n ≤ 9223372036854775807) ∨
  (∃ t, isInt t = true ∧ v = .null (some t) ∧ d = .null)

theorem castTo_int {x : Ext} {t : Ty} {v w : Value} {d : SqlVal} (ht : isInt t = true) (hv : IntLike v d)
    (h : castTo x t v = .ok w) :
    (∃ n, w.v = some (.int n) ∧ d = .int n) ∨ (w.v = none ∧ d = .null) := by
  unfold castTo at h
  by_cases hty : v.ty = some t
  · rw [if_pos hty] at h
    have := Except.ok.inj h; subst this
    rcases hv with ⟨t', n, _, rfl, rfl, _⟩ | ⟨t', _, rfl, rfl⟩
    · exact .inl ⟨n, rfl, rfl⟩
    · exact .inr ⟨rfl, rfl⟩
  · rw [if_neg hty] at h
    rcases hv with ⟨t', n, _, rfl, rfl, _⟩ | ⟨t', _, rfl, rfl⟩
    · dsimp only [Value.of] at h
      have hi : (intRange t).isSome = true := ht
      rw [if_pos hi] at h
      obtain ⟨rfl, _⟩ := setInt_ok h
      exact .inl ⟨n, rfl, rfl⟩
    · dsimp only [Value.null] at h
      have := Except.ok.inj h; subst this
      exact .inr ⟨rfl, rfl⟩

/-- Values of the types of the property. -/
theorem agree_cases {k : Conv} {v : Value} {d : SqlVal} (h : Agree k v d) :
    (IntLike v d) ∨
    (v.ty = some .string ∧ ((∃ s, v.v = some (.text s) ∧ d = .text s) ∨ (v.v = none ∧ d = .null))) ∨
    (∃ b, v = .of .boolean (.bool b) ∧ (selected k d ↔ b = true)) := by
  cases h with
  | @int t n ht h1 h2 => exact .inl (.inl ⟨t, n, ht, rfl, rfl, h1, h2⟩)
  | @intNull t ht => exact .inl (.inr ⟨t, ht, rfl, rfl⟩)
  | @text s => exact .inr (.inl ⟨rfl, .inl ⟨s, rfl, rfl⟩⟩)
  | textNull => exact .inr (.inl ⟨rfl, .inr ⟨rfl, rfl⟩⟩)
  | @bool b d hb => exact .inr (.inr ⟨b, rfl, hb⟩)

theorem intLike_ty {v : Value} {d : SqlVal} (h : IntLike v d) : ∃ t, isInt t = true ∧ v.ty = some t := by
  rcases h with ⟨t, n, ht, rfl, _⟩ | ⟨t, ht, rfl, _⟩
  · exact ⟨t, ht, rfl⟩
  · exact ⟨t, ht, rfl⟩

theorem isInt_cases {t : Ty} (h : isInt t = true) : t = .byte ∨ t = .sbyte ∨ t = .i16 ∨ t = .i32 ∨ t = .i64 := by
  cases t <;> first | (exfalso; revert h; decide) | simp

theorem promote_int {a b : Ty} {r : Option Ty} (ha : isInt a = true) (hb : isInt b = true)
    (h : promote (some a) (some b) = .ok r) : r = none ∨ ∃ t, r = some t ∧ isInt t = true := by
  rcases isInt_cases ha with rfl | rfl | rfl | rfl | rfl <;>
    rcases isInt_cases hb with rfl | rfl | rfl | rfl | rfl <;>
    simp [promote, numericTypes] at h <;> subst h <;> simp [isInt, intRange]

/-- Mixed types: the promotion fails unless both are integers or the types are equal. -/
theorem promote_int_other {a b : Ty} (ha : isInt a = true) (hb : b = .string ∨ b = .boolean) :
    promote (some a) (some b) = .error .eval ∧ promote (some b) (some a) = .error .eval := by
  rcases isInt_cases ha with rfl | rfl | rfl | rfl | rfl <;> rcases hb with rfl | rfl <;> exact ⟨rfl, rfl⟩

theorem promote_same (a : Ty) : promote (some a) (some a) = .ok (some a) := by simp [promote]

theorem promote_str_bool : promote (some .string) (some .boolean) = .error .eval ∧
    promote (some .boolean) (some .string) = .error .eval := ⟨rfl, rfl⟩

/-- The kinds of a pair of operands for which the types can be promoted. -/
theorem promote_kinds {k : Conv} {v w : Value} {d e : SqlVal} (hv : Agree k v d) (hw : Agree k w e) {r : Option Ty}
    (h : promote v.ty w.ty = .ok r) :
    (IntLike v d ∧ IntLike w e ∧ (r = none ∨ ∃ t, r = some t ∧ isInt t = true)) ∨
    (r = some .string ∧ ((∃ s, v.v = some (.text s) ∧ d = .text s) ∨ (v.v = none ∧ d = .null)) ∧
      ((∃ s, w.v = some (.text s) ∧ e = .text s) ∨ (w.v = none ∧ e = .null))) ∨
    (r = some .boolean ∧ ∃ b c, v = .of .boolean (.bool b) ∧ w = .of .boolean (.bool c) ∧
      (selected k d ↔ b = true) ∧ (selected k e ↔ c = true)) := by
  rcases agree_cases hv with hi | ⟨ht, hs⟩ | ⟨b, rfl, hb⟩
  · obtain ⟨a, ha, hta⟩ := intLike_ty hi
    rcases agree_cases hw with hj | ⟨ht', hs'⟩ | ⟨c, rfl, hc⟩
    · obtain ⟨a', ha', hta'⟩ := intLike_ty hj
      rw [hta, hta'] at h
      exact .inl ⟨hi, hj, promote_int ha ha' h⟩
    · rw [hta, ht', (promote_int_other ha (.inl rfl)).1] at h; exact absurd h (by simp)
    · rw [hta] at h
      dsimp only [Value.of] at h
      rw [(promote_int_other ha (.inr rfl)).1] at h; exact absurd h (by simp)
  · rcases agree_cases hw with hj | ⟨ht', hs'⟩ | ⟨c, rfl, hc⟩
    · obtain ⟨a', ha', hta'⟩ := intLike_ty hj
      rw [ht, hta', (promote_int_other ha' (.inl rfl)).2] at h; exact absurd h (by simp)
    · rw [ht, ht', promote_same] at h
      exact .inr (.inl ⟨(Except.ok.inj h).symm, hs, hs'⟩)
    · rw [ht] at h
      dsimp only [Value.of] at h
      rw [promote_str_bool.1] at h; exact absurd h (by simp)
  · rcases agree_cases hw with hj | ⟨ht', hs'⟩ | ⟨c, rfl, hc⟩
    · obtain ⟨a', ha', hta'⟩ := intLike_ty hj
      rw [hta'] at h
      dsimp only [Value.of] at h
      rw [(promote_int_other ha' (.inr rfl)).2] at h; exact absurd h (by simp)
    · rw [ht'] at h
      dsimp only [Value.of] at h
      rw [promote_str_bool.2] at h; exact absurd h (by simp)
    · dsimp only [Value.of] at h
      rw [promote_same] at h
      exact .inr (.inr ⟨(Except.ok.inj h).symm, b, c, rfl, rfl, hb, hc⟩)

theorem ok_bind {α β : Type} (a : α) (f : α → Except Err β) : (Except.ok a >>= f) = f a := rfl

theorem bind_ok {α β : Type} {m : Except Err α} {f : α → Except Err β} {b : β} (h : (m >>= f) = .ok b) :
    ∃ a, m = .ok a ∧ f a = .ok b := by
  cases m with
  | error e => exact absurd h (by simp [bind, Except.bind])
  | ok a => exact ⟨a, rfl, h⟩

variable {k : Conv} {x : Ext} {v w : Value} {d e : SqlVal}

/-- The operation of an arithmetic operator. -/
def arithFn : Op → Int → Int → Int
  | .add => (· + ·)
  | .sub => (· - ·)
  | _ => (· * ·)

theorem arith3_int (f : Int → Int → Int) (m n : Int)
    (h : -9223372036854775808 ≤ f m n ∧ f m n ≤ 9223372036854775807) :
    arith3 f (.int m) (.int n) = .int (f m n) := by
  unfold arith3
  dsimp only
  rw [if_neg (by omega)]

theorem arith3_null_left (f : Int → Int → Int) (e : SqlVal) : arith3 f .null e = .null := by cases e <;> rfl

theorem arith_agree {op : Op} {u : Value} (hop : op = .add ∨ op = .sub ∨ op = .mul) (hv : Agree k v d)
    (hw : Agree k w e) (h : evalArith x op v w = .ok u) :
    Agree k u (arith3 (arithFn op) d e) := by
  unfold evalArith at h
  obtain ⟨r, hr, h⟩ := bind_ok h
  rcases promote_kinds hv hw hr with ⟨hi, hj, rfl | ⟨t, rfl, ht⟩⟩ | ⟨rfl, _⟩ | ⟨rfl, _⟩
  · obtain ⟨ta, ha, hta⟩ := intLike_ty hi
    obtain ⟨tb, hb, htb⟩ := intLike_ty hj
    rw [hta, htb] at hr
    exfalso
    revert hr
    rcases isInt_cases ha with rfl | rfl | rfl | rfl | rfl <;>
      rcases isInt_cases hb with rfl | rfl | rfl | rfl | rfl <;> decide
  · dsimp only at h
    by_cases hm : t ∈ arithTypes
    · rw [if_pos hm] at h
      obtain ⟨a, ha, h⟩ := bind_ok h
      obtain ⟨b, hb, h⟩ := bind_ok h
      rcases castTo_int ht hi ha with ⟨m, e1, rfl⟩ | ⟨e1, rfl⟩
      · rcases castTo_int ht hj hb with ⟨n, e2, rfl⟩ | ⟨e2, rfl⟩
        · rw [e1, e2] at h
          dsimp only [arithOp] at h
          have h2 : t = .i32 ∨ t = .i64 := by
            rcases isInt_cases ht with rfl | rfl | rfl | rfl | rfl <;> first | (exfalso; revert hm; decide) | simp
          rw [if_pos h2] at h
          rcases hop with rfl | rfl | rfl
          · obtain ⟨rfl, h3, h4, h5⟩ := setInt_ok h
            rw [arith3_int (arithFn .add) m n ⟨h4, h5⟩]
            exact .int h3 h4 h5
          · obtain ⟨rfl, h3, h4, h5⟩ := setInt_ok h
            rw [arith3_int (arithFn .sub) m n ⟨h4, h5⟩]
            exact .int h3 h4 h5
          · obtain ⟨rfl, h3, h4, h5⟩ := setInt_ok h
            rw [arith3_int (arithFn .mul) m n ⟨h4, h5⟩]
            exact .int h3 h4 h5
        · rw [e1, e2] at h
          have := Except.ok.inj h; subst this
          rcases hop with rfl | rfl | rfl <;> exact .intNull ht
      · rw [e1] at h
        have : u = .null (some t) := by
          cases hb2 : b.v <;> rw [hb2] at h <;> exact (Except.ok.inj h).symm
        subst this
        rw [arith3_null_left]; exact .intNull ht
    · rw [if_neg hm] at h; exact absurd h (by simp [throw, throwThe, MonadExceptOf.throw])
  · dsimp only at h
    rw [if_neg (by decide)] at h; exact absurd h (by simp [throw, throwThe, MonadExceptOf.throw])
  · dsimp only at h
    rw [if_neg (by decide)] at h; exact absurd h (by simp [throw, throwThe, MonadExceptOf.throw])

theorem selected_ofTruth (b : Option Bool) : selected k (ofTruth b) ↔ b = some true := by
  unfold selected; rw [truth_ofTruth]

/-- The SQL comparison of an OData operator. -/
def sqlCmp : Op → SqlVal → SqlVal → Bool
  | .lt => valLt
  | .gt => fun a b => valLt b a
  | .le => fun a b => !valLt b a
  | .ge => fun a b => !valLt a b
  | .ne => fun a b => a != b
  | _ => fun a b => a == b

theorem sqlCmp_int (op : Op) (hop : op ∈ [Op.lt, .gt, .le, .ge, .eq]) (m n : Int) :
    sqlCmp op (.int m) (.int n) = relOp x op (.int m) (.int n) := by
  simp only [List.mem_cons, List.not_mem_nil, or_false] at hop
  rcases hop with rfl | rfl | rfl | rfl | rfl <;> simp only [sqlCmp, valLt, relOp]
  · by_cases h : n < m
    · simp [h, Int.not_le.mpr h]
    · simp [h, Int.not_lt.mp h]
  · by_cases h : m < n
    · simp [h, Int.not_le.mpr h]
    · simp [h, Int.not_lt.mp h]
  · by_cases h : m = n
    · simp [h]
    · simp [h]

theorem sqlCmp_text (op : Op) (hop : op ∈ [Op.lt, .gt, .le, .ge, .eq]) (s t : Str) :
    sqlCmp op (.text s) (.text t) = relOp x op (.text s) (.text t) := by
  simp only [List.mem_cons, List.not_mem_nil, or_false] at hop
  rcases hop with rfl | rfl | rfl | rfl | rfl <;> simp only [sqlCmp, valLt, relOp]
  by_cases h : s = t
  · simp [h]
  · simp [h]

theorem agree_bool {b : Bool} {o : Option Bool} (h : o = some true ↔ b = true) : Agree k (boolVal b) (ofTruth o) :=
  .bool ((selected_ofTruth o).trans h)

theorem rel_agree {op : Op} {u : Value} (hop : op ∈ [Op.lt, .gt, .le, .ge]) (hv : Agree k v d)
    (hw : Agree k w e) (h : evalRel x op v w = .ok u) : Agree k u (ofTruth (compare3 (sqlCmp op) d e)) := by
  have hop' : op ∈ [Op.lt, .gt, .le, .ge, .eq] := by
    simp only [List.mem_cons, List.not_mem_nil, or_false] at hop ⊢; tauto
  unfold evalRel at h
  obtain ⟨r, hr, h⟩ := bind_ok h
  rcases promote_kinds hv hw hr with ⟨hi, hj, rfl | ⟨t, rfl, ht⟩⟩ | ⟨rfl, h1, h2⟩ | ⟨rfl, _⟩
  · obtain ⟨ta, ha, hta⟩ := intLike_ty hi
    obtain ⟨tb, hb, htb⟩ := intLike_ty hj
    rw [hta, htb] at hr
    exfalso
    revert hr
    rcases isInt_cases ha with rfl | rfl | rfl | rfl | rfl <;>
      rcases isInt_cases hb with rfl | rfl | rfl | rfl | rfl <;> decide
  · dsimp only at h
    by_cases hm : t ∈ arithTypes
    · rw [if_pos hm] at h
      obtain ⟨a, ha, h⟩ := bind_ok h
      obtain ⟨b, hb, h⟩ := bind_ok h
      rcases castTo_int ht hi ha with ⟨m, e1, rfl⟩ | ⟨e1, rfl⟩
      · rcases castTo_int ht hj hb with ⟨n, e2, rfl⟩ | ⟨e2, rfl⟩
        · rw [e1, e2] at h
          have := Except.ok.inj h; subst this
          apply agree_bool
          show some (sqlCmp op (.int m) (.int n)) = some true ↔ _
          rw [sqlCmp_int (x := x) op hop', Option.some.injEq]
        · rw [e1, e2] at h
          have := Except.ok.inj h; subst this
          exact agree_bool (by simp [compare3])
      · rw [e1] at h
        have : u = boolVal false := by
          cases hb2 : b.v <;> rw [hb2] at h <;> exact (Except.ok.inj h).symm
        subst this
        exact agree_bool (by simp [compare3])
    · rw [if_neg hm, if_neg (by rcases isInt_cases ht with rfl | rfl | rfl | rfl | rfl <;> decide)] at h
      exact absurd h (by simp [throw, throwThe, MonadExceptOf.throw])
  · dsimp only at h
    rw [if_neg (by decide), if_pos (by decide)] at h
    rcases h1 with ⟨s, e1, rfl⟩ | ⟨e1, rfl⟩
    · rcases h2 with ⟨t, e2, rfl⟩ | ⟨e2, rfl⟩
      · rw [e1, e2] at h
        have := Except.ok.inj h; subst this
        apply agree_bool
        show some (sqlCmp op (.text s) (.text t)) = some true ↔ _
        rw [sqlCmp_text (x := x) op hop', Option.some.injEq]
      · rw [e1, e2] at h; exact absurd h (by simp [throw, throwThe, MonadExceptOf.throw])
    · rw [e1] at h; exact absurd h (by simp [throw, throwThe, MonadExceptOf.throw])
  · dsimp only at h
    rw [if_neg (by decide), if_neg (by decide)] at h
    exact absurd h (by simp [throw, throwThe, MonadExceptOf.throw])

theorem castTo_null {t : Ty} {v u : Value} (h : castTo x t v = .ok u) : u.v = none ↔ v.v = none := by
  unfold castTo at h
  by_cases hty : v.ty = some t
  · rw [if_pos hty] at h
    have := Except.ok.inj h; subst this; rfl
  · rw [if_neg hty] at h
    cases hv : v.v with
    | none => rw [hv] at h; have := Except.ok.inj h; subst this; simp [Value.null]
    | some d =>
      rw [hv] at h
      dsimp only at h
      by_cases hi : (intRange t).isSome = true
      · rw [if_pos hi] at h
        cases d with
        | int n => obtain ⟨rfl, _⟩ := setInt_ok h; simp [Value.of]
        | _ => exact absurd h (by simp)
      · rw [if_neg hi] at h
        cases hc : x.conv t d with
        | error z => rw [hc] at h; exact absurd h (by simp [Except.map])
        | ok z => rw [hc] at h; have := Except.ok.inj h; subst this; simp [Value.of]

/-- `eq` gives the result of the SQL comparison, unknown counting as false, unless both operands are null. -/
theorem eq_agree {r : Bool} (hv : Agree k v d) (hw : Agree k w e) (h : evalEq x v w = .ok r)
    (hn : v.v ≠ none ∨ w.v ≠ none) : (compare3 (sqlCmp .eq) d e = some true ↔ r = true) ∧
      (v.v ≠ none ∧ w.v ≠ none → compare3 (sqlCmp .ne) d e = some (!r)) := by
  unfold evalEq at h
  obtain ⟨q, hr, h⟩ := bind_ok h
  rcases promote_kinds hv hw hr with ⟨hi, hj, rfl | ⟨t, rfl, ht⟩⟩ | ⟨rfl, h1, h2⟩ | ⟨rfl, _⟩
  · obtain ⟨ta, ha, hta⟩ := intLike_ty hi
    obtain ⟨tb, hb, htb⟩ := intLike_ty hj
    rw [hta, htb] at hr
    exfalso
    revert hr
    rcases isInt_cases ha with rfl | rfl | rfl | rfl | rfl <;>
      rcases isInt_cases hb with rfl | rfl | rfl | rfl | rfl <;> decide
  · dsimp only at h
    by_cases hm : t ∈ arithTypes
    · rw [if_pos hm] at h
      obtain ⟨a, ha, h⟩ := bind_ok h
      obtain ⟨b, hb, h⟩ := bind_ok h
      have na := castTo_null ha
      have nb := castTo_null hb
      have := Except.ok.inj h; subst this
      rcases castTo_int ht hi ha with ⟨m, e1, rfl⟩ | ⟨e1, rfl⟩
      · rcases castTo_int ht hj hb with ⟨n, e2, rfl⟩ | ⟨e2, rfl⟩
        · rw [e1, e2]
          refine ⟨?_, fun _ => ?_⟩
          · show some (sqlCmp .eq (.int m) (.int n)) = some true ↔ relOp x .eq (.int m) (.int n) = true
            rw [sqlCmp_int (x := x) .eq (by decide), Option.some.injEq]
          · show some (SqlVal.int m != SqlVal.int n) = some (!(relOp x .eq (.int m) (.int n)))
            rw [← sqlCmp_int (x := x) .eq (by decide)]; rfl
        · rw [e1, e2]
          exact ⟨by simp [compare3, optEq], fun hh => absurd (nb.mp e2) hh.2⟩
      · have hw' : w.v ≠ none := hn.resolve_left fun hh => hh (na.mp e1)
        have hb' : b.v ≠ none := fun hh => hw' (nb.mp hh)
        rw [e1]
        refine ⟨?_, fun hh => absurd (na.mp e1) hh.1⟩
        cases hbv : b.v with
        | none => exact absurd hbv hb'
        | some z => simp [compare3, optEq]
    · rw [if_neg hm, if_neg (by rcases isInt_cases ht with rfl | rfl | rfl | rfl | rfl <;> decide)] at h
      exact absurd h (by simp [throw, throwThe, MonadExceptOf.throw])
  · dsimp only at h
    rw [if_neg (by decide), if_pos (by decide)] at h
    have := Except.ok.inj h; subst this
    rcases h1 with ⟨s, e1, rfl⟩ | ⟨e1, rfl⟩
    · rcases h2 with ⟨t, e2, rfl⟩ | ⟨e2, rfl⟩
      · rw [e1, e2]
        refine ⟨?_, fun _ => ?_⟩
        · show some (sqlCmp .eq (.text s) (.text t)) = some true ↔ relOp x .eq (.text s) (.text t) = true
          rw [sqlCmp_text (x := x) .eq (by decide), Option.some.injEq]
        · show some (SqlVal.text s != SqlVal.text t) = some (!(relOp x .eq (.text s) (.text t)))
          rw [← sqlCmp_text (x := x) .eq (by decide)]; rfl
      · rw [e1, e2]
        exact ⟨by simp [compare3, optEq], fun hh => absurd rfl hh.2⟩
    · have hw' : w.v ≠ none := hn.resolve_left fun hh => hh e1
      rw [e1]
      refine ⟨?_, fun hh => absurd rfl hh.1⟩
      cases hbv : w.v with
      | none => exact absurd hbv hw'
      | some z => simp [compare3, optEq]
  · dsimp only at h
    rw [if_neg (by decide), if_neg (by decide)] at h
    exact absurd h (by simp [throw, throwThe, MonadExceptOf.throw])

theorem logic_agree {op : Op} {u : Value} (hop : op = .and ∨ op = .or) (hv : Agree k v d) (hw : Agree k w e)
    (h : evalLogic op v w = .ok u) :
    Agree k u (ofTruth ((if op = .and then and3 else or3) (truth k d) (truth k e))) := by
  unfold evalLogic at h
  obtain ⟨q, hr, h⟩ := bind_ok h
  rcases promote_kinds hv hw hr with ⟨hi, hj, rfl | ⟨t, rfl, ht⟩⟩ | ⟨rfl, h1, h2⟩ | ⟨rfl, b, c, rfl, rfl, h1, h2⟩
  · obtain ⟨ta, ha, hta⟩ := intLike_ty hi
    obtain ⟨tb, hb, htb⟩ := intLike_ty hj
    rw [hta, htb] at hr
    exfalso
    revert hr
    rcases isInt_cases ha with rfl | rfl | rfl | rfl | rfl <;>
      rcases isInt_cases hb with rfl | rfl | rfl | rfl | rfl <;> decide
  · exfalso
    rcases isInt_cases ht with rfl | rfl | rfl | rfl | rfl <;>
      exact absurd h (by simp [throw, throwThe, MonadExceptOf.throw])
  · exact absurd h (by simp [throw, throwThe, MonadExceptOf.throw])
  · have := Except.ok.inj h; subst this
    unfold selected at h1 h2
    apply agree_bool
    rcases hop with rfl | rfl
    · rw [if_pos rfl, if_pos rfl]
      show _ ↔ (b && c) = true
      cases hd : truth k d with
      | none => cases b <;> simp [hd] at h1 <;> cases he : truth k e with
        | none => simp [and3]
        | some z => cases z <;> simp [and3]
      | some y => cases he : truth k e with
        | none => cases c <;> simp [he] at h2; cases y <;> simp [and3]
        | some z =>
          rw [hd] at h1; rw [he] at h2
          cases y <;> cases z <;> cases b <;> cases c <;> simp_all [and3]
    · rw [if_neg (by decide), if_neg (by decide)]
      show _ ↔ (b || c) = true
      cases hd : truth k d with
      | none => cases he : truth k e with
        | none => rw [hd] at h1; rw [he] at h2; cases b <;> cases c <;> simp_all [or3]
        | some z => rw [hd] at h1; rw [he] at h2; cases z <;> cases b <;> cases c <;> simp_all [or3]
      | some y => cases he : truth k e with
        | none => rw [hd] at h1; rw [he] at h2; cases y <;> cases b <;> cases c <;> simp_all [or3]
        | some z =>
          rw [hd] at h1; rw [he] at h2
          cases y <;> cases z <;> cases b <;> cases c <;> simp_all [or3]

theorem core_agree {cols : Cols} {ent : Str → Option Value} {row : Str → SqlVal} {like fn1 fn2} (hrow : RowOf k cols row ent)
    {ex : Expr} (hc : Core ex) : ∀ {v : Value}, EqSafe x ent ex → eval x ent ex = .ok v →
      ∃ d, den (sqlite k like fn1 fn2 row) cols ex = some d ∧ Agree k v d := by
  induction hc with
  | prop n =>
    intro v _ h
    simp only [eval] at h
    cases he : ent n with
    | none => rw [he] at h; exact absurd h (by simp)
    | some v' =>
      rw [he] at h
      have := Except.ok.inj h; subst this
      obtain ⟨c, h1, h2⟩ := hrow n v' he
      exact ⟨row c, by simp [den, h1, sqlite], h2⟩
  | bool b =>
    intro v _ h
    have := Except.ok.inj h; subst this
    refine ⟨.int (if b then 1 else 0), rfl, .bool ?_⟩
    cases b <;> simp [selected, truth]
  | i32 n h1 h2 =>
    intro v _ h
    have := Except.ok.inj h; subst this
    exact ⟨.int n, rfl, .int rfl (by omega) (by omega)⟩
  | i64 n h1 h2 =>
    intro v _ h
    have := Except.ok.inj h; subst this
    exact ⟨.int n, rfl, .int rfl (by omega) (by omega)⟩
  | str s =>
    intro v _ h
    have := Except.ok.inj h; subst this
    exact ⟨.text s, rfl, .text⟩
  | @node op a b hop _ _ iha ihb =>
    intro u hs h
    cases hs with
    | node sa sb heq hne =>
    simp only [eval, evalList] at h
    obtain ⟨vs, hvs, h⟩ := bind_ok h
    obtain ⟨va, hva, hvs⟩ := bind_ok hvs
    obtain ⟨rest, hrest, hvs⟩ := bind_ok hvs
    obtain ⟨vb, hvb, hrest⟩ := bind_ok hrest
    obtain ⟨z, hnil, hrest⟩ := bind_ok hrest
    have := Except.ok.inj hnil; subst this
    have := Except.ok.inj hrest; subst this
    have := Except.ok.inj hvs; subst this
    obtain ⟨da, hda, aa⟩ := iha sa hva
    obtain ⟨db, hdb, ab⟩ := ihb sb hvb
    have hden : ∀ o, bopOf op = some o → den (sqlite k like fn1 fn2 row) cols (.node op [a, b])
        = some ((sqlite k like fn1 fn2 row).bin o da db) := by
      intro o ho
      show nodeDen _ cols op _ (dens _ cols [a, b]) = _
      simp only [dens, hda, hdb]
      exact nodeDen_bop ho _ _ _ _
    simp only [List.mem_cons, List.not_mem_nil, or_false] at hop
    rcases hop with rfl | rfl | rfl | rfl | rfl | rfl | rfl | rfl | rfl | rfl | rfl
    · exact ⟨_, hden _ rfl, arith_agree (.inl rfl) aa ab h⟩
    · exact ⟨_, hden _ rfl, arith_agree (.inr (.inl rfl)) aa ab h⟩
    · exact ⟨_, hden _ rfl, arith_agree (.inr (.inr rfl)) aa ab h⟩
    · exact ⟨_, hden _ rfl, rel_agree (by decide) aa ab h⟩
    · exact ⟨_, hden _ rfl, rel_agree (by decide) aa ab h⟩
    · exact ⟨_, hden _ rfl, rel_agree (by decide) aa ab h⟩
    · exact ⟨_, hden _ rfl, rel_agree (by decide) aa ab h⟩
    · refine ⟨_, hden _ rfl, ?_⟩
      change (evalEq x va vb).map boolVal = .ok u at h
      cases hq : evalEq x va vb with
      | error z => rw [hq] at h; exact absurd h (by simp [Except.map])
      | ok r =>
        rw [hq] at h
        have := Except.ok.inj h; subst this
        have hn : va.v ≠ none ∨ vb.v ≠ none := (heq rfl).imp (fun f => f va hva) (fun f => f vb hvb)
        exact agree_bool (eq_agree aa ab hq hn).1
    · refine ⟨_, hden _ rfl, ?_⟩
      change (evalEq x va vb).map (fun r => boolVal (!r)) = .ok u at h
      cases hq : evalEq x va vb with
      | error z => rw [hq] at h; exact absurd h (by simp [Except.map])
      | ok r =>
        rw [hq] at h
        have := Except.ok.inj h; subst this
        have hn : va.v ≠ none ∧ vb.v ≠ none := ⟨(hne rfl).1 va hva, (hne rfl).2 vb hvb⟩
        have := (eq_agree aa ab hq (.inl hn.1)).2 hn
        refine agree_bool ?_
        change compare3 (sqlCmp .ne) da db = some true ↔ _
        rw [this, Option.some.injEq]
    · exact ⟨_, hden _ rfl, logic_agree (.inl rfl) aa ab h⟩
    · exact ⟨_, hden _ rfl, logic_agree (.inr rfl) aa ab h⟩

/-- **C86** (for filters made of the operators of `Core`, with nested operators that the translation writes
correctly, that do not compare null with `eq` or `ne`; the violations below show that the rest fails).  If the
filter has a value for an entity, then SQLite keeps the row of the entity exactly when this value is true. -/
theorem C86_filter_partial (k : Conv) (x : Ext) (cols : Cols) (ent : Str → Option Value) (row : Str → SqlVal) (like fn1 fn2)
    (hrow : RowOf k cols row ent) (e : Expr) (hc : Core e) (hn : wellNested e = true) (hs : EqSafe x ent e) (b : Bool)
    (hb : checkFilter x ent e = some b) (ts : List Tok) (vs : List Val)
    (h : sqlExpr positional cols e defaultCtx [] = some (ts, vs)) :
    ∃ a, Derives 0 (bindPos vs ts) a ∧ (∀ a', Derives 0 (bindPos vs ts) a' → a' = a) ∧
      (selected k (a.den (sqlite k like fn1 fn2 row)) ↔ b = true) := by
  obtain ⟨a, h1, h2, h3⟩ := C84_meaning_partial (sqlite_assoc k like fn1 fn2 row) cols e hn defaultCtx ts vs h
  refine ⟨a, h1, h2, ?_⟩
  unfold checkFilter at hb
  cases hv : eval x ent e with
  | error z => rw [hv] at hb; exact absurd hb (by simp)
  | ok v =>
    rw [hv] at hb
    dsimp only at hb
    by_cases ht : v.ty = some .boolean
    · rw [if_pos ht] at hb
      obtain ⟨d, hd, ha⟩ := core_agree (like := like) (fn1 := fn1) (fn2 := fn2) hrow hc hs hv
      rw [h3] at hd
      have := Option.some.inj hd; subst this
      rcases agree_cases ha with hi | ⟨ht', _⟩ | ⟨c, rfl, hsel⟩
      · obtain ⟨t, hti, hty⟩ := intLike_ty hi
        rw [ht] at hty
        have := Option.some.inj hty; subst this
        exact absurd hti (by decide)
      · rw [ht] at ht'; exact absurd ht' (by decide)
      · rw [hsel]
        have : asBool (some (.bool c)) = b := Option.some.inj hb
        rw [← this]; rfl
    · rw [if_neg ht] at hb; exact absurd hb (by simp)

/-- **C86** Such a filter can always be sent: it is never refused by the translation when it has a value. -/
theorem C86_translated (P : Params) (cols : Cols) (ent : Str → Option Value) (row : Str → SqlVal) (k : Conv) (x : Ext)
    (hrow : RowOf k cols row ent) (e : Expr) (hc : Core e) : ∀ (v : Value) (ctx : Nat) (ps : P.State),
    eval x ent e = .ok v → ∃ ts ps', sqlExpr P cols e ctx ps = some (ts, ps') := by
  induction hc with
  | prop n =>
    intro v ctx ps h
    simp only [eval] at h
    cases he : ent n with
    | none => rw [he] at h; exact absurd h (by simp)
    | some v' =>
      obtain ⟨c, h1, _⟩ := hrow n v' he
      exact ⟨[.col c], ps, by simp [sqlExpr, h1]⟩
  | bool b => intro v ctx ps _; exact ⟨_, _, rfl⟩
  | i32 n _ _ => intro v ctx ps _; exact ⟨_, _, rfl⟩
  | i64 n _ _ => intro v ctx ps _; exact ⟨_, _, rfl⟩
  | str s => intro v ctx ps _; exact ⟨_, _, rfl⟩
  | @node op a b hop _ _ iha ihb =>
    intro u ctx ps h
    simp only [eval, evalList] at h
    obtain ⟨vs, hvs, h⟩ := bind_ok h
    obtain ⟨va, hva, hvs⟩ := bind_ok hvs
    obtain ⟨rest, hrest, hvs⟩ := bind_ok hvs
    obtain ⟨vb, hvb, hrest⟩ := bind_ok hrest
    have ho : ∃ o, bopOf op = some o := by
      simp only [List.mem_cons, List.not_mem_nil, or_false] at hop
      rcases hop with rfl | rfl | rfl | rfl | rfl | rfl | rfl | rfl | rfl | rfl | rfl <;> exact ⟨_, rfl⟩
    obtain ⟨o, ho⟩ := ho
    show ∃ ts ps', sqlNode cols op _ [sqlExpr P cols a, sqlExpr P cols b] ctx ps = some (ts, ps')
    rw [sqlNode_bop ho]
    obtain ⟨t, ps1, h1⟩ := iha va o.prec ps hva
    obtain ⟨u, ps2, h2⟩ := ihb vb o.prec ps1 hvb
    unfold binary
    rw [h1]; dsimp only; rw [h2]
    exact ⟨_, _, rfl⟩

/-! ### Examples and violations -/

/-- A conversion for the examples. -/
def exConv : Conv := ⟨fun _ => 0, fun _ => []⟩

/-- An entity with `x` = 5 and `n` = null. -/
def exEnt : Str → Option Value := fun n =>
  if n = [120] then some (.of .i32 (.int 5)) else if n = [110] then some (.null (some .string)) else none

/-- Its row. -/
def exRow : Str → SqlVal := fun n => if n = [120] then .int 5 else .null

/-- `x add 1 gt 3 and x lt 10`. -/
def exCore : Expr := .node .and [.node .gt [.node .add [.prop [120], .lit (.i32 1)], .lit (.i32 3)],
  .node .lt [.prop [120], .lit (.i32 10)]]

/-- Non-vacuity: the row holds the entity, the filter is in the fragment, and its value is true. -/
example (x : Ext) : RowOf exConv idCols exRow exEnt ∧ Core exCore ∧ wellNested exCore = true ∧ EqSafe x exEnt exCore ∧
    checkFilter x exEnt exCore = some true := by
  refine ⟨?_, ?_, by decide +kernel, ?_, rfl⟩
  · intro n v h
    unfold exEnt at h
    by_cases h1 : n = [120]
    · subst h1
      have := Option.some.inj h; subst this
      exact ⟨[120], rfl, .int rfl (by decide) (by decide)⟩
    · rw [if_neg h1] at h
      by_cases h2 : n = [110]
      · subst h2
        have := Option.some.inj h; subst this
        exact ⟨[110], rfl, .textNull⟩
      · rw [if_neg h2] at h; exact absurd h (by simp)
  · refine .node (by decide) (.node (by decide) (.node (by decide) (.prop _) (.i32 _ ?_ ?_)) (.i32 _ ?_ ?_))
      (.node (by decide) (.prop _) (.i32 _ ?_ ?_)) <;> decide
  · refine .node (.node (.node (.prop _) (.lit _) ?_ ?_) (.lit _) ?_ ?_) (.node (.prop _) (.lit _) ?_ ?_) ?_ ?_ <;>
      intro h <;> exact absurd h (by decide)

/-- **C86 fails** for `n eq null`: the text is `n = ?` with the parameter NULL, which is never true. -/
theorem C86_violation_eq_null (x : Ext) (like fn1 fn2) :
    let e := Expr.node .eq [.prop [110], .lit .null]
    checkFilter x exEnt e = some true ∧
    sqlExpr positional idCols e defaultCtx [] = some ([.col [110], .op .eq, .ph none], [.null]) ∧
    ∃ a, Derives 0 (bindPos [.null] [.col [110], .op .eq, .ph none]) a ∧
      ¬ selected exConv (a.den (sqlite exConv like fn1 fn2 exRow)) := by
  refine ⟨rfl, by decide +kernel, .bin .eq (.col [110]) (.val .null), ?_, ?_⟩
  · exact .bin (ts := [.col [110]]) (us := [.val .null]) .eq (Nat.zero_le _) (.col _) (.val _)
  · show ¬ truth exConv (ofTruth (compare3 (fun a b => a == b) .null .null)) = some true
    decide

/-- **C86 fails** for `n ne 'a'` when `n` is null: OData says that it is true, SQL that it is unknown. -/
theorem C86_violation_ne (x : Ext) (like fn1 fn2) :
    let e := Expr.node .ne [.prop [110], .lit (.str [97])]
    checkFilter x exEnt e = some true ∧
    sqlExpr positional idCols e defaultCtx [] = some ([.col [110], .op .ne, .ph none], [.str [97]]) ∧
    ∃ a, Derives 0 (bindPos [.str [97]] [.col [110], .op .ne, .ph none]) a ∧
      ¬ selected exConv (a.den (sqlite exConv like fn1 fn2 exRow)) := by
  refine ⟨rfl, by decide +kernel, .bin .ne (.col [110]) (.val (.str [97])), ?_, ?_⟩
  · exact .bin (ts := [.col [110]]) (us := [.val (.str [97])]) .ne (Nat.zero_le _) (.col _) (.val _)
  · show ¬ truth exConv (ofTruth (compare3 (fun a b => a != b) .null (.text [97]))) = some true
    decide

end Verif.Sql

import Verif.OData.EvalProps
/-!
# C66, C67: filters and string methods
-/
namespace Verif.OData

/-! ### C66: filters are two-valued -/

/-- A logical combination of filters. -/
inductive Formula where
  | atom (e : Expr)
  | not (f : Formula)
  | and (f g : Formula)
  | or (f g : Formula)

/-- The expression. -/
def Formula.expr : Formula → Expr
  | .atom e => e
  | .not f => .node .not [f.expr]
  | .and f g => .node .and [f.expr, g.expr]
  | .or f g => .node .or [f.expr, g.expr]

/-- Truth under an assignment of truth values to the atoms. -/
def Formula.holds (val : Expr → Bool) : Formula → Bool
  | .atom e => val e
  | .not f => !f.holds val
  | .and f g => f.holds val && g.holds val
  | .or f g => f.holds val || g.holds val

/-- The atoms. -/
def Formula.atoms : Formula → List Expr
  | .atom e => [e]
  | .not f => f.atoms
  | .and f g => f.atoms ++ g.atoms
  | .or f g => f.atoms ++ g.atoms

theorem formula_eval (x : Ext) (entity : Str → Option Value) (val : Expr → Bool) (f : Formula)
    (h : ∀ e ∈ f.atoms, eval x entity e = .ok (boolVal (val e))) :
    eval x entity f.expr = .ok (boolVal (f.holds val)) := by
  induction f with
  | atom e => exact h e (List.mem_singleton.2 rfl)
  | not f ih =>
    have := ih h
    show eval x entity (.node .not [f.expr]) = _
    rw [eval, evalList, this]
    rfl
  | and f g ihf ihg =>
    have h1 := ihf (fun e he => h e (List.mem_append_left _ he))
    have h2 := ihg (fun e he => h e (List.mem_append_right _ he))
    show eval x entity (.node .and [f.expr, g.expr]) = _
    rw [eval, evalList, h1, evalList, h2]
    rfl
  | or f g ihf ihg =>
    have h1 := ihf (fun e he => h e (List.mem_append_left _ he))
    have h2 := ihg (fun e he => h e (List.mem_append_right _ he))
    show eval x entity (.node .or [f.expr, g.expr]) = _
    rw [eval, evalList, h1, evalList, h2]
    rfl

/-- C66.  A filter built with and, or and not from parts that are true or false for an entity accepts the entity
exactly when the formula holds. -/
theorem C66_filter_logic (x : Ext) (entity : Str → Option Value) (val : Expr → Bool) (f : Formula)
    (h : ∀ e ∈ f.atoms, eval x entity e = .ok (boolVal (val e))) :
    checkFilter x entity f.expr = some (f.holds val) := by
  unfold checkFilter
  rw [formula_eval x entity val f h]
  rfl

/-- A comparison. -/
def isComparison (op : Op) : Bool :=
  match op with
  | .eq | .ne | .lt | .le | .gt | .ge => true
  | _ => false

/-- C66.  A comparison that can be evaluated is true or false, never NULL, even if operands are NULL. -/
theorem C66_comparison_two_valued (x : Ext) (entity : Str → Option Value) (op : Op) (h : isComparison op = true) (l r : Expr)
    {v : Value} (hv : eval x entity (.node op [l, r]) = .ok v) : ∃ b, v = boolVal b := by
  rw [eval, evalList] at hv
  cases hl : eval x entity l with
  | error e => rw [hl] at hv; cases hv
  | ok a =>
    rw [hl, evalList] at hv
    cases hr : eval x entity r with
    | error e => rw [hr] at hv; cases hv
    | ok b =>
      rw [hr] at hv
      have rel : ∀ {op}, evalRel x op a b = .ok v → ∃ b, v = boolVal b := by
        intro op he
        unfold evalRel at he
        cases hp : promote a.ty b.ty with
        | error e => rw [hp] at he; cases he
        | ok t =>
          rw [hp] at he
          cases t with
          | none => cases he; exact ⟨_, rfl⟩
          | some t =>
            simp only [Bind.bind, Except.bind, Pure.pure, Except.pure] at he
            by_cases ht : t ∈ arithTypes
            · rw [if_pos ht] at he
              cases h1 : castTo x t a <;> rw [h1] at he <;> try cases he
              cases h2 : castTo x t b <;> rw [h2] at he <;> try cases he
              dsimp only at he
              split at he <;> cases he <;> exact ⟨_, rfl⟩
            · rw [if_neg ht] at he
              split at he
              · split at he
                · cases he; exact ⟨_, rfl⟩
                · cases he
              · cases he
      have eqc : ∀ (g : Bool → Value), (∀ b, ∃ c, g b = boolVal c) → (evalEq x a b).map g = .ok v → ∃ b, v = boolVal b := by
        intro g hg he
        cases h1 : evalEq x a b with
        | error e => rw [h1] at he; cases he
        | ok c => rw [h1] at he; cases he; exact hg c
      cases op <;> first
        | (cases h; done)
        | exact rel hv
        | exact eqc _ (fun b => ⟨_, rfl⟩) hv

/-- C66.  Integers of any two types (at least one of them Int32 or Int64) are compared by value. -/
theorem C66_integer_comparison (x : Ext) {s t u : Ty} {m n : Int} (hm : IsInt s m) (hn : IsInt t n)
    (hw : wider s t = some u) (hu : u = .i32 ∨ u = .i64) :
    evalBinary x .eq (.of s (.int m)) (.of t (.int n)) = .ok (boolVal (m = n)) ∧
    evalBinary x .ne (.of s (.int m)) (.of t (.int n)) = .ok (boolVal (m ≠ n)) ∧
    evalBinary x .lt (.of s (.int m)) (.of t (.int n)) = .ok (boolVal (m < n)) ∧
    evalBinary x .le (.of s (.int m)) (.of t (.int n)) = .ok (boolVal (m ≤ n)) ∧
    evalBinary x .gt (.of s (.int m)) (.of t (.int n)) = .ok (boolVal (m > n)) ∧
    evalBinary x .ge (.of s (.int m)) (.of t (.int n)) = .ok (boolVal (m ≥ n)) := by
  have hp : promote (some s) (some t) = .ok (some u) := by rw [(C64_promotion s t).1, hw]
  have c1 := castTo_int x hm hw hu
  have c2 := castTo_int x hn (by rw [wider_comm]; exact hw) hu
  have hmem : u ∈ arithTypes := by rcases hu with rfl | rfl <;> decide
  have rel : ∀ op, evalRel x op (.of s (.int m)) (.of t (.int n)) = .ok (boolVal (relOp x op (.int m) (.int n))) := by
    intro op
    unfold evalRel
    show (promote (some s) (some t) >>= _) = _
    rw [hp]
    show (if u ∈ arithTypes then _ else _) = _
    rw [if_pos hmem, c1.1, c2.1]
    rfl
  have eqv : evalEq x (.of s (.int m)) (.of t (.int n)) = .ok (m == n) := by
    unfold evalEq
    show (promote (some s) (some t) >>= _) = _
    rw [hp]
    show (if u ∈ arithTypes then _ else _) = _
    rw [if_pos hmem, c1.1, c2.1]
    rfl
  refine ⟨?_, ?_, rel _, rel _, rel _, rel _⟩
  · show (evalEq x _ _).map boolVal = _
    rw [eqv]
    simp [Except.map, beq_eq_decide]
  · show (evalEq x _ _).map _ = _
    rw [eqv]
    simp [Except.map, beq_eq_decide]

/-- C66.  Strings are compared by code points, in lexicographic order. -/
theorem C66_string_comparison (x : Ext) (s t : Str) :
    evalBinary x .eq (.of .string (.text s)) (.of .string (.text t)) = .ok (boolVal (s = t)) ∧
    evalBinary x .ne (.of .string (.text s)) (.of .string (.text t)) = .ok (boolVal (s ≠ t)) ∧
    evalBinary x .lt (.of .string (.text s)) (.of .string (.text t)) = .ok (boolVal (s < t)) ∧
    evalBinary x .gt (.of .string (.text s)) (.of .string (.text t)) = .ok (boolVal (t < s)) ∧
    evalBinary x .le (.of .string (.text s)) (.of .string (.text t)) = .ok (boolVal (¬ t < s)) ∧
    evalBinary x .ge (.of .string (.text s)) (.of .string (.text t)) = .ok (boolVal (¬ s < t)) := by
  refine ⟨?_, ?_, rfl, rfl, ?_, ?_⟩
  · show Except.ok (boolVal (s == t)) = _
    simp [beq_eq_decide]
  · show Except.ok (boolVal (!(s == t))) = _
    simp [beq_eq_decide]
  · show Except.ok (boolVal (!decide (t < s))) = _
    rw [← decide_not]
  · show Except.ok (boolVal (!decide (s < t))) = _
    rw [← decide_not]

/-- C66.  A number is not equal to, nor greater nor less than null; null equals null. -/
theorem C66_null_comparison (x : Ext) {t : Ty} (n : Int) (hu : t = .i32 ∨ t = .i64) :
    evalBinary x .eq (.of t (.int n)) (.null none) = .ok (boolVal false) ∧
    evalBinary x .ne (.of t (.int n)) (.null none) = .ok (boolVal true) ∧
    evalBinary x .lt (.of t (.int n)) (.null none) = .ok (boolVal false) ∧
    evalBinary x .ge (.of t (.int n)) (.null none) = .ok (boolVal false) ∧
    evalBinary x .eq (.null (some t)) (.null none) = .ok (boolVal true) ∧
    evalBinary x .eq (.null none) (.null none) = .ok (boolVal true) := by
  rcases hu with rfl | rfl <;> exact ⟨rfl, rfl, rfl, rfl, rfl, rfl⟩

/-- Violation: ordering a string against null raises a TypeError instead of being false. -/
theorem C66_string_null_violation (x : Ext) (s : Str) :
    evalBinary x .lt (.of .string (.text s)) (.null none) = .error .type ∧
    evalBinary x .eq (.of .string (.text s)) (.null none) = .ok (boolVal false) := ⟨rfl, rfl⟩

/-- Violation: with a NULL operand, or is false even if the other operand is true. -/
theorem C66_or_null_violation : evalLogic .or (.null (some .boolean)) (boolVal true) = .ok (boolVal false) := rfl

/-- Non-vacuity: a filter on an entity whose property A is 3: not (A lt 2) and (A eq 3 or A gt 5). -/
example (x : Ext) : ∃ f : Formula, f.atoms.length = 3 ∧
    checkFilter x (fun n => if n = chars "A" then some (.of .i32 (.int 3)) else none) f.expr = some true := by
  refine ⟨.and (.not (.atom (.node .lt [.prop (chars "A"), .lit (.i32 2)])))
    (.or (.atom (.node .eq [.prop (chars "A"), .lit (.i32 3)])) (.atom (.node .gt [.prop (chars "A"), .lit (.i32 5)]))), rfl, ?_⟩
  rfl

/-! ### C67: string methods -/

theorem find_spec (p : Str) : ∀ s : Str,
    (find p s = -1 ∧ ∀ u v, s ≠ u ++ p ++ v) ∨
    (∃ k : Nat, find p s = k ∧ (∃ v, s = s.take k ++ p ++ v) ∧ k ≤ s.length ∧ ∀ u v, s = u ++ p ++ v → k ≤ u.length) := by
  intro s
  induction s with
  | nil =>
    by_cases hp : p = []
    · right
      exact ⟨0, by simp [find, hp], ⟨[], by simp [hp]⟩, by simp, by simp⟩
    · left
      refine ⟨by simp [find, hp], ?_⟩
      intro u v h
      have := congrArg List.length h
      simp at h
      exact hp h.2.1
  | cons c s ih =>
    by_cases hp : p.isPrefixOf (c :: s) = true
    · right
      refine ⟨0, by simp [find, hp], ?_, by simp, by simp⟩
      obtain ⟨v, hv⟩ := List.isPrefixOf_iff_prefix.1 hp
      exact ⟨v, by simp [hv]⟩
    · have hnp : ∀ v, c :: s ≠ p ++ v := by
        intro v hv
        exact hp (List.isPrefixOf_iff_prefix.2 ⟨v, hv.symm⟩)
      rcases ih with ⟨h1, h2⟩ | ⟨k, h1, ⟨v, h2⟩, h3, h4⟩
      · left
        refine ⟨?_, ?_⟩
        · rw [find, if_neg hp, h1]; rfl
        · intro u v h
          cases u with
          | nil => exact hnp v (by simpa using h)
          | cons d u =>
            simp only [List.cons_append, List.cons.injEq] at h
            exact h2 u v h.2
      · right
        refine ⟨k + 1, ?_, ⟨v, ?_⟩, by simp; omega, ?_⟩
        · rw [find, if_neg hp, h1]
          have : ((k : Int) ≠ -1) := by omega
          split
          · rename_i heq; exact absurd heq this
          · rfl
        · conv => lhs; rw [h2]
          simp
        · intro u v h
          cases u with
          | nil => exact absurd (by simpa using h) (hnp v)
          | cons d u =>
            simp only [List.cons_append, List.cons.injEq] at h
            have := h4 u v h.2
            simp; omega

/-- A string value. -/
def strVal (s : Str) : Value := .of .string (.text s)

/-- C67.  The string methods mean what their names say. -/
theorem C67_string_methods (x : Ext) (p s : Str) :
    (∃ b, evalCall x .substringof [strVal p, strVal s] = .ok (boolVal b) ∧ (b = true ↔ ∃ u v, s = u ++ p ++ v)) ∧
    (∃ b, evalCall x .startswith [strVal s, strVal p] = .ok (boolVal b) ∧ (b = true ↔ ∃ v, s = p ++ v)) ∧
    (∃ b, evalCall x .endswith [strVal s, strVal p] = .ok (boolVal b) ∧ (b = true ↔ ∃ u, s = u ++ p)) ∧
    evalCall x .concat [strVal s, strVal p] = .ok (strVal (s ++ p)) ∧
    (s.length ≤ 2147483647 → evalCall x .length [strVal s] = .ok (.of .i32 (.int s.length))) := by
  refine ⟨⟨_, rfl, ?_⟩, ⟨_, rfl, ?_⟩, ⟨_, rfl, ?_⟩, rfl, ?_⟩
  · rw [decide_eq_true_iff]
    rcases find_spec p s with ⟨h1, h2⟩ | ⟨k, h1, ⟨v, h2⟩, -⟩
    · rw [h1]
      constructor
      · intro h; omega
      · rintro ⟨u, v, h⟩; exact absurd h (h2 u v)
    · rw [h1]
      exact ⟨fun _ => ⟨_, _, h2⟩, fun _ => by omega⟩
  · rw [List.isPrefixOf_iff_prefix]
    exact ⟨fun ⟨v, h⟩ => ⟨v, h.symm⟩, fun ⟨v, h⟩ => ⟨v, h.symm⟩⟩
  · rw [List.isSuffixOf_iff_suffix]
    exact ⟨fun ⟨v, h⟩ => ⟨v, h.symm⟩, fun ⟨v, h⟩ => ⟨v, h.symm⟩⟩
  · intro h
    show setInt .i32 s.length = _
    simp only [setInt, intRange]
    rw [if_neg (by omega)]

/-- C67.  indexof is the first position at which the text occurs, or -1 if it does not. -/
theorem C67_indexof (x : Ext) (p s : Str) (hs : s.length ≤ 2147483647) :
    (∃ k : Nat, evalCall x .indexof [strVal s, strVal p] = .ok (.of .i32 (.int k)) ∧
      (∃ u v, u.length = k ∧ s = u ++ p ++ v) ∧ ∀ u v, s = u ++ p ++ v → k ≤ u.length) ∨
    (evalCall x .indexof [strVal s, strVal p] = .ok (.of .i32 (.int (-1))) ∧ ∀ u v, s ≠ u ++ p ++ v) := by
  have e : evalCall x .indexof [strVal s, strVal p] = setInt .i32 (find p s) := rfl
  rw [e]
  rcases find_spec p s with ⟨h1, h2⟩ | ⟨k, h1, ⟨v, h2⟩, h3, h4⟩
  · right
    rw [h1]
    exact ⟨rfl, h2⟩
  · left
    refine ⟨k, ?_, ⟨s.take k, v, by simp [h3], h2⟩, h4⟩
    rw [h1]
    simp only [setInt, intRange]
    rw [if_neg (by omega)]

/-- C67.  substring counts characters from 0: for positions inside the text it is the text from the position on,
and at most `l` characters of it. -/
theorem C67_substring_partial (x : Ext) (s : Str) (i l : Nat) :
    evalCall x .substring [strVal s, .of .i32 (.int i)] = .ok (strVal (s.drop i)) ∧
    evalCall x .substring [strVal s, .of .i32 (.int i), .of .i32 (.int l)] = .ok (strVal ((s.drop i).take l)) := by
  have h1 : slice s i s.length = s.drop i := by
    unfold slice sliceIdx
    rw [if_neg (by omega), if_neg (by omega)]; simp
  have h2 : slice s i (i + l) = (s.drop i).take l := by
    unfold slice sliceIdx
    rw [if_neg (by omega), if_neg (by omega)]
    have : ((i : Int) + l).toNat = i + l := by omega
    rw [this, Int.toNat_natCast, List.take_drop, Nat.add_comm]
  constructor
  · show Except.ok (orNull .string (some (.text (slice s i s.length)))) = _
    rw [h1]; rfl
  · show Except.ok (orNull .string (some (.text (slice s i (i + l))))) = _
    rw [h2]; rfl

/-- C67.  A NULL argument gives a NULL result. -/
theorem C67_null_argument (x : Ext) (s : Str) (t : Option Ty) (ht : t = none ∨ t = some .string) :
    evalCall x .substringof [.null t, strVal s] = .ok (.null (some .boolean)) ∧
    evalCall x .startswith [.null t, strVal s] = .ok (.null (some .boolean)) ∧
    evalCall x .endswith [strVal s, .null t] = .ok (.null (some .boolean)) ∧
    evalCall x .indexof [.null t, strVal s] = .ok (.null (some .i32)) := by
  rcases ht with rfl | rfl <;> exact ⟨rfl, rfl, rfl, rfl⟩

/-- Violation: a negative start counts from the end of the text. -/
theorem C67_negative_start_violation (x : Ext) :
    evalCall x .substring [strVal (chars "abc"), .of .i32 (.int (-1))] = .ok (strVal (chars "c")) := rfl

/-- Non-vacuity. -/
example (x : Ext) : evalCall x .indexof [strVal (chars "banana"), strVal (chars "an")] = .ok (.of .i32 (.int 1)) := rfl

end Verif.OData

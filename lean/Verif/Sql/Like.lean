import Verif.Sql.Filter
/-!
# C87: the string methods of a filter, which SQL evaluates with LIKE
-/
namespace Verif.Sql
open Verif.OData

/-- The condition holds for some tail of the text. -/
def anyTail (f : Str → Bool) : Str → Bool
  | [] => f []
  | c :: s => f (c :: s) || anyTail f s

/-- `text LIKE pattern`: `%` (37) stands for any text and `_` (95) for any character; the other characters are
compared after `fold` (the identity, or ASCII case folding as in SQLite). -/
def likeMatch (fold : Nat → Nat) : Str → Str → Bool
  | [], s => s.isEmpty
  | p :: ps, s =>
    if p = 37 then anyTail (likeMatch fold ps) s
    else match s with
      | [] => false
      | c :: s => (p == 95 || fold p == fold c) && likeMatch fold ps s

/-- LIKE on values. -/
def likeVal (k : Conv) (fold : Nat → Nat) (a b : SqlVal) : SqlVal :=
  match a, b with
  | .null, _ | _, .null => .null
  | a, b => ofTruth (some (likeMatch fold (concat3.txt k b) (concat3.txt k a)))

/-- `POSITION(a IN b)`: the place, counted from 1, of the first occurrence of `a` in `b`, or 0. -/
def positionVal (k : Conv) (a b : SqlVal) : SqlVal :=
  match a, b with
  | .null, _ | _, .null => .null
  | a, b => .int (find (concat3.txt k a) (concat3.txt k b) + 1)

/-- A text without the characters that have a special meaning in a pattern. -/
def NoWild (p : Str) : Prop := ∀ c ∈ p, c ≠ 37 ∧ c ≠ 95

theorem anyTail_iff (f : Str → Bool) : ∀ s, anyTail f s = true ↔ ∃ u v, s = u ++ v ∧ f v = true
  | [] => by
    simp only [anyTail]
    constructor
    · intro h; exact ⟨[], [], rfl, h⟩
    · rintro ⟨u, v, h, hv⟩
      have := List.append_eq_nil_iff.mp h.symm
      rw [this.2] at hv; exact hv
  | c :: s => by
    simp only [anyTail, Bool.or_eq_true, anyTail_iff f s]
    constructor
    · rintro (h | ⟨u, v, rfl, hv⟩)
      · exact ⟨[], c :: s, rfl, h⟩
      · exact ⟨c :: u, v, rfl, hv⟩
    · rintro ⟨u, v, h, hv⟩
      cases u with
      | nil => left; rw [List.nil_append] at h; rw [h]; exact hv
      | cons d u =>
        right
        rw [List.cons_append] at h
        injection h with h1 h2
        exact ⟨u, v, h2, hv⟩

theorem likeMatch_cons (fold : Nat → Nat) (p : Nat) (ps s : Str) : likeMatch fold (p :: ps) s =
    if p = 37 then anyTail (likeMatch fold ps) s
    else match s with
      | [] => false
      | c :: s => (p == 95 || fold p == fold c) && likeMatch fold ps s := by
  cases s <;> rfl

/-- A pattern that begins with ordinary characters. -/
theorem likeMatch_append (fold : Nat → Nat) : ∀ (p q s : Str), NoWild p →
    (likeMatch fold (p ++ q) s = true ↔ ∃ u v, s = u ++ v ∧ u.map fold = p.map fold ∧ likeMatch fold q v = true)
  | [], q, s, _ => by
    constructor
    · intro h; exact ⟨[], s, rfl, rfl, h⟩
    · rintro ⟨u, v, rfl, hu, hv⟩
      have : u = [] := by simpa using hu
      subst this; exact hv
  | c :: p, q, s, h => by
    obtain ⟨h1, h2⟩ := h c (by simp)
    have ih := likeMatch_append fold p q
    rw [List.cons_append, likeMatch_cons, if_neg h1]
    cases s with
    | nil =>
      constructor
      · intro hh; exact absurd hh (by simp)
      · rintro ⟨u, v, hs, hu, hv⟩
        have := (List.append_eq_nil_iff.mp hs.symm).1
        subst this; exact absurd hu (by simp)
    | cons d s =>
      simp only [Bool.and_eq_true, Bool.or_eq_true, beq_iff_eq, h2, false_or]
      rw [ih s fun c' hc' => h c' (by simp [hc'])]
      constructor
      · rintro ⟨hcd, u, v, rfl, hu, hv⟩
        exact ⟨d :: u, v, rfl, by simp [hu, hcd], hv⟩
      · rintro ⟨u, v, hs, hu, hv⟩
        cases u with
        | nil => exact absurd hu (by simp)
        | cons d' u =>
          rw [List.cons_append] at hs
          injection hs with e1 e2
          simp only [List.map_cons, List.cons.injEq] at hu
          exact ⟨by rw [e1]; exact hu.1.symm, u, v, e2, hu.2, hv⟩

theorem likeMatch_pct (fold : Nat → Nat) (q s : Str) :
    likeMatch fold (37 :: q) s = true ↔ ∃ u v, s = u ++ v ∧ likeMatch fold q v = true := by
  rw [likeMatch_cons, if_pos rfl, anyTail_iff]

theorem likeMatch_nil (fold : Nat → Nat) (s : Str) : likeMatch fold [] s = true ↔ s = [] := by
  rw [likeMatch]; cases s <;> simp

/-- `s LIKE p || '%'` is a test for a prefix. -/
theorem like_startswith (fold : Nat → Nat) (p s : Str) (h : NoWild p) :
    likeMatch fold (p ++ [37]) s = true ↔ (p.map fold) <+: (s.map fold) := by
  rw [likeMatch_append fold p [37] s h]
  constructor
  · rintro ⟨u, v, rfl, hu, _⟩
    exact ⟨v.map fold, by rw [← hu, List.map_append]⟩
  · rintro ⟨t, ht⟩
    refine ⟨s.take p.length, s.drop p.length, (List.take_append_drop _ _).symm, ?_, ?_⟩
    · have := congrArg (List.take p.length) ht
      rw [← List.map_take, List.take_append_of_le_length (by simp), List.take_of_length_le (by simp)] at this
      exact this.symm
    · rw [likeMatch_pct]; exact ⟨_, [], (List.append_nil _).symm, by rw [likeMatch_nil]⟩

/-- `s LIKE '%' || p` is a test for a suffix. -/
theorem like_endswith (fold : Nat → Nat) (p s : Str) (h : NoWild p) :
    likeMatch fold (37 :: p) s = true ↔ (p.map fold) <:+ (s.map fold) := by
  rw [likeMatch_pct]
  constructor
  · rintro ⟨u, v, rfl, hv⟩
    have := (likeMatch_append fold p [] v h).mp (by rw [List.append_nil]; exact hv)
    obtain ⟨a, b, rfl, ha, hb⟩ := this
    rw [likeMatch_nil] at hb
    subst hb
    exact ⟨u.map fold, by rw [← ha]; simp⟩
  · rintro ⟨t, ht⟩
    refine ⟨s.take t.length, s.drop t.length, (List.take_append_drop _ _).symm, ?_⟩
    have h1 := (likeMatch_append fold p [] (s.drop t.length) h).mpr
      ⟨s.drop t.length, [], (List.append_nil _).symm, ?_, by rw [likeMatch_nil]⟩
    · rwa [List.append_nil] at h1
    · have := congrArg (List.drop t.length) ht
      rw [← List.map_drop, List.drop_left] at this
      exact this.symm

/-- `s LIKE '%' || p || '%'` is a test for a substring. -/
theorem like_substringof (fold : Nat → Nat) (p s : Str) (h : NoWild p) :
    likeMatch fold (37 :: (p ++ [37])) s = true ↔ (p.map fold) <:+: (s.map fold) := by
  rw [likeMatch_pct]
  constructor
  · rintro ⟨u, v, rfl, hv⟩
    obtain ⟨t, ht⟩ := (like_startswith fold p v h).mp hv
    exact ⟨u.map fold, t, by rw [List.map_append, ← ht]; simp⟩
  · rintro ⟨a, b, hab⟩
    refine ⟨s.take a.length, s.drop a.length, (List.take_append_drop _ _).symm, ?_⟩
    rw [like_startswith fold p _ h]
    refine ⟨b, ?_⟩
    have := congrArg (List.drop a.length) hab
    rw [← List.map_drop, List.append_assoc, List.drop_left] at this
    exact this

theorem find_ge (p : Str) : ∀ s, -1 ≤ find p s
  | [] => by unfold find; split <;> omega
  | c :: s => by
    have ih := find_ge p s
    unfold find
    split
    · omega
    · split
      · omega
      · omega

theorem find_cons (p : Str) (c : Nat) (s : Str) (h : p.isPrefixOf (c :: s) = false) :
    (0 ≤ find p (c :: s) ↔ 0 ≤ find p s) := by
  have := find_ge p s
  rw [find, h]
  simp only [Bool.false_eq_true, if_false]
  split
  · rename_i he; rw [he]
  · rename_i k hk
    have hk' : find p s ≠ -1 := hk
    omega

theorem find_infix (p : Str) : ∀ s, 0 ≤ find p s ↔ p <:+: s
  | [] => by
    rw [find]
    by_cases h : p = []
    · subst h; simp
    · rw [if_neg h]; simp [h]
  | c :: s => by
    cases hp : p.isPrefixOf (c :: s) with
    | true =>
      rw [find, hp, if_pos rfl]
      exact ⟨fun _ => (List.isPrefixOf_iff_prefix.mp hp).isInfix, fun _ => Int.le_refl 0⟩
    | false =>
      rw [find_cons p c s hp, find_infix p s, List.infix_cons_iff]
      constructor
      · exact .inr
      · rintro (h | h)
        · rw [List.isPrefixOf_iff_prefix.mpr h] at hp; exact absurd hp (by simp)
        · exact h

/-! ### The methods -/

variable {k : Conv} {x : Ext} {cols : Cols} {ent : Str → Option Value} {row : Str → SqlVal}

/-- SQLite with LIKE. -/
def sqliteLike (k : Conv) (fold : Nat → Nat) (row : Str → SqlVal) : Sem SqlVal :=
  sqlite k (likeVal k fold) (fun _ v => v) (fun _ => positionVal k) row

theorem eval_call2 (m : Method) {a b : Expr} {va vb : Value} (ha : eval x ent a = .ok va) (hb : eval x ent b = .ok vb) :
    eval x ent (.node (.call m) [a, b]) = evalCall x m [va, vb] := by
  simp only [eval, evalList, ha, hb]
  rfl

theorem strArg_text (s : Str) (b : Bool) : strArg b (.of .string (.text s)) = .ok (some s) := by
  simp [strArg, Value.of]

/-- **C87** (for a text without `%` and `_` and a database that distinguishes upper and lower case; what is missing
is shown by the violations below).  Where `startswith(a,b)` has a value, the SQL condition is true exactly when it
is. -/
theorem C87_startswith_partial (hrow : RowOf k cols row ent) (a b : Expr) (ha : Core a) (hb : Core b)
    (sa : EqSafe x ent a) (sb : EqSafe x ent b) (s p : Str) (ea : eval x ent a = .ok (.of .string (.text s)))
    (eb : eval x ent b = .ok (.of .string (.text p))) (hp : NoWild p) :
    ∃ d, den (sqliteLike k id row) cols (.node (.call .startswith) [a, b]) = some d ∧
      ∃ r, checkFilter x ent (.node (.call .startswith) [a, b]) = some r ∧ (selected k d ↔ r = true) ∧
        (r = true ↔ p <+: s) := by
  obtain ⟨da, hda, aa⟩ := core_agree (like := likeVal k id) (fn1 := fun _ v => v) (fn2 := fun _ => positionVal k) hrow ha sa ea
  obtain ⟨db, hdb, ab⟩ := core_agree (like := likeVal k id) (fn1 := fun _ v => v) (fn2 := fun _ => positionVal k) hrow hb sb eb
  have eda : da = .text s := by
    cases aa
    · rfl
  have edb : db = .text p := by
    cases ab
    · rfl
  subst eda; subst edb
  refine ⟨ofTruth (some (likeMatch id (p ++ [37]) s)), ?_, p.isPrefixOf s, ?_, ?_, List.isPrefixOf_iff_prefix⟩
  · show nodeDen _ cols (.call .startswith) none (dens _ cols [a, b]) = _
    simp only [dens]
    rw [show den (sqliteLike k id row) cols a = _ from hda, show den (sqliteLike k id row) cols b = _ from hdb]
    rfl
  · unfold checkFilter
    rw [eval_call2 .startswith ea eb]
    simp only [evalCall, strArg_text, ok_bind]
    rfl
  · rw [selected_ofTruth, Option.some.injEq, like_startswith id p s hp]
    simp [List.isPrefixOf_iff_prefix]

/-- **C87** The same for `endswith(a,b)`. -/
theorem C87_endswith_partial (hrow : RowOf k cols row ent) (a b : Expr) (ha : Core a) (hb : Core b)
    (sa : EqSafe x ent a) (sb : EqSafe x ent b) (s p : Str) (ea : eval x ent a = .ok (.of .string (.text s)))
    (eb : eval x ent b = .ok (.of .string (.text p))) (hp : NoWild p) :
    ∃ d, den (sqliteLike k id row) cols (.node (.call .endswith) [a, b]) = some d ∧
      ∃ r, checkFilter x ent (.node (.call .endswith) [a, b]) = some r ∧ (selected k d ↔ r = true) ∧
        (r = true ↔ p <:+ s) := by
  obtain ⟨da, hda, aa⟩ := core_agree (like := likeVal k id) (fn1 := fun _ v => v) (fn2 := fun _ => positionVal k) hrow ha sa ea
  obtain ⟨db, hdb, ab⟩ := core_agree (like := likeVal k id) (fn1 := fun _ v => v) (fn2 := fun _ => positionVal k) hrow hb sb eb
  have eda : da = .text s := by
    cases aa
    · rfl
  have edb : db = .text p := by
    cases ab
    · rfl
  subst eda; subst edb
  refine ⟨ofTruth (some (likeMatch id (37 :: p) s)), ?_, p.isSuffixOf s, ?_, ?_, List.isSuffixOf_iff_suffix⟩
  · show nodeDen _ cols (.call .endswith) none (dens _ cols [a, b]) = _
    simp only [dens]
    rw [show den (sqliteLike k id row) cols a = _ from hda, show den (sqliteLike k id row) cols b = _ from hdb]
    rfl
  · unfold checkFilter
    rw [eval_call2 .endswith ea eb]
    simp only [evalCall, strArg_text, ok_bind]
    rfl
  · rw [selected_ofTruth, Option.some.injEq, like_endswith id p s hp]
    simp [List.isSuffixOf_iff_suffix]

/-- **C87** The same for `substringof(a,b)`, which asks whether `a` occurs in `b`. -/
theorem C87_substringof_partial (hrow : RowOf k cols row ent) (a b : Expr) (ha : Core a) (hb : Core b)
    (sa : EqSafe x ent a) (sb : EqSafe x ent b) (p s : Str) (ea : eval x ent a = .ok (.of .string (.text p)))
    (eb : eval x ent b = .ok (.of .string (.text s))) (hp : NoWild p) :
    ∃ d, den (sqliteLike k id row) cols (.node (.call .substringof) [a, b]) = some d ∧
      ∃ r, checkFilter x ent (.node (.call .substringof) [a, b]) = some r ∧ (selected k d ↔ r = true) ∧
        (r = true ↔ p <:+: s) := by
  obtain ⟨da, hda, aa⟩ := core_agree (like := likeVal k id) (fn1 := fun _ v => v) (fn2 := fun _ => positionVal k) hrow ha sa ea
  obtain ⟨db, hdb, ab⟩ := core_agree (like := likeVal k id) (fn1 := fun _ v => v) (fn2 := fun _ => positionVal k) hrow hb sb eb
  have eda : da = .text p := by
    cases aa
    · rfl
  have edb : db = .text s := by
    cases ab
    · rfl
  subst eda; subst edb
  refine ⟨ofTruth (some (likeMatch id (37 :: (p ++ [37])) s)), ?_, decide (find p s ≥ 0), ?_, ?_, ?_⟩
  · show nodeDen _ cols (.call .substringof) none (dens _ cols [a, b]) = _
    simp only [dens]
    rw [show den (sqliteLike k id row) cols a = _ from hda, show den (sqliteLike k id row) cols b = _ from hdb]
    rfl
  · unfold checkFilter
    rw [eval_call2 .substringof ea eb]
    simp only [evalCall, strArg_text, ok_bind]
    rfl
  · rw [selected_ofTruth, Option.some.injEq, like_substringof id p s hp]
    simp [← find_infix]
  · rw [decide_eq_true_iff]; exact find_infix p s

/-! ### Examples and violations -/

/-- An entity with `x` = 5, `n` = "Smith". -/
def exEnt2 : Str → Option Value := fun n =>
  if n = [120] then some (.of .i32 (.int 5)) else if n = [110] then some (.of .string (.text (chars "Smith"))) else none

/-- Its row. -/
def exRow2 : Str → SqlVal := fun n => if n = [120] then .int 5 else .text (chars "Smith")

/-- Non-vacuity: the hypotheses of C87 hold for `startswith(n,'Sm')`. -/
example (x : Ext) : RowOf exConv idCols exRow2 exEnt2 ∧ NoWild (chars "Sm") ∧
    eval x exEnt2 (.prop [110]) = .ok (.of .string (.text (chars "Smith"))) ∧ (chars "Sm") <+: (chars "Smith") := by
  refine ⟨?_, by unfold NoWild; decide, rfl, by decide⟩
  intro n v h
  unfold exEnt2 at h
  by_cases h1 : n = [120]
  · subst h1
    have := Option.some.inj h; subst this
    exact ⟨[120], rfl, .int rfl (by decide) (by decide)⟩
  · rw [if_neg h1] at h
    by_cases h2 : n = [110]
    · subst h2
      have := Option.some.inj h; subst this
      exact ⟨[110], rfl, .text⟩
    · rw [if_neg h2] at h; exact absurd h (by simp)

/-- **C87 fails** for a text with a wildcard: `startswith(n,'_')` selects "Smith", although it does not start with
an underscore, because the text is used as a pattern without escaping. -/
theorem C87_violation_wildcard (x : Ext) :
    let e := Expr.node (.call .startswith) [.prop [110], .lit (.str [95])]
    checkFilter x exEnt2 e = some false ∧
    ∃ d, den (sqliteLike exConv id exRow2) idCols e = some d ∧ selected exConv d := by
  refine ⟨rfl, _, rfl, ?_⟩
  show truth exConv (likeVal exConv id (.text (chars "Smith")) (.text [95, 37])) = some true
  decide +kernel

/-- **C87 fails** on a database whose LIKE ignores the case of letters, as SQLite does by default:
`endswith(n,'TH')` selects "Smith". -/
theorem C87_violation_case (x : Ext) :
    let fold := fun c => if 65 ≤ c ∧ c ≤ 90 then c + 32 else c
    let e := Expr.node (.call .endswith) [.prop [110], .lit (.str (chars "TH"))]
    checkFilter x exEnt2 e = some false ∧
    ∃ d, den (sqliteLike exConv fold exRow2) idCols e = some d ∧ selected exConv d := by
  refine ⟨rfl, _, rfl, ?_⟩
  show truth exConv (likeVal exConv (fun c => if 65 ≤ c ∧ c ≤ 90 then c + 32 else c) (.text (chars "Smith"))
    (.text (37 :: chars "TH"))) = some true
  decide +kernel

/-- **C87 fails** for `indexof(n,'m')`: the operands of POSITION are exchanged and the places are counted from 1, so
that SQL computes 0 where OData has 1. -/
theorem C87_violation_indexof (x : Ext) :
    let e := Expr.node (.call .indexof) [.prop [110], .lit (.str (chars "m"))]
    eval x exEnt2 e = .ok (.of .i32 (.int 1)) ∧
    den (sqliteLike exConv id exRow2) idCols e = some (.int 0) := by
  refine ⟨rfl, ?_⟩
  show some (positionVal exConv (.text (chars "Smith")) (.text (chars "m"))) = _
  decide +kernel

end Verif.Sql

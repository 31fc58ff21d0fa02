import Verif.OData.ExprProps
import Verif.OData.C61
/-!
# C62: the expression parser follows the precedence grammar; formatted expressions are read back
-/
namespace Verif.OData

open Verif.Text

/-- C62.  A text that stands for an expression under the grammar (`Reads`: brackets, the unary operators bind
tighter than multiplication, that tighter than addition, comparison, equality, and, or; binary operators associate
to the left) is parsed as that expression, whatever parameters are in scope. -/
theorem C62_parser_implements_grammar (ids : Ids) (params : Option Params) {e : Expr} {t w : Str}
    (h : Reads ids 0 e t) (hw : Ws w) : exprFromStr ids params (t ++ w) = some e := by
  have hn : ∀ s : Str, s = [] → wsp s = [] := by rintro s rfl; rfl
  have hww : wsp w = [] := by
    have := wsp_append hw []
    rw [List.append_nil] at this; rw [this]; rfl
  have hF : Follow ids 0 w := by
    refine ⟨?_, by rw [hww]; simp, ?_⟩
    · have := stop_ws hw [] (.inl (.inl rfl)); rwa [List.append_nil] at this
    · intro op r' h'
      unfold nextOp at h'; rw [hww] at h'; cases h'
  have := reads_loop h params none [] w (.ok e []) (by simp) (by simp) hF
    (by intro fuel _; unfold after nextOp; rw [hww]; rfl) ((t ++ w).length + 1) (Nat.lt_succ_self _)
  unfold exprFromStr parseExpr
  rw [this]

/-- The grammar is unambiguous: a text stands for one expression at most. -/
theorem C62_unambiguous (ids : Ids) {e e' : Expr} {t : Str} (h : Reads ids 0 e t) (h' : Reads ids 0 e' t) : e = e' := by
  have a := C62_parser_implements_grammar ids none h (w := []) (by intro c hc; cases hc)
  have b := C62_parser_implements_grammar ids none h' (w := []) (by intro c hc; cases hc)
  rw [a] at b; exact Option.some.inj b

/-! ### Round trip -/

/-- Operators whose text ends in a closing bracket of their own. -/
def Op.closed : Op → Bool
  | .call _ | .cast | .isof => true
  | _ => false

/-- The text after a minus sign does not make it a number: it does not begin with a digit, a full stop, inf or nan. -/
def NegateOk (t : Str) : Prop :=
  (∀ c, t.head? = some c → isDigit c = false ∧ c ≠ 46) ∧ lower (t.take 3) ≠ chars "inf" ∧ lower (t.take 3) ≠ chars "nan"

/-- Expressions for which the text is faithful: the right operand of a binary operator is not an operator of the
same category (no brackets would be written, see `C62_right_operand_violation`), unary operators are not stacked,
and what follows a minus sign does not look like a number. -/
inductive Faithful (ids : Ids) : Expr → Prop
  | lit {v t} : formatLit v = some t → LitText ids v t → Faithful ids (.lit v)
  | prop {n} : PropName ids n → Faithful ids (.prop n)
  | call (m) {es} : es ≠ [] → (∀ e ∈ es, Faithful ids e) → Faithful ids (.node (.call m) es)
  | negate {e} : Faithful ids e → (∀ op, e.op? = some op → op.cat ≠ 8 ∨ op.closed = true) →
      (∀ t, e.text = some t → NegateOk (operandText .negate e.op? t)) → Faithful ids (.node .negate [e])
  | not {e} : Faithful ids e → (∀ op, e.op? = some op → op.cat ≠ 8 ∨ op.closed = true) → Faithful ids (.node .not [e])
  | binary {op l r} : op.isWord = true ∨ op = .member → Faithful ids l → Faithful ids r →
      (∀ op', r.op? = some op' → op'.cat ≠ op.cat ∨ op'.closed = true) → Faithful ids (.node op [l, r])
  | castlike {op e s} : op = .cast ∨ op = .isof → Faithful ids e → Faithful ids (.node op [e, .lit (.str s)])

theorem numeric_negateOk {t : Str} (h : NegateOk t) (hne : t ≠ []) {r : Str} (hr : Stop r) :
    numeric (45 :: (t ++ r)) = .none := by
  rw [numeric_neg]
  obtain ⟨h1, h2, h3⟩ := h
  have key : ∀ w : Str, w.length = 3 → (∀ c ∈ w, Uri.isLower c = true) → lower (t.take 3) ≠ w →
      insensitive w (t ++ r) = none := by
    intro w hw hl hn
    unfold insensitive
    rw [if_neg, ]
    intro e
    rw [hw, List.take_append] at e
    by_cases hlen : 3 ≤ t.length
    · rw [Nat.sub_eq_zero_of_le hlen, List.take_zero, List.append_nil] at e
      exact hn e
    · -- part of the rest would be a letter
      have hlow : ∀ c ∈ lower (t.take 3 ++ r.take (3 - t.length)), Uri.isLower c = true := by rw [e]; exact hl
      have hlen3 : (lower (t.take 3 ++ r.take (3 - t.length))).length = 3 := by rw [e, hw]
      rcases hr with rfl | ⟨c, r', rfl, hc⟩
      · simp [lower] at hlen3; omega
      · have hm : (if 65 ≤ c ∧ c ≤ 90 then c + 32 else c) ∈ lower (t.take 3 ++ (c :: r').take (3 - t.length)) := by
          obtain ⟨k, hk⟩ : ∃ k, 3 - t.length = k + 1 := ⟨2 - t.length, by omega⟩
          rw [hk, List.take_succ_cons]
          unfold lower
          refine List.mem_map_of_mem (f := fun c => if 65 ≤ c ∧ c ≤ 90 then c + 32 else c) ?_
          simp
        have := hlow _ hm
        rw [if_neg (by omega)] at this
        simp [Uri.isLower] at this; omega
  unfold numericBody
  rw [key (chars "inf") rfl (by decide) h2, key (chars "nan") rfl (by decide) h3]
  dsimp only
  cases t with
  | nil => exact absurd rfl hne
  | cons c t =>
    have ⟨hd, h46⟩ := h1 c rfl
    rw [List.cons_append]
    rw [List.takeWhile_cons, List.dropWhile_cons]
    simp only [hd, Bool.false_eq_true, if_false]
    split
    · rename_i heq; cases heq; exact absurd rfl h46
    · rfl

theorem isName_ne_nil {ids : Ids} {n : Str} (h : IsName ids n) : n ≠ [] := by
  obtain ⟨c, s, rfl, -⟩ := isName_head h; simp

theorem reads_ne_nil {ids : Ids} {k : Nat} {e : Expr} {t : Str} (h : Reads ids k e t) : t ≠ [] := by
  match h with
  | .lit hl => obtain ⟨c, s, e, -⟩ := litText_head hl; rw [e]; simp
  | .prop hn => exact isName_ne_nil hn.1
  | .paren _ _ => simp
  | .space h _ => have := reads_ne_nil h; simp [this]
  | .negate _ _ _ => simp
  | .not _ _ _ _ => simp [chars]
  | .member _ _ _ _ => simp
  | .word _ _ _ _ _ hne _ _ => simp [hne]
  | .call _ _ => simp
  | .castlike1 _ _ _ _ => simp
  | .castlike2 _ _ _ _ _ _ => simp

theorem operand_reads {ids : Ids} {op : Op} {e : Expr} {t : Str} {k : Nat}
    (hr : ∀ k, (∀ o, e.op? = some o → k ≤ o.cat ∨ o.closed = true) → Reads ids k e t)
    (hk : ∀ o, e.op? = some o → op.cat ≤ o.cat → k ≤ o.cat ∨ o.closed = true) :
    Reads ids k e (operandText op e.op? t) := by
  unfold operandText
  by_cases hb : bracketed op e.op? = true
  · rw [if_pos hb]
    have := Reads.paren (k := k) (w := []) (hr 0 (fun o _ => .inl (Nat.zero_le _))) (by intro c hc; cases hc)
    simpa using this
  · rw [if_neg hb]
    apply hr
    intro o ho
    apply hk o ho
    rw [ho] at hb
    simp [bracketed] at hb; exact hb

theorem ws_one : Ws [32] := by intro c hc; simp at hc; exact .inl hc
theorem ws_nil : Ws [] := by intro c hc; cases hc

theorem args_reads {ids : Ids} {es : List Expr} (hne : es ≠ []) 
    (h : ∀ e ∈ es, ∃ t, e.text = some t ∧ Reads ids 0 e t) :
    ∃ ts, allSome (Expr.texts es) = some ts ∧ ReadsArgs ids es (joinComma ts ++ [41]) := by
  induction es with
  | nil => exact absurd rfl hne
  | cons e es ih =>
    obtain ⟨t, ht, hr⟩ := h e (List.mem_cons_self ..)
    cases es with
    | nil =>
      refine ⟨[t], by simp [Expr.texts, ht, allSome], ?_⟩
      exact ReadsArgs.one (w := []) hr ws_nil
    | cons f fs =>
      obtain ⟨ts, h1, h2⟩ := ih (by simp) (fun e he => h e (List.mem_cons_of_mem _ he))
      refine ⟨t :: ts, by rw [Expr.texts, ht, allSome, h1]; rfl, ?_⟩
      cases ts with
      | nil =>
        rw [Expr.texts] at h1
        cases hx : f.text with
        | none => rw [hx] at h1; cases h1
        | some u =>
          rw [hx, allSome] at h1
          cases hy : allSome (Expr.texts fs) <;> rw [hy] at h1 <;> cases h1
      | cons u us =>
        have := ReadsArgs.more (w := []) hr h2 ws_nil
        simpa [joinComma] using this

/-- The text of a faithful expression stands for it under the grammar. -/
theorem faithful_reads {ids : Ids} {e : Expr} (h : Faithful ids e) :
    ∃ t, e.text = some t ∧ ∀ k, (∀ o, e.op? = some o → k ≤ o.cat ∨ o.closed = true) → Reads ids k e t := by
  induction h with
  | lit h1 h2 => exact ⟨_, h1, fun k _ => .lit h2⟩
  | prop h1 => exact ⟨_, rfl, fun k _ => .prop h1⟩
  | call m hne _ ih =>
    rename_i es
    obtain ⟨ts, h1, h2⟩ := args_reads hne (fun e he => by
      obtain ⟨t, a, b⟩ := ih e he
      exact ⟨t, a, b 0 (fun o _ => .inl (Nat.zero_le _))⟩)
    refine ⟨m.name ++ 40 :: joinComma ts ++ [41], by simp [Expr.text, nodeText, h1], fun k _ => ?_⟩
    have := Reads.call (k := k) (m := m) (w := []) h2 ws_nil
    simpa using this
  | negate _ h2 h3 ih =>
    rename_i e _
    obtain ⟨t, a, b⟩ := ih
    refine ⟨_, by simp [Expr.text, Expr.texts, nodeText, a]; rfl, fun k hk => ?_⟩
    have hk8 : k ≤ 8 := by
      rcases hk .negate rfl with h | h
      · exact h
      · cases h
    have hr : Reads ids 9 e (operandText .negate e.op? t) := operand_reads b (fun o ho hc => by
      rcases h2 o ho with h | h
      · left; have : 8 ≤ o.cat := hc; omega
      · exact .inr h)
    exact .negate hk8 hr (fun r hs => numeric_negateOk (h3 t a) (reads_ne_nil hr) hs)
  | not _ h2 ih =>
    rename_i e _
    obtain ⟨t, a, b⟩ := ih
    refine ⟨_, by simp [Expr.text, Expr.texts, nodeText, a]; rfl, fun k hk => ?_⟩
    have hk8 : k ≤ 8 := by
      rcases hk .not rfl with h | h
      · exact h
      · cases h
    have hr : Reads ids 9 e (operandText .not e.op? t) := operand_reads b (fun o ho hc => by
      rcases h2 o ho with h | h
      · left; have : 8 ≤ o.cat := hc; omega
      · exact .inr h)
    have := Reads.not (w := [32]) hk8 hr ws_one (by simp)
    simpa [chars] using this
  | binary hop _ _ h3 ihl ihr =>
    rename_i op l r _ _
    obtain ⟨t, a, b⟩ := ihl
    obtain ⟨u, a', b'⟩ := ihr
    have hl : Reads ids op.cat l (operandText op l.op? t) := operand_reads b (fun o ho hc => .inl hc)
    have hr : Reads ids (op.cat + 1) r (operandText op r.op? u) := operand_reads b' (fun o ho hc => by
      rcases h3 o ho with h | h
      · left; omega
      · exact .inr h)
    have hnc : op.closed = false := by
      rcases hop with h | rfl
      · cases op <;> first | rfl | cases h
      · rfl
    have hkk : ∀ k, (∀ o, (Expr.node op [l, r]).op? = some o → k ≤ o.cat ∨ o.closed = true) → k ≤ op.cat := by
      intro k hk
      rcases hk op rfl with h | h
      · exact h
      · rw [hnc] at h; cases h
    rcases hop with hop | rfl
    · refine ⟨operandText op l.op? t ++ (32 :: op.word ++ [32]) ++ operandText op r.op? u, ?_, fun k hk => ?_⟩
      · simp only [Expr.text, Expr.texts, List.map, a, a']
        cases op <;> first | rfl | cases hop
      · have := Reads.word (w := [32]) (w' := [32]) hop (by rw [level_eq hop]; exact hkk k hk)
          (by rw [level_eq hop]; exact hl) (by rw [level_eq hop]; exact hr) ws_one (by simp) ws_one (by simp)
        simpa using this
    · refine ⟨operandText .member l.op? t ++ [47] ++ operandText .member r.op? u, ?_, fun k hk => ?_⟩
      · simp only [Expr.text, Expr.texts, List.map, a, a']; rfl
      · have := Reads.member (w := []) (hkk k hk) hl hr ws_nil
        simpa using this
  | castlike hop _ ih =>
    rename_i op e s _
    obtain ⟨t, a, b⟩ := ih
    have hr : Reads ids 0 e (operandText op e.op? t) := operand_reads b (fun o ho hc => .inl (Nat.zero_le _))
    have hs : Reads ids 0 (.lit (.str s)) (39 :: quoteText s ++ [39]) := .lit (fun r hr => parseLit_str ids s hr.noQuote)
    rcases hop with rfl | rfl
    · refine ⟨chars "cast(" ++ operandText .cast e.op? t ++ 44 :: (39 :: quoteText s ++ [39]) ++ [41], ?_, fun k _ => ?_⟩
      · simp only [Expr.text, Expr.texts, List.map, a]; rfl
      · have := Reads.castlike2 (k := k) (op := .cast) (w := []) (w' := []) (w'' := []) (.inl ⟨rfl, rfl⟩) hr hs ws_nil ws_nil ws_nil
        simpa [chars] using this
    · refine ⟨chars "isof(" ++ operandText .isof e.op? t ++ 44 :: (39 :: quoteText s ++ [39]) ++ [41], ?_, fun k _ => ?_⟩
      · simp only [Expr.text, Expr.texts, List.map, a]; rfl
      · have := Reads.castlike2 (k := k) (op := .isof) (w := []) (w' := []) (w'' := []) (.inr ⟨rfl, rfl⟩) hr hs ws_nil ws_nil ws_nil
        simpa [chars] using this

/-- C62.  Formatting a faithful expression and parsing the text gives the expression back. -/
theorem C62_expression_round_trip_partial (ids : Ids) {e : Expr} (h : Faithful ids e) (params : Option Params) :
    ∃ t, e.text = some t ∧ exprFromStr ids params t = some e := by
  obtain ⟨t, a, b⟩ := faithful_reads h
  refine ⟨t, a, ?_⟩
  have := C62_parser_implements_grammar ids params (b 0 (fun o _ => .inl (Nat.zero_le _))) ws_nil
  rwa [List.append_nil] at this

/-! ### Non-vacuity and violations -/

def pA : Expr := .prop (chars "A")
def pB : Expr := .prop (chars "B")
def pC : Expr := .prop (chars "C")

theorem faithful_A (ids : Ids) : Faithful ids pA :=
  .prop ⟨isName_word ids _ (by decide) (by decide), by decide +kernel, by decide, by decide, by decide, by decide⟩
theorem faithful_B (ids : Ids) : Faithful ids pB :=
  .prop ⟨isName_word ids _ (by decide) (by decide), by decide +kernel, by decide, by decide, by decide, by decide⟩
theorem faithful_C (ids : Ids) : Faithful ids pC :=
  .prop ⟨isName_word ids _ (by decide) (by decide), by decide +kernel, by decide, by decide, by decide, by decide⟩

/-- Non-vacuity: (A or B) and not C, whose text needs its brackets. -/
example (ids : Ids) : Faithful ids (.node .and [.node .or [pA, pB], .node .not [pC]]) ∧
    (Expr.node .and [.node .or [pA, pB], .node .not [pC]]).text = some (chars "(A or B) and not C") := by
  refine ⟨.binary (.inl rfl) (.binary (.inl rfl) (faithful_A ids) (faithful_B ids) (by intro o h; cases h))
    (.not (faithful_C ids) (by intro o h; cases h)) (by intro o h; cases h; left; decide), by decide +kernel⟩

/-- Violation: the text of A sub (B sub C) has no brackets and is read back as (A sub B) sub C. -/
theorem C62_right_operand_violation (ids : Ids) (params : Option Params) :
    (Expr.node .sub [pA, .node .sub [pB, pC]]).text = some (chars "A sub B sub C") ∧
      exprFromStr ids params (chars "A sub B sub C") = some (.node .sub [.node .sub [pA, pB], pC]) := by
  refine ⟨by decide +kernel, ?_⟩
  obtain ⟨t, a, b⟩ := C62_expression_round_trip_partial ids (e := .node .sub [.node .sub [pA, pB], pC])
    (.binary (.inl rfl) (.binary (.inl rfl) (faithful_A ids) (faithful_B ids) (by intro o h; cases h))
      (faithful_C ids) (by intro o h; cases h)) params
  have : (Expr.node .sub [.node .sub [pA, pB], pC]).text = some (chars "A sub B sub C") := by decide +kernel
  rw [this] at a; cases a; exact b

/-- Violation: a chain of unary operators is not applied inside out: `not not A` is parsed as an expression with
the operator not and two operands, the first of which is not applied to anything. -/
theorem C62_unary_chain_violation :
    exprFromStr asciiIds none (chars "not not A") = some (.node .not [.node .not [.none], pA]) := by
  rfl

/-- Violation: a minus sign before a property whose name begins with inf or nan is an error. -/
theorem C62_negate_name_violation : exprFromStr asciiIds none (chars "-Infection") = none ∧
    exprFromStr asciiIds none (chars "-Count") = some (.node .negate [.prop (chars "Count")]) := by
  constructor <;> rfl

/-- Violation: parameters are not available inside brackets. -/
theorem C62_parameter_violation :
    exprFromStr asciiIds (some [(chars "x", .i32 1)]) (chars "A eq :x") = some (.node .eq [pA, .lit (.i32 1)]) ∧
    exprFromStr asciiIds (some [(chars "x", .i32 1)]) (chars "(A eq :x)") = none := by
  constructor <;> rfl

/-- Violation: a property called Time cannot be named in an expression; a property called Null is read as null. -/
theorem C62_reserved_name_violation : exprFromStr asciiIds none (chars "Time eq null") = none ∧
    exprFromStr asciiIds none (chars "Null eq 1") = some (.node .eq [.lit .null, .lit (.i32 1)]) := by
  constructor <;> rfl

end Verif.OData

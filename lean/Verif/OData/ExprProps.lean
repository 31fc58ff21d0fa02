import Verif.OData.Grammar
/-!
# The expression parser implements the grammar
-/
namespace Verif.OData

/-! ### White space and what follows an operand -/

theorem wsp_append {w : Str} (h : Ws w) (s : Str) : wsp (w ++ s) = wsp s := by
  induction w with
  | nil => rfl
  | cons c w ih =>
    have hc : isWs c = true := by
      have := h c (List.mem_cons_self ..)
      simp only [isWs, Bool.or_eq_true, beq_iff_eq]; exact this
    rw [List.cons_append, wsp, List.dropWhile_cons, if_pos hc]
    exact ih (fun x hx => h x (List.mem_cons_of_mem _ hx))

theorem wsp_cons {c : Nat} (h : isWs c = false) (s : Str) : wsp (c :: s) = c :: s := by
  rw [wsp, List.dropWhile_cons, if_neg (by simp [h])]

theorem wsp_wsp (s : Str) : wsp (wsp s) = wsp s := by
  induction s with
  | nil => rfl
  | cons c s ih =>
    by_cases h : isWs c = true
    · have : wsp (c :: s) = wsp s := by rw [wsp, List.dropWhile_cons, if_pos h]; rfl
      rw [this, ih]
    · have h' : isWs c = false := by simpa using h
      rw [wsp_cons h', wsp_cons h']

theorem nextOp_wsp (ids : Ids) (s : Str) : nextOp ids (wsp s) = nextOp ids s := by
  unfold nextOp; rw [wsp_wsp]

theorem nextOp_ws (ids : Ids) {w : Str} (h : Ws w) (s : Str) : nextOp ids (w ++ s) = nextOp ids s := by
  unfold nextOp; rw [wsp_append h]

theorem nextOp_nil (ids : Ids) : nextOp ids [] = none := rfl

theorem nextOp_end (ids : Ids) (c : Nat) (h : c = 41 ∨ c = 44) (r : Str) : nextOp ids (c :: r) = none := by
  unfold nextOp
  rw [wsp_cons (by rcases h with rfl | rfl <;> rfl)]
  dsimp only
  rw [if_neg (by omega), parseIdent_none ids c r (by omega) (by rcases h with rfl | rfl <;> rfl)]

theorem nextOp_slash (ids : Ids) (r : Str) : nextOp ids (47 :: r) = some (.member, r) := by
  unfold nextOp
  rw [wsp_cons (by rfl)]
  dsimp only
  rw [if_pos rfl]

theorem Ws.brk (ids : Ids) {w : Str} (h : Ws w) (hne : w ≠ []) (s : Str) : Break ids (w ++ s) := by
  cases w with
  | nil => exact absurd rfl hne
  | cons c w =>
    have hc := h c (List.mem_cons_self ..)
    apply break_code ids c rfl
    · omega
    · rcases hc with rfl | rfl <;> rfl
    · omega

theorem word_alpha {op : Op} (h : op.isWord = true) : op.word ≠ [] ∧ ∀ c ∈ op.word, Uri.isAlpha c = true := by
  cases op <;> first | exact absurd h (by decide) | decide +kernel | simp [Op.isWord] at h

theorem level_eq {op : Op} (h : op.isWord = true) : op.level = op.cat := by
  cases op <;> first | rfl | cases h

theorem binaryOp_word {op : Op} (h : op.isWord = true) : binaryOp op.word = some op := by
  cases op <;> first | exact absurd h (by decide) | decide +kernel | simp [Op.isWord] at h

theorem nextOp_word (ids : Ids) {op : Op} (h : op.isWord = true) {w : Str} (hw : Ws w) (hne : w ≠ []) (s : Str) :
    nextOp ids (op.word ++ (w ++ s)) = some (op, w ++ s) := by
  have ⟨h1, h2⟩ := word_alpha h
  have hn := parseIdent_append ids (isName_word ids op.word h1 h2) (hw.brk ids hne s)
  have hb := binaryOp_word h
  cases hop : op.word with
  | nil => exact absurd hop h1
  | cons c t =>
    rw [hop] at hn h2 hb
    have hc := h2 c (List.mem_cons_self ..)
    have hb' : (65 ≤ c ∧ c ≤ 90) ∨ (97 ≤ c ∧ c ≤ 122) := by
      simpa [Uri.isAlpha, Uri.isUpper, Uri.isLower] using hc
    unfold nextOp
    rw [List.cons_append] at hn ⊢
    rw [wsp_cons (by simp [isWs]; omega)]
    dsimp only
    rw [if_neg (by omega), hn]
    dsimp only
    rw [hb]
    rfl

/-- What may follow an expression wanted at category `k`: white space, then the end, a closing bracket, a comma,
or an operator of category at most `k`, or another word (such as the asc of $orderby). -/
def Follow (ids : Ids) (k : Nat) (r : Str) : Prop :=
  Stop r ∧ (wsp r).head? ≠ some 40 ∧ ∀ op r', nextOp ids r = some (op, r') → op.cat ≤ k

theorem Follow.mono {ids : Ids} {k k' : Nat} {r : Str} (h : Follow ids k r) (hk : k ≤ k') : Follow ids k' r :=
  ⟨h.1, h.2.1, fun op r' e => Nat.le_trans (h.2.2 op r' e) hk⟩

theorem stop_ws {w : Str} (hw : Ws w) (s : Str) (h : Stop s ∨ w ≠ []) : Stop (w ++ s) := by
  cases w with
  | nil => rcases h with h | h; exact h; exact absurd rfl h
  | cons c w =>
    have := hw c (List.mem_cons_self ..)
    exact .inr ⟨c, w ++ s, rfl, by omega⟩

theorem follow_end (ids : Ids) (k : Nat) {w : Str} (hw : Ws w) (c : Nat) (hc : c = 41 ∨ c = 44) (r : Str) :
    Follow ids k (w ++ c :: r) := by
  refine ⟨stop_ws hw _ (.inl (.inr ⟨c, r, rfl, by omega⟩)), ?_, ?_⟩
  · rw [wsp_append hw, wsp_cons (by rcases hc with rfl | rfl <;> rfl)]
    simp; omega
  · intro op r' h
    rw [nextOp_ws ids hw, nextOp_end ids c hc] at h; cases h

theorem follow_nil (ids : Ids) (k : Nat) : Follow ids k [] :=
  ⟨.inl rfl, by simp [wsp], fun op r' h => by cases h⟩

/-! ### The state machine -/

/-- The rest of an iteration once the operand `e` is known. -/
def after (ids : Ids) (fuel : Nat) (params : Option Params) (left : Option Pend) (stack : List Pend) (e : Expr) (r : Str) :
    R Expr :=
  match nextOp ids r with
  | none => .ok (collapse left stack e) (wsp r)
  | some (op, r') => exprLoop ids fuel params (some (reduce op left stack e).1) (reduce op left stack e).2 r'

theorem after_wsp (ids : Ids) (fuel : Nat) (params : Option Params) (left : Option Pend) (stack : List Pend) (e : Expr)
    (r : Str) : after ids fuel params left stack e (wsp r) = after ids fuel params left stack e r := by
  unfold after; rw [nextOp_wsp, wsp_wsp]

theorem exprLoop_operand (ids : Ids) {fuel : Nat} {params : Option Params} {left : Option Pend} {stack : List Pend}
    {s : Str} {e : Expr} {r : Str}
    (h : item ids (fun t => exprLoop ids fuel none none [] t) params s = .ok (.operand e) r) :
    exprLoop ids (fuel + 1) params left stack s = after ids fuel params left stack e r := by
  rw [exprLoop, h]
  rfl

theorem exprLoop_unary (ids : Ids) {fuel : Nat} {params : Option Params} {left : Option Pend} {stack : List Pend}
    {s : Str} {op : Op} {r : Str}
    (h : item ids (fun t => exprLoop ids fuel none none [] t) params s = .ok (.unary op) r) :
    exprLoop ids (fuel + 1) params left stack s =
      exprLoop ids fuel params (some (reduce op left stack .none).1) (reduce op left stack .none).2 r := by
  rw [exprLoop, h]

theorem item_wsp (ids : Ids) (sub : Str → R Expr) (params : Option Params) (s : Str) :
    item ids sub params (wsp s) = item ids sub params s := by
  unfold item; rw [wsp_wsp]

theorem exprLoop_wsp (ids : Ids) (fuel : Nat) (params : Option Params) (left : Option Pend) (stack : List Pend)
    (s : Str) : exprLoop ids fuel params left stack (wsp s) = exprLoop ids fuel params left stack s := by
  cases fuel with
  | zero => rfl
  | succ n => rw [exprLoop, exprLoop, item_wsp]

theorem exprLoop_ws (ids : Ids) (fuel : Nat) (params : Option Params) (left : Option Pend) (stack : List Pend)
    {w : Str} (hw : Ws w) (s : Str) :
    exprLoop ids fuel params left stack (w ++ s) = exprLoop ids fuel params left stack s := by
  rw [← exprLoop_wsp, wsp_append hw, exprLoop_wsp]

theorem item_plain (ids : Ids) (sub : Str → R Expr) (params : Option Params) (c : Nat) (s : Str)
    (h1 : isWs c = false) (h2 : c ≠ 58) : item ids sub params (c :: s) = plainItem ids sub (c :: s) := by
  unfold item
  rw [wsp_cons h1]
  cases params with
  | none => rfl
  | some ps =>
    dsimp only
    rw [if_neg h2]

theorem reduce_push (op : Op) (left : Option Pend) (stack : List Pend) (e : Expr) (he : e ≠ .none)
    (hL : ∀ p, left = some p → p.op.cat < op.cat) (hS : left = none → stack = []) :
    reduce op left stack e = (⟨op, [e]⟩, left.toList ++ stack) := by
  cases left with
  | none =>
    rw [hS rfl]
    unfold reduce
    cases e <;> first | rfl | exact absurd rfl he
  | some p =>
    unfold reduce
    cases stack <;> dsimp only [reduceStack] <;> rw [if_pos (hL p rfl)] <;>
      cases e <;> first | rfl | exact absurd rfl he

theorem reduce_push_unary (op : Op) (left : Option Pend) (stack : List Pend)
    (hL : ∀ p, left = some p → p.op.cat < op.cat) (hS : left = none → stack = []) :
    reduce op left stack .none = (⟨op, []⟩, left.toList ++ stack) := by
  cases left with
  | none => rw [hS rfl]; unfold reduce; rfl
  | some p => unfold reduce; cases stack <;> dsimp only [reduceStack] <;> rw [if_pos (hL p rfl)] <;> rfl

/-- Closing the operator on top of the stack. -/
theorem after_close (ids : Ids) (fuel : Nat) (params : Option Params) (p : Pend) (left : Option Pend) (stack : List Pend)
    (e : Expr) (r : Str) (hS : left = none → stack = [])
    (hr : ∀ op r', nextOp ids r = some (op, r') → op.cat ≤ p.op.cat) :
    after ids fuel params (some p) (left.toList ++ stack) e r = after ids fuel params left stack (p.close e) r := by
  unfold after
  cases hn : nextOp ids r with
  | none =>
    cases left with
    | none => rw [hS rfl]; rfl
    | some q => rfl
  | some x =>
    obtain ⟨op, r'⟩ := x
    have hc := hr op r' hn
    have e1 : reduce op (some p) (left.toList ++ stack) e = reduce op left stack (p.close e) := by
      cases left with
      | none =>
        rw [hS rfl]
        show reduce op (some p) [] e = _
        unfold reduce
        dsimp only [reduceStack]
        rw [if_neg (by omega)]
      | some q =>
        show reduce op (some p) (q :: stack) e = _
        unfold reduce
        dsimp only [reduceStack]
        rw [if_neg (by omega)]
    dsimp only
    rw [e1]

/-! ### Atoms -/

theorem parseLit_head (ids : Ids) (c : Nat) (h : c = 32 ∨ c = 9 ∨ c = 58) (r : Str) : parseLit ids (c :: r) = .none := by
  unfold parseLit
  rw [parseIdent_none ids c r (by omega) (by rcases h with rfl | rfl | rfl <;> rfl)]
  dsimp only
  rw [if_neg (by omega), if_neg]
  rcases h with rfl | rfl | rfl <;> decide

theorem litText_head {ids : Ids} {v : Val} {t : Str} (h : LitText ids v t) :
    ∃ c s, t = c :: s ∧ isWs c = false ∧ c ≠ 58 := by
  have h0 := h [] (.inl rfl)
  rw [List.append_nil] at h0
  cases t with
  | nil =>
    have : parseLit ids [] = .none := rfl
    rw [this] at h0; cases h0
  | cons c s =>
    refine ⟨c, s, rfl, ?_, ?_⟩
    · cases hw : isWs c with
      | false => rfl
      | true =>
        have : c = 32 ∨ c = 9 := by simpa [isWs] using hw
        rw [parseLit_head ids c (by omega)] at h0; cases h0
    · intro hc
      rw [parseLit_head ids c (by omega)] at h0; cases h0

theorem item_lit (ids : Ids) (sub : Str → R Expr) (params : Option Params) {v : Val} {t : Str} (h : LitText ids v t)
    {r : Str} (hr : Stop r) : item ids sub params (t ++ r) = .ok (.operand (.lit v)) r := by
  obtain ⟨c, s, rfl, h1, h2⟩ := litText_head h
  rw [List.cons_append, item_plain ids sub params c _ h1 h2]
  unfold plainItem
  rw [← List.cons_append, h r hr]

theorem keyword_none {n : Str} (h : lower n ∉ reserved) (hx : n ≠ [88]) (r : Str) : keyword n r = .none := by
  simp only [reserved, List.mem_cons, List.not_mem_nil, or_false, not_or] at h
  obtain ⟨h1, h2, h3, h4, h5, h6, h7, h8, h9, h10, h11, h12⟩ := h
  unfold keyword
  dsimp only
  rw [if_neg h1, if_neg h2, if_neg h3, if_neg h4, if_neg h5, if_neg h6, if_neg (by simp [hx, h7]), if_neg h8, if_neg h9,
    if_neg h10, if_neg h11, if_neg h12]

theorem isName_head {ids : Ids} {n : Str} (h : IsName ids n) : ∃ c s, n = c :: s ∧ isWs c = false ∧ c ≠ 58 ∧ c ≠ 40 := by
  unfold IsName parseIdent at h
  cases n with
  | nil => simp [identLoop] at h
  | cons c s =>
    unfold identLoop at h
    by_cases hs : ids.start c = true
    · refine ⟨c, s, rfl, ?_, ?_, ?_⟩
      · cases hw : isWs c with
        | false => rfl
        | true =>
          have hc : c = 32 ∨ c = 9 := by simpa [isWs] using hw
          rw [ids.start_ascii c (by omega)] at hs
          rcases hc with rfl | rfl <;> cases hs
      · rintro rfl
        rw [ids.start_ascii _ (by omega)] at hs; cases hs
      · rintro rfl
        rw [ids.start_ascii _ (by omega)] at hs; cases hs
    · rw [if_neg hs] at h; cases h

theorem plainItem_name (ids : Ids) (sub : Str → R Expr) {n : Str} (hn : IsName ids n) (h1 : lower n ∉ reserved)
    (h2 : n ≠ [88]) {r : Str} (hr : Break ids r) : plainItem ids sub (n ++ r) = named sub n r := by
  unfold plainItem
  rw [parseLit_keyword ids hn hr, keyword_none h1 h2]
  dsimp only
  rw [parseIdent_append ids hn hr]

theorem item_name (ids : Ids) (sub : Str → R Expr) (params : Option Params) {n : Str} (hn : IsName ids n)
    (h1 : lower n ∉ reserved) (h2 : n ≠ [88]) {r : Str} (hr : Break ids r) :
    item ids sub params (n ++ r) = named sub n r := by
  rw [← plainItem_name ids sub hn h1 h2 hr]
  obtain ⟨c, s, e, a, b, -⟩ := isName_head hn
  rw [e, List.cons_append, item_plain ids sub params c _ a b]

theorem item_prop (ids : Ids) (sub : Str → R Expr) (params : Option Params) {n : Str} (h : PropName ids n)
    {r : Str} (hr : Stop r) (h40 : (wsp r).head? ≠ some 40) :
    item ids sub params (n ++ r) = .ok (.operand (.prop n)) (wsp r) := by
  obtain ⟨hn, h1, h2, h3, h4, h5⟩ := h
  rw [item_name ids sub params hn h1 h2 (hr.brk ids)]
  unfold named
  rw [if_neg h3, if_neg h4, if_neg h5]
  cases hw : wsp r with
  | nil => rfl
  | cons c q =>
    rw [hw] at h40
    dsimp only
    rw [if_neg (by intro h; exact h40 (by rw [h]; rfl))]

theorem paren_break (ids : Ids) {w : Str} (hw : Ws w) (s : Str) : Break ids (w ++ 40 :: s) := by
  cases w with
  | nil => exact break_code ids 40 rfl (by decide) (by decide) (by decide)
  | cons c w => exact hw.brk ids (by simp) _

theorem wsp_ws_paren {w : Str} (hw : Ws w) (s : Str) : wsp (w ++ 40 :: s) = 40 :: s := by
  rw [wsp_append hw, wsp_cons rfl]

theorem method_name (m : Method) : (m.name ≠ [] ∧ ∀ c ∈ m.name, Uri.isAlpha c = true) ∧ lower m.name ∉ reserved ∧
    m.name ≠ [88] ∧ m.name ≠ chars "not" ∧ m.name ≠ chars "isof" ∧ m.name ≠ chars "cast" := by
  cases m <;> decide +kernel

theorem method_fromStr (m : Method) : Method.fromStr m.name = some m := by cases m <;> decide +kernel

theorem item_call (ids : Ids) (sub : Str → R Expr) (params : Option Params) (m : Method) {w : Str} (hw : Ws w) (s : Str)
    {es : List Expr} {r : Str} (h : callArgs sub (s.length + 1) s = .ok es r) :
    item ids sub params (m.name ++ (w ++ 40 :: s)) = .ok (.operand (.node (.call m) es)) r := by
  obtain ⟨⟨a, b⟩, h1, h2, h3, h4, h5⟩ := method_name m
  rw [item_name ids sub params (isName_word ids _ a b) h1 h2 (paren_break ids hw s)]
  unfold named
  rw [if_neg h3, if_neg h4, if_neg h5, wsp_ws_paren hw]
  dsimp only
  rw [if_pos rfl, method_fromStr]
  dsimp only
  rw [h]; rfl

theorem item_castlike (ids : Ids) (sub : Str → R Expr) (params : Option Params) {op : Op} {kw : Str}
    (hk : op = .cast ∧ kw = chars "cast" ∨ op = .isof ∧ kw = chars "isof") {w : Str} (hw : Ws w) (s : Str)
    {e : Expr} {r : Str} (h : castlike sub op (40 :: s) = .ok e r) :
    item ids sub params (kw ++ (w ++ 40 :: s)) = .ok (.operand e) r := by
  have hkw : IsName ids kw ∧ lower kw ∉ reserved ∧ kw ≠ [88] := by
    rcases hk with ⟨rfl, rfl⟩ | ⟨rfl, rfl⟩
    · exact ⟨isName_word ids _ (by decide) (by decide), by decide +kernel, by decide⟩
    · exact ⟨isName_word ids _ (by decide) (by decide), by decide +kernel, by decide⟩
  rw [item_name ids sub params hkw.1 hkw.2.1 hkw.2.2 (paren_break ids hw s)]
  rcases hk with ⟨rfl, rfl⟩ | ⟨rfl, rfl⟩
  · unfold named
    rw [if_neg (by decide), if_neg (by decide), if_pos rfl, wsp_ws_paren hw, h]; rfl
  · unfold named
    rw [if_neg (by decide), if_pos rfl, wsp_ws_paren hw, h]; rfl

theorem item_paren (ids : Ids) (sub : Str → R Expr) (params : Option Params) (s : Str) {e : Expr} {r : Str}
    (h : sub s = .ok e (41 :: r)) : item ids sub params (40 :: s) = .ok (.operand e) r := by
  rw [item_plain ids sub params 40 s rfl (by decide)]
  unfold plainItem
  have : parseLit ids (40 :: s) = .none := by
    unfold parseLit
    rw [parseIdent_none ids 40 s (by decide) (by decide)]
    rfl
  rw [this]
  dsimp only
  rw [parseIdent_none ids 40 s (by decide) (by decide)]
  dsimp only
  rw [if_pos rfl, h]
  simp only [R.require, R.bind]
  rw [expect_self]

theorem item_negate (ids : Ids) (sub : Str → R Expr) (params : Option Params) (s : Str) (h : numeric (45 :: s) = .none) :
    item ids sub params (45 :: s) = .ok (.unary .negate) s := by
  rw [item_plain ids sub params 45 s rfl (by decide)]
  unfold plainItem
  rw [parseLit_number ids 45 s (.inl rfl), h]
  simp only [R.bind]
  rw [parseIdent_none ids 45 s (by decide) (by decide)]
  rfl

theorem item_not (ids : Ids) (sub : Str → R Expr) (params : Option Params) {w : Str} (hw : Ws w) (hne : w ≠ []) (s : Str) :
    item ids sub params (chars "not" ++ (w ++ s)) = .ok (.unary .not) (wsp s) := by
  rw [item_name ids sub params (isName_word ids _ (by decide) (by decide)) (by decide +kernel) (by decide) (hw.brk ids hne s)]
  unfold named
  rw [if_pos rfl]
  cases w with
  | nil => exact absurd rfl hne
  | cons c w =>
    have hc : isWs c = true := by
      have := hw c (List.mem_cons_self ..)
      simpa [isWs] using this
    rw [List.cons_append]
    dsimp only
    rw [if_pos hc, wsp_append (fun x hx => hw x (List.mem_cons_of_mem _ hx))]

theorem reads_ne_none {ids : Ids} {k : Nat} {e : Expr} {t : Str} (h : Reads ids k e t) : e ≠ .none := by
  match h with
  | .lit _ => simp
  | .prop _ => simp
  | .paren h _ => exact reads_ne_none h
  | .space h _ => exact reads_ne_none h
  | .negate _ _ _ => simp
  | .not _ _ _ _ => simp
  | .member _ _ _ _ => simp
  | .word _ _ _ _ _ _ _ _ => simp
  | .call _ _ => simp
  | .castlike1 _ _ _ _ => simp
  | .castlike2 _ _ _ _ _ _ => simp

/-! ### The parser implements the grammar -/

mutual
theorem reads_loop {ids : Ids} {k : Nat} {e : Expr} {t : Str} (h : Reads ids k e t) :
    ∀ (params : Option Params) (left : Option Pend) (stack : List Pend) (r : Str) (v : R Expr),
      (∀ p, left = some p → p.op.cat < k) → (left = none → stack = []) → Follow ids k r →
      (∀ fuel, r.length ≤ fuel → after ids fuel params left stack e r = v) →
      ∀ fuel, (t ++ r).length < fuel → exprLoop ids fuel params left stack (t ++ r) = v := by
  match h with
  | .lit (v := val) hl =>
    intro params left stack r v hL hS hF hA fuel hf
    obtain ⟨n, rfl⟩ : ∃ n, fuel = n + 1 := ⟨fuel - 1, by omega⟩
    rw [exprLoop_operand ids (item_lit ids _ params hl hF.1)]
    exact hA n (by rw [List.length_append] at hf; omega)
  | .prop (n := name) hn =>
    intro params left stack r v hL hS hF hA fuel hf
    obtain ⟨n, rfl⟩ : ∃ n, fuel = n + 1 := ⟨fuel - 1, by omega⟩
    rw [exprLoop_operand ids (item_prop ids _ params hn hF.1 hF.2.1), after_wsp]
    exact hA n (by rw [List.length_append] at hf; omega)
  | .paren (t := t') (w := w) h' hw =>
    intro params left stack r v hL hS hF hA fuel hf
    obtain ⟨n, rfl⟩ : ∃ n, fuel = n + 1 := ⟨fuel - 1, by omega⟩
    simp only [List.cons_append, List.append_assoc, List.length_cons, List.length_append, List.nil_append] at hf ⊢
    have hsub : exprLoop ids n none none [] (t' ++ (w ++ 41 :: r)) = .ok e (41 :: r) := by
      refine reads_loop h' none none [] (w ++ 41 :: r) _ (by simp) (by simp) (follow_end ids 0 hw 41 (.inl rfl) r) ?_ n ?_
      · intro fuel _
        unfold after
        rw [nextOp_ws ids hw, nextOp_end ids 41 (.inl rfl)]
        dsimp only
        rw [wsp_append hw, wsp_cons rfl]
        rfl
      · simp only [List.length_append, List.length_cons]; simp at hf; omega
    rw [exprLoop_operand ids (item_paren ids _ params _ hsub)]
    exact hA n (by omega)
  | .space (t := t') (w := w) h' hw =>
    intro params left stack r v hL hS hF hA fuel hf
    rw [List.append_assoc, exprLoop_ws ids _ _ _ _ hw]
    exact reads_loop h' params left stack r v hL hS hF hA fuel (by simp only [List.length_append] at hf ⊢; omega)
  | .negate (e := e') (t := t') hk h' hnum =>
    intro params left stack r v hL hS hF hA fuel hf
    obtain ⟨n, rfl⟩ : ∃ n, fuel = n + 1 := ⟨fuel - 1, by omega⟩
    simp only [List.cons_append, List.length_cons] at hf ⊢
    rw [exprLoop_unary ids (item_negate ids _ params _ (hnum r hF.1)),
      reduce_push_unary .negate left stack (fun p hp => Nat.lt_of_lt_of_le (hL p hp) hk) hS]
    refine reads_loop h' params (some ⟨.negate, []⟩) (left.toList ++ stack) r v (fun p hp => by cases hp; decide)
      (by simp) (hF.mono (by omega)) ?_ n (by omega)
    intro fuel hfuel
    rw [after_close ids fuel params ⟨.negate, []⟩ left stack e' r hS
      (fun op r' h => Nat.le_trans (hF.2.2 op r' h) hk)]
    exact hA fuel hfuel
  | .not (e := e') (t := t') (w := w) hk h' hw hne =>
    intro params left stack r v hL hS hF hA fuel hf
    obtain ⟨n, rfl⟩ : ∃ n, fuel = n + 1 := ⟨fuel - 1, by omega⟩
    simp only [List.append_assoc] at hf ⊢
    rw [exprLoop_unary ids (item_not ids _ params hw hne _), exprLoop_wsp,
      reduce_push_unary .not left stack (fun p hp => Nat.lt_of_lt_of_le (hL p hp) hk) hS]
    refine reads_loop h' params (some ⟨.not, []⟩) (left.toList ++ stack) r v (fun p hp => by cases hp; decide)
      (by simp) (hF.mono (by omega)) ?_ n (by simp only [List.length_append] at hf ⊢; have : (chars "not").length = 3 := rfl; omega)
    intro fuel hfuel
    rw [after_close ids fuel params ⟨.not, []⟩ left stack e' r hS
      (fun op r' h => Nat.le_trans (hF.2.2 op r' h) hk)]
    exact hA fuel hfuel
  | .member (l := l) (r := er) (tl := tl) (tr := tr) (w := w) hk hl hr hw =>
    intro params left stack r v hL hS hF hA fuel hf
    simp only [List.append_assoc, List.cons_append] at hf ⊢
    refine reads_loop hl params left stack (w ++ 47 :: (tr ++ r)) v (fun p hp => Nat.lt_of_lt_of_le (hL p hp) hk) hS ?_ ?_
      fuel hf
    · refine ⟨stop_ws hw _ (.inl (.inr ⟨47, _, rfl, by omega⟩)), ?_, ?_⟩
      · rw [wsp_append hw, wsp_cons rfl]; simp
      · intro op r' h
        rw [nextOp_ws ids hw, nextOp_slash] at h
        cases h; decide
    · intro fuel hfuel
      unfold after
      rw [nextOp_ws ids hw, nextOp_slash]
      dsimp only
      rw [reduce_push .member left stack l (reads_ne_none hl) (fun p hp => Nat.lt_of_lt_of_le (hL p hp) hk) hS]
      refine reads_loop hr params (some ⟨.member, [l]⟩) (left.toList ++ stack) r v
        (fun p hp => by cases hp; show 9 < 10; decide) (by simp) (hF.mono (by omega)) ?_ fuel
        (by simp only [List.length_append, List.length_cons] at hfuel ⊢; omega)
      intro fuel' hfuel'
      rw [after_close ids fuel' params ⟨.member, [l]⟩ left stack er r hS (fun op r' h => Nat.le_trans (hF.2.2 op r' h) hk)]
      exact hA fuel' hfuel'
  | .word (op := op) (l := l) (r := er) (tl := tl) (tr := tr) (w := w) (w' := w') hop hk hl hr hw hne hw' hne' =>
    intro params left stack r v hL hS hF hA fuel hf
    simp only [List.append_assoc] at hf ⊢
    refine reads_loop hl params left stack (w ++ (op.word ++ (w' ++ (tr ++ r)))) v
      (fun p hp => Nat.lt_of_lt_of_le (hL p hp) hk) hS ?_ ?_ fuel hf
    · refine ⟨stop_ws hw _ (.inr hne), ?_, ?_⟩
      · rw [wsp_append hw]
        have ⟨h1, h2⟩ := word_alpha hop
        cases hword : op.word with
        | nil => exact absurd hword h1
        | cons c q =>
          rw [hword] at h2
          have hc := h2 c (List.mem_cons_self ..)
          have hb' : (65 ≤ c ∧ c ≤ 90) ∨ (97 ≤ c ∧ c ≤ 122) := by
            simpa [Uri.isAlpha, Uri.isUpper, Uri.isLower] using hc
          rw [List.cons_append, wsp_cons (by simp [isWs]; omega)]
          simp; omega
      · intro op' r' h
        rw [nextOp_ws ids hw, nextOp_word ids hop hw' hne'] at h
        cases h; exact Nat.le_of_eq (level_eq hop).symm
    · intro fuel hfuel
      unfold after
      rw [nextOp_ws ids hw, nextOp_word ids hop hw' hne']
      dsimp only
      rw [reduce_push op left stack l (reads_ne_none hl)
          (fun p hp => Nat.lt_of_lt_of_le (hL p hp) (Nat.le_trans hk (Nat.le_of_eq (level_eq hop)))) hS,
        exprLoop_ws ids _ _ _ _ hw']
      refine reads_loop hr params (some ⟨op, [l]⟩) (left.toList ++ stack) r v
        (fun p hp => by cases hp; exact Nat.lt_succ_of_le (Nat.le_of_eq (level_eq hop).symm)) (by simp) (hF.mono (by omega)) ?_ fuel
        (by
          have h1 := (word_alpha hop).1
          have := List.length_pos_iff.2 h1
          simp only [List.length_append] at hfuel ⊢; omega)
      intro fuel' hfuel'
      rw [after_close ids fuel' params ⟨op, [l]⟩ left stack er r hS
        (fun op' r' h => Nat.le_trans (hF.2.2 op' r' h) (Nat.le_trans hk (Nat.le_of_eq (level_eq hop))))]
      exact hA fuel' hfuel'
  | .call (m := m) (es := es) (t := t') (w := w) hargs hw =>
    intro params left stack r v hL hS hF hA fuel hf
    obtain ⟨n, rfl⟩ : ∃ n, fuel = n + 1 := ⟨fuel - 1, by omega⟩
    simp only [List.append_assoc, List.cons_append] at hf ⊢
    have hlen : (t' ++ r).length < n := by
      simp only [List.length_append, List.length_cons] at hf ⊢
      have := List.length_pos_iff.2 (method_name m).1.1
      omega
    rw [exprLoop_operand ids (item_call ids _ params m hw (t' ++ r) (reads_args hargs n r _ hlen (Nat.lt_succ_self _)))]
    exact hA n (by rw [List.length_append] at hlen; omega)
  | .castlike1 (op := op) (s := s) (t := t') (w := w) (w' := w') (kw := kw) hk h' hw hw' =>
    intro params left stack r v hL hS hF hA fuel hf
    obtain ⟨n, rfl⟩ : ∃ n, fuel = n + 1 := ⟨fuel - 1, by omega⟩
    simp only [List.append_assoc, List.cons_append, List.nil_append] at hf ⊢
    have hlen : (t' ++ (w' ++ 41 :: r)).length < n := by
      simp only [List.length_append, List.length_cons] at hf ⊢
      have : kw.length = 4 := by rcases hk with ⟨-, rfl⟩ | ⟨-, rfl⟩ <;> rfl
      omega
    have hsub : exprLoop ids n none none [] (t' ++ (w' ++ 41 :: r)) = .ok (.lit (.str s)) (41 :: r) := by
      refine reads_loop h' none none [] (w' ++ 41 :: r) _ (by simp) (by simp) (follow_end ids 0 hw' 41 (.inl rfl) r) ?_ n hlen
      intro fuel _
      unfold after
      rw [nextOp_ws ids hw', nextOp_end ids 41 (.inl rfl)]
      dsimp only
      rw [wsp_append hw', wsp_cons rfl]
      rfl
    have hc : castlike (fun t => exprLoop ids n none none [] t) op (40 :: (t' ++ (w' ++ 41 :: r))) =
        .ok (.node op [.lit (.str s)]) r := by
      unfold castlike
      rw [wsp_cons rfl]
      dsimp only
      rw [if_pos rfl, hsub]
      simp only [R.require, R.bind]
      rw [wsp_cons rfl]
      rfl
    rw [exprLoop_operand ids (item_castlike ids _ params hk hw _ hc)]
    exact hA n (by simp only [List.length_append, List.length_cons] at hlen; omega)
  | .castlike2 (op := op) (e := e') (s := s) (t := t') (u := u) (w := w) (w' := w') (w'' := w'') (kw := kw) hk h' h'' hw hw' hw'' =>
    intro params left stack r v hL hS hF hA fuel hf
    obtain ⟨n, rfl⟩ : ∃ n, fuel = n + 1 := ⟨fuel - 1, by omega⟩
    simp only [List.append_assoc, List.cons_append, List.nil_append] at hf ⊢
    have hlen : (t' ++ (w' ++ 44 :: (u ++ (w'' ++ 41 :: r)))).length < n := by
      simp only [List.length_append, List.length_cons] at hf ⊢
      have : kw.length = 4 := by rcases hk with ⟨-, rfl⟩ | ⟨-, rfl⟩ <;> rfl
      omega
    have hsub : exprLoop ids n none none [] (t' ++ (w' ++ 44 :: (u ++ (w'' ++ 41 :: r)))) =
        .ok e' (44 :: (u ++ (w'' ++ 41 :: r))) := by
      refine reads_loop h' none none [] (w' ++ 44 :: (u ++ (w'' ++ 41 :: r))) _ (by simp) (by simp)
        (follow_end ids 0 hw' 44 (.inr rfl) _) ?_ n hlen
      intro fuel _
      unfold after
      rw [nextOp_ws ids hw', nextOp_end ids 44 (.inr rfl)]
      dsimp only
      rw [wsp_append hw', wsp_cons rfl]
      rfl
    have hsub2 : exprLoop ids n none none [] (u ++ (w'' ++ 41 :: r)) = .ok (.lit (.str s)) (41 :: r) := by
      refine reads_loop h'' none none [] (w'' ++ 41 :: r) _ (by simp) (by simp) (follow_end ids 0 hw'' 41 (.inl rfl) r) ?_ n
        (by simp only [List.length_append, List.length_cons] at hlen ⊢; omega)
      intro fuel _
      unfold after
      rw [nextOp_ws ids hw'', nextOp_end ids 41 (.inl rfl)]
      dsimp only
      rw [wsp_append hw'', wsp_cons rfl]
      rfl
    have hc : castlike (fun t => exprLoop ids n none none [] t) op
        (40 :: (t' ++ (w' ++ 44 :: (u ++ (w'' ++ 41 :: r))))) = .ok (.node op [e', .lit (.str s)]) r := by
      unfold castlike
      rw [wsp_cons rfl]
      dsimp only
      rw [if_pos rfl, hsub]
      simp only [R.require, R.bind]
      rw [wsp_cons rfl]
      dsimp only
      rw [if_neg (by decide), if_pos rfl, exprLoop_wsp, hsub2]
      simp only [R.require, R.bind]
      rw [wsp_cons rfl, expect_self]
      rfl
    rw [exprLoop_operand ids (item_castlike ids _ params hk hw _ hc)]
    exact hA n (by simp only [List.length_append, List.length_cons] at hlen; omega)
theorem reads_args {ids : Ids} {es : List Expr} {t : Str} (h : ReadsArgs ids es t) :
    ∀ (n : Nat) (r : Str) (m : Nat), (t ++ r).length < n → (t ++ r).length < m →
      callArgs (fun t => exprLoop ids n none none [] t) m (t ++ r) = .ok es r := by
  match h with
  | .one (e := e) (t := t') (w := w) h' hw =>
    intro n r m hn hm
    obtain ⟨m, rfl⟩ : ∃ k, m = k + 1 := ⟨m - 1, by omega⟩
    simp only [List.append_assoc, List.cons_append, List.nil_append] at hn hm ⊢
    have hsub : exprLoop ids n none none [] (t' ++ (w ++ 41 :: r)) = .ok e (41 :: r) := by
      refine reads_loop h' none none [] (w ++ 41 :: r) _ (by simp) (by simp) (follow_end ids 0 hw 41 (.inl rfl) r) ?_ n hn
      intro fuel _
      unfold after
      rw [nextOp_ws ids hw, nextOp_end ids 41 (.inl rfl)]
      dsimp only
      rw [wsp_append hw, wsp_cons rfl]
      rfl
    rw [callArgs, exprLoop_wsp, hsub]
    simp only [R.require, R.bind]
    rw [wsp_cons rfl]
    rfl
  | .more (e := e) (es := es') (t := t') (u := u) (w := w) h' hrest hw =>
    intro n r m hn hm
    obtain ⟨m, rfl⟩ : ∃ k, m = k + 1 := ⟨m - 1, by omega⟩
    simp only [List.append_assoc, List.cons_append, List.nil_append] at hn hm ⊢
    have hsub : exprLoop ids n none none [] (t' ++ (w ++ 44 :: (u ++ r))) = .ok e (44 :: (u ++ r)) := by
      refine reads_loop h' none none [] (w ++ 44 :: (u ++ r)) _ (by simp) (by simp) (follow_end ids 0 hw 44 (.inr rfl) _) ?_ n hn
      intro fuel _
      unfold after
      rw [nextOp_ws ids hw, nextOp_end ids 44 (.inr rfl)]
      dsimp only
      rw [wsp_append hw, wsp_cons rfl]
      rfl
    rw [callArgs, exprLoop_wsp, hsub]
    simp only [R.require, R.bind]
    rw [wsp_cons rfl]
    dsimp only
    rw [if_pos rfl, reads_args hrest n r m (by simp only [List.length_append, List.length_cons] at hn ⊢; omega)
      (by simp only [List.length_append, List.length_cons] at hm ⊢; omega)]
end

end Verif.OData

import Verif.OData.C62
import Verif.OUri.Ident
/-!
# C133: $orderby: reading and writing

`pyslet/odata2/core.py`: `Parser.parse_orderby_option`, `CommonExpression.orderby_from_str`, `orderby_to_str`.
-/
namespace Verif.OUri

open Verif.OData

/-- The direction and what follows it, core.py:1558-1563: 1 is ascending, -1 descending. -/
def direction (s : Str) : Int × Str :=
  match insensitive (chars "asc") s with
  | some r => (1, r)
  | none =>
    match insensitive (chars "desc") s with
    | some r => (-1, r)
    | none => (1, s)

/-- `parse_orderby_option`, core.py:1553-1569, with `require_end`; `none`: a ValueError.  The fuel has to exceed the
length of the text. -/
def orderLoop (ids : Ids) : Nat → Str → Option (List (Expr × Int))
  | 0, _ => none
  | fuel + 1, s =>
    match exprLoop ids (s.length + 1) none none [] (wsp s) with     -- `parse_common_expression()`
    | .ok e r =>
      match wsp (direction (wsp r)).2 with
      | [] => some [(e, (direction (wsp r)).1)]
      | c :: r' => if c = 44 then (orderLoop ids fuel r').map fun l => (e, (direction (wsp r)).1) :: l else none
    | _ => none

/-- `CommonExpression.orderby_from_str(src)`, core.py:412-416. -/
def orderbyFromStr (ids : Ids) (s : Str) : Option (List (Expr × Int)) := orderLoop ids (s.length + 1) s

/-- The text of one rule, core.py:421-423. -/
def ruleText (x : Expr × Int) : Option Str :=
  x.1.text.map fun t => t ++ (32 :: (if x.2 > 0 then chars "asc" else chars "desc"))

/-- `orderby_to_str(orderby)`, core.py:418-423: `none` when an expression has no text. -/
def orderbyToStr : List (Expr × Int) → Option Str
  | [] => some []
  | [x] => ruleText x
  | x :: y :: r => (ruleText x).bind fun t => (orderbyToStr (y :: r)).map fun u => t ++ (44 :: 32 :: u)

/-! ## Specification -/

/-- The text after an expression that gives its direction: nothing, or a word in any case, set off by white space. -/
inductive DirText : Int → Str → Prop
  | default {w : Str} : Ws w → DirText 1 w
  | asc {w k w' : Str} : Ws w → w ≠ [] → lower k = chars "asc" → Ws w' → DirText 1 (w ++ (k ++ w'))
  | desc {w k w' : Str} : Ws w → w ≠ [] → lower k = chars "desc" → Ws w' → DirText (-1) (w ++ (k ++ w'))

/-- A list of rules and its text: expressions of the grammar with their directions, separated by commas. -/
inductive OrderText (ids : Ids) : List (Expr × Int) → Str → Prop
  | one {e : Expr} {d : Int} {t u : Str} : Reads ids 0 e t → DirText d u → OrderText ids [(e, d)] (t ++ u)
  | more {e : Expr} {d : Int} {t u s : Str} {l : List (Expr × Int)} : Reads ids 0 e t → DirText d u → OrderText ids l s →
      OrderText ids ((e, d) :: l) (t ++ (u ++ 44 :: s))

/-! ## Proofs -/

theorem lower_length (s : Str) : (lower s).length = s.length := by simp [lower]

theorem lower_alpha {k : Str} (h : ∀ c ∈ lower k, 97 ≤ c ∧ c ≤ 122) : ∀ c ∈ k, Uri.isAlpha c = true := by
  intro c hc
  have := h _ (List.mem_map.mpr ⟨c, hc, rfl⟩)
  simp only [Uri.isAlpha, Uri.isUpper, Uri.isLower, Bool.or_eq_true, Bool.and_eq_true, decide_eq_true_eq]
  split at this <;> omega

theorem keyword_facts {k : Str} (h : lower k = chars "asc" ∨ lower k = chars "desc") :
    (∀ c ∈ k, Uri.isAlpha c = true) ∧ k ≠ [] ∧ binaryOp k = none := by
  refine ⟨?_, ?_, ?_⟩
  · apply lower_alpha
    intro c hc
    rcases h with h | h <;> rw [h] at hc
    · have : ∀ c ∈ chars "asc", 97 ≤ c ∧ c ≤ 122 := by decide
      exact this c hc
    · have : ∀ c ∈ chars "desc", 97 ≤ c ∧ c ≤ 122 := by decide
      exact this c hc
  · rintro rfl
    rcases h with h | h <;> exact absurd h (by decide)
  · have no : ∀ t : Str, lower t ≠ chars "asc" → lower t ≠ chars "desc" → k ≠ t := by
      rintro t h1 h2 rfl
      rcases h with h | h
      · exact h1 h
      · exact h2 h
    unfold binaryOp
    rw [if_neg (no _ (by decide +kernel) (by decide +kernel)), if_neg (no _ (by decide +kernel) (by decide +kernel)),
      if_neg (no _ (by decide +kernel) (by decide +kernel)), if_neg (no _ (by decide +kernel) (by decide +kernel)),
      if_neg (no _ (by decide +kernel) (by decide +kernel)), if_neg (no _ (by decide +kernel) (by decide +kernel)),
      if_neg (no _ (by decide +kernel) (by decide +kernel)), if_neg (no _ (by decide +kernel) (by decide +kernel)),
      if_neg (no _ (by decide +kernel) (by decide +kernel)), if_neg (no _ (by decide +kernel) (by decide +kernel)),
      if_neg (no _ (by decide +kernel) (by decide +kernel)), if_neg, if_neg, if_neg]
    all_goals
      rintro (h' | h' | h') <;> exact absurd h' (no _ (by decide +kernel) (by decide +kernel))

/-- What may come after the text of a rule. -/
def RuleEnd (r : Str) : Prop := r = [] ∨ ∃ t, r = 44 :: t

theorem wsp_all {w : Str} (hw : Ws w) {r : Str} (hr : RuleEnd r) : wsp (w ++ r) = r := by
  rw [wsp_append hw]
  rcases hr with rfl | ⟨t, rfl⟩
  · rfl
  · exact wsp_cons rfl t

theorem keyword_break (ids : Ids) {w r : Str} (hw : Ws w) (hr : RuleEnd r) : Break ids (w ++ r) := by
  have : Stop (w ++ r) := stop_ws hw r (.inl (by
    rcases hr with rfl | ⟨t, rfl⟩
    · exact .inl rfl
    · exact .inr ⟨44, t, rfl, by omega⟩))
  exact this.brk ids

theorem follow_keyword (ids : Ids) {w k s : Str} (hw : Ws w) (hne : w ≠ [])
    (hk : lower k = chars "asc" ∨ lower k = chars "desc") (hs : Break ids s) : Follow ids 0 (w ++ (k ++ s)) ∧
    nextOp ids (w ++ (k ++ s)) = none ∧ wsp (w ++ (k ++ s)) = k ++ s := by
  obtain ⟨h1, h2, h3⟩ := keyword_facts hk
  have hn := parseIdent_append ids (isName_word ids k h2 h1) hs
  cases k with
  | nil => exact absurd rfl h2
  | cons c k =>
    have hc := h1 c (by simp)
    have hc' : (65 ≤ c ∧ c ≤ 90) ∨ (97 ≤ c ∧ c ≤ 122) := by
      simpa [Uri.isAlpha, Uri.isUpper, Uri.isLower] using hc
    have hws : isWs c = false := by simp [isWs]; omega
    have e : wsp (w ++ (c :: k ++ s)) = c :: k ++ s := by rw [wsp_append hw, List.cons_append, wsp_cons hws]
    have hno : nextOp ids (w ++ (c :: k ++ s)) = none := by
      unfold nextOp
      rw [e, List.cons_append]
      dsimp only
      rw [if_neg (by omega), ← List.cons_append, hn]
      dsimp only
      rw [h3]; rfl
    refine ⟨⟨stop_ws hw _ (.inr hne), ?_, ?_⟩, hno, e⟩
    · rw [e]; simp; omega
    · intro op r' h; rw [hno] at h; cases h

theorem insensitive_hit {k word : Str} (h : lower k = word) (s : Str) : insensitive word (k ++ s) = some s := by
  have hl : word.length = k.length := by rw [← h, lower_length]
  unfold insensitive
  rw [hl, List.take_left, if_pos h, List.drop_left]

theorem insensitive_desc {k : Str} (h : lower k = chars "desc") (s : Str) : insensitive (chars "asc") (k ++ s) = none := by
  unfold insensitive
  rw [if_neg]
  cases k with
  | nil => exact absurd h (by decide)
  | cons c k =>
    intro h'
    have e1 : (lower (c :: k)).head? = some 100 := by rw [h]; rfl
    have e2 : (lower ((c :: k ++ s).take (chars "asc").length)).head? = some 97 := by rw [h']; rfl
    simp only [lower, List.map_cons, List.head?_cons, chars] at e1 e2
    simp at e2
    rw [Option.some.injEq] at e1
    omega

theorem insensitive_end {word r : Str} (hw : word ≠ []) (hc : word.head? ≠ some 44) (hr : RuleEnd r) : insensitive word r = none := by
  unfold insensitive
  rw [if_neg]
  cases word with
  | nil => exact absurd rfl hw
  | cons a word =>
    rcases hr with rfl | ⟨t, rfl⟩
    · simp [lower]
    · intro h
      simp only [List.length_cons, List.take_succ_cons, lower, List.map_cons] at h
      have := (List.cons.inj h).1
      simp at this
      subst this
      exact hc rfl

/-- One rule: the expression parser stops before the direction, and the direction is read. -/
theorem rule_read (ids : Ids) {e : Expr} {d : Int} {t u r : Str} (ht : Reads ids 0 e t) (hu : DirText d u) (hr : RuleEnd r) :
    ∃ q, exprLoop ids ((t ++ (u ++ r)).length + 1) none none [] (wsp (t ++ (u ++ r))) = .ok e q ∧
      (direction (wsp q)).1 = d ∧ wsp (direction (wsp q)).2 = r := by
  have main : ∀ v, Follow ids 0 v → nextOp ids v = none →
      exprLoop ids ((t ++ v).length + 1) none none [] (wsp (t ++ v)) = .ok e (wsp v) := by
    intro v hv hn
    rw [exprLoop_wsp]
    exact reads_loop ht none none [] v (.ok e (wsp v)) (by simp) (by simp) hv (by
      intro fuel _; unfold after; rw [hn]; rfl) _ (by omega)
  cases hu with
  | default hw =>
    have hF : Follow ids 0 (u ++ r) ∧ nextOp ids (u ++ r) = none := by
      have hno : nextOp ids (u ++ r) = none := by
        rcases hr with rfl | ⟨s, rfl⟩
        · unfold nextOp; rw [wsp_all hw (.inl rfl)]
        · rw [nextOp_ws ids hw, nextOp_end ids 44 (.inr rfl)]
      refine ⟨⟨?_, ?_, ?_⟩, hno⟩
      · refine stop_ws hw r (.inl ?_)
        rcases hr with rfl | ⟨t, rfl⟩
        · exact .inl rfl
        · exact .inr ⟨44, t, rfl, by omega⟩
      · rw [wsp_all hw hr]
        rcases hr with rfl | ⟨t, rfl⟩ <;> simp
      · intro op r' h; rw [hno] at h; cases h
    refine ⟨_, main _ hF.1 hF.2, ?_⟩
    rw [wsp_wsp, wsp_all hw hr]
    unfold direction
    rw [insensitive_end (by decide) (by decide) hr]
    dsimp only
    rw [insensitive_end (by decide) (by decide) hr]
    exact ⟨rfl, by have := wsp_all (w := []) (by intro c hc; cases hc) hr; exact this⟩
  | @asc w k w' hw hne hk hw' =>
    obtain ⟨h1, h2, h3⟩ := follow_keyword ids hw hne (.inl hk) (keyword_break ids hw' hr)
    have e : w ++ (k ++ w') ++ r = w ++ (k ++ (w' ++ r)) := by simp
    rw [e]
    refine ⟨_, main _ h1 h2, ?_⟩
    rw [wsp_wsp, h3]
    unfold direction
    rw [insensitive_hit hk]
    exact ⟨rfl, wsp_all hw' hr⟩
  | @desc w k w' hw hne hk hw' =>
    obtain ⟨h1, h2, h3⟩ := follow_keyword ids hw hne (.inr hk) (keyword_break ids hw' hr)
    have e : w ++ (k ++ w') ++ r = w ++ (k ++ (w' ++ r)) := by simp
    rw [e]
    refine ⟨_, main _ h1 h2, ?_⟩
    rw [wsp_wsp, h3]
    unfold direction
    rw [insensitive_desc hk]
    dsimp only
    rw [insensitive_hit hk]
    exact ⟨rfl, wsp_all hw' hr⟩

theorem orderLoop_text (ids : Ids) {l : List (Expr × Int)} {s : Str} (h : OrderText ids l s) : ∀ fuel, s.length < fuel →
    orderLoop ids fuel s = some l := by
  induction h with
  | @one e d t u ht hu =>
    intro fuel hf
    obtain ⟨n, rfl⟩ : ∃ n, fuel = n + 1 := ⟨fuel - 1, by omega⟩
    obtain ⟨q, h1, h2, h3⟩ := rule_read ids ht hu (.inl rfl)
    rw [List.append_nil] at h1
    unfold orderLoop
    rw [h1]
    dsimp only
    rw [h3, h2]
  | @more e d t u s l ht hu _ ih =>
    intro fuel hf
    obtain ⟨n, rfl⟩ : ∃ n, fuel = n + 1 := ⟨fuel - 1, by omega⟩
    simp only [List.length_append, List.length_cons] at hf
    obtain ⟨q, h1, h2, h3⟩ := rule_read ids ht hu (.inr ⟨s, rfl⟩)
    unfold orderLoop
    rw [h1]
    dsimp only
    rw [h3, h2]
    dsimp only
    rw [if_pos rfl, ih n (by omega)]
    rfl

/-- C133: $orderby is read as the grammar says: expressions separated by commas, each with a direction in any case of
letters, ascending when none is given. -/
theorem C133_orderby_read (ids : Ids) {l : List (Expr × Int)} {s : Str} (h : OrderText ids l s) :
    orderbyFromStr ids s = some l := orderLoop_text ids h _ (by omega)

/-- A text stands for one list of rules at most. -/
theorem C133_unambiguous (ids : Ids) {l l' : List (Expr × Int)} {s : Str} (h : OrderText ids l s) (h' : OrderText ids l' s) :
    l = l' := by
  have := (C133_orderby_read ids h).symm.trans (C133_orderby_read ids h')
  exact Option.some.inj this

/-- C133: rules that were written are read back: the same expressions in the same order, with the same directions.
Proved for the expressions that C62 covers. -/
theorem C133_orderby_round_trip_partial (ids : Ids) (l : List (Expr × Int)) (hne : l ≠ [])
    (h : ∀ x ∈ l, Faithful ids x.1 ∧ (x.2 = 1 ∨ x.2 = -1)) :
    ∃ s, orderbyToStr l = some s ∧ orderbyFromStr ids s = some l := by
  suffices ∃ s, orderbyToStr l = some s ∧ OrderText ids l s ∧ OrderText ids l (32 :: s) by
    obtain ⟨s, h1, h2, -⟩ := this
    exact ⟨s, h1, C133_orderby_read ids h2⟩
  have one : ∀ x : Expr × Int, Faithful ids x.1 ∧ (x.2 = 1 ∨ x.2 = -1) → ∃ t u, ruleText x = some (t ++ u) ∧ Reads ids 0 x.1 t ∧
      DirText x.2 u := by
    rintro ⟨e, d⟩ ⟨h1, h2⟩
    obtain ⟨t, a, b⟩ := faithful_reads h1
    refine ⟨t, 32 :: (if d > 0 then chars "asc" else chars "desc"), ?_, b 0 (fun o _ => .inl (Nat.zero_le _)), ?_⟩
    · simp only [ruleText, a, Option.map_some]
    · dsimp only at h2
      rcases h2 with rfl | rfl
      · exact .asc (w := [32]) (k := chars "asc") (w' := []) ws_one (by simp) (by decide) ws_nil
      · exact .desc (w := [32]) (k := chars "desc") (w' := []) ws_one (by simp) (by decide) ws_nil
  induction l with
  | nil => exact absurd rfl hne
  | cons x l ih =>
    obtain ⟨t, u, h1, h2, h3⟩ := one x (h x (by simp))
    have h2' : Reads ids 0 x.1 (32 :: t) := Reads.space (w := [32]) h2 ws_one
    cases l with
    | nil =>
      refine ⟨t ++ u, h1, .one h2 h3, ?_⟩
      have := OrderText.one h2' h3
      simpa using this
    | cons y l =>
      obtain ⟨s, k1, -, k3⟩ := ih (by simp) (fun z hz => h z (by simp [hz]))
      refine ⟨t ++ u ++ (44 :: 32 :: s), ?_, ?_, ?_⟩
      · simp only [orderbyToStr, h1, Option.bind_some, k1, Option.map_some]
      · have := OrderText.more h2 h3 k3
        simpa using this
      · have := OrderText.more h2' h3 k3
        simpa using this

/-- "A desc, (A or B) asc" -/
example (ids : Ids) : ∃ s, orderbyToStr [(pA, -1), (.node .or [pA, pB], 1)] = some s ∧
    orderbyFromStr ids s = some [(pA, -1), (.node .or [pA, pB], 1)] :=
  C133_orderby_round_trip_partial ids _ (by simp) (by
    intro x hx
    simp only [List.mem_cons, List.not_mem_nil, or_false] at hx
    rcases hx with rfl | rfl
    · exact ⟨faithful_A ids, .inr rfl⟩
    · exact ⟨.binary (.inl rfl) (faithful_A ids) (faithful_B ids) (by intro o h; cases h), .inl rfl⟩)
example : orderbyToStr [(pA, -1), (pB, 1)] = some (chars "A desc, B asc") := by decide +kernel

/-- The empty list is written as the empty text, which is refused. -/
theorem C133_empty_violation (ids : Ids) : orderbyToStr [] = some [] ∧ orderbyFromStr ids [] = none := by
  refine ⟨rfl, ?_⟩
  simp [orderbyFromStr, orderLoop, wsp, exprLoop, item, plainItem, parseLit, parseIdent, identLoop]

end Verif.OUri

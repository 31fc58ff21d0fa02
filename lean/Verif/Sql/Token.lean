import Verif.Sql.Page
import Verif.OData.C61
import Verif.OData.ExprProps
import Mathlib.Data.List.Forall2
/-!
# C90: the text of a skiptoken: `pyslet/odata2/sqlds.py` lines 548-589
-/
namespace Verif.Sql
open Verif.OData Verif.Text

/-- `next_skiptoken`, sqlds.py:582-589, for a token with at least one value: the literals joined by commas. -/
def tokenText : List Val → Option Str
  | [] => some []
  | [v] => formatLit v
  | v :: vs =>
    match formatLit v, tokenText vs with
    | some t, some s => some (t ++ 44 :: s)
    | _, _ => none

/-- The loop of `set_page`, sqlds.py:551-563: literals with white space around them, separated by commas.  The first
argument bounds the number of literals by the length of the text. -/
def parseTokens (ids : Ids) : Nat → Str → Option (List Val)
  | 0, _ => none
  | n + 1, s =>
    match parseLit ids (wsp s) with
    | .ok v r =>
      match wsp r with
      | [] => some [v]
      | c :: r => if c = 44 then (parseTokens ids n r).map (v :: ·) else none
    | _ => none

/-- The token that `set_page` reads. -/
def parseToken (ids : Ids) (s : Str) : Option (List Val) := parseTokens ids (s.length + 1) s

theorem parseTokens_text (ids : Ids) : ∀ (vs : List Val), vs ≠ [] → (∀ v ∈ vs, Legal v) →
    ∃ t ws, tokenText vs = some t ∧ List.Forall₂ SameValue vs ws ∧
      ∀ n, vs.length ≤ n → parseTokens ids n t = some ws
  | [], h, _ => absurd rfl h
  | [v], _, hv => by
    obtain ⟨t, w, h1, h2, h3⟩ := C61_uri_literal_round_trip ids (hv v (by simp))
    refine ⟨t, [w], h1, .cons h2 .nil, ?_⟩
    intro n hn
    obtain ⟨m, rfl⟩ : ∃ m, n = m + 1 := ⟨n - 1, by simp at hn; omega⟩
    obtain ⟨c, s, rfl, hc, _⟩ := litText_head h3
    have h4 := h3 [] (.inl rfl)
    rw [List.append_nil] at h4
    rw [parseTokens, wsp_cons hc, h4]
    rfl
  | v :: v2 :: vs, _, hv => by
    obtain ⟨t, w, h1, h2, h3⟩ := C61_uri_literal_round_trip ids (hv v (by simp))
    obtain ⟨t2, ws, k1, k2, k3⟩ := parseTokens_text ids (v2 :: vs) (by simp) (fun x hx => hv x (List.mem_cons_of_mem _ hx))
    refine ⟨t ++ 44 :: t2, w :: ws, ?_, .cons h2 k2, ?_⟩
    · rw [tokenText, h1, k1]; simp
    · intro n hn
      obtain ⟨m, rfl⟩ : ∃ m, n = m + 1 := ⟨n - 1, by simp at hn; omega⟩
      obtain ⟨c, s, rfl, hc, _⟩ := litText_head h3
      have h4 := h3 (44 :: t2) (.inr ⟨44, t2, rfl, by simp⟩)
      rw [List.cons_append] at h4 ⊢
      rw [parseTokens, wsp_cons hc, h4]
      dsimp only
      rw [wsp_cons (by decide)]
      dsimp only
      rw [if_pos rfl, k3 m (by simpa using hn)]
      rfl

theorem sameValue_param {v w : Val} (h : SameValue v w) : paramVal w = paramVal v := by
  cases h <;> rfl

theorem litText_ne_nil {ids : Ids} {v : Val} {t : Str} (h : LitText ids v t) : 0 < t.length := by
  obtain ⟨c, s, rfl, _⟩ := litText_head h
  simp

theorem tokenText_length (ids : Ids) : ∀ (vs : List Val), (∀ v ∈ vs, Legal v) → ∀ t, tokenText vs = some t →
    vs.length ≤ t.length + 1
  | [], _, _, _ => by simp
  | [v], _, t, _ => by simp
  | v :: v2 :: vs, hv, t, h => by
    obtain ⟨t1, w, h1, h2, h3⟩ := C61_uri_literal_round_trip ids (hv v (by simp))
    rw [tokenText, h1] at h
    cases hs : tokenText (v2 :: vs) with
    | none => rw [hs] at h; cases h
    | some s =>
      rw [hs] at h
      have ih := tokenText_length ids (v2 :: vs) (fun x hx => hv x (List.mem_cons_of_mem _ hx)) s hs
      have := Option.some.inj h
      subst this
      simp only [List.length_cons, List.length_append] at ih ⊢
      omega
    simp

/-- **C90** (for the values that C61 covers: not floating point).  The text of a skiptoken is read as a token with the
same values, which are sent to the database as the same parameters. -/
theorem C90_token_round_trip_partial (ids : Ids) (token : List Val) (hne : token ≠ []) (h : ∀ v ∈ token, Legal v) :
    ∃ text token', tokenText token = some text ∧ parseToken ids text = some token' ∧
      List.Forall₂ SameValue token token' ∧ token'.map paramVal = token.map paramVal := by
  obtain ⟨t, ws, h1, h2, h3⟩ := parseTokens_text ids token hne h
  refine ⟨t, ws, h1, h3 _ ?_, h2, ?_⟩
  · exact tokenText_length ids token h t h1
  · clear h1 h3 h hne
    induction h2 with
    | nil => rfl
    | cons hv _ ih => rw [List.map_cons, List.map_cons, ih, sameValue_param hv]

variable {R : Type}

/-- A page that is requested with the text of the token of the last one continues after it (C89 with the token sent
as text). -/
theorem C90_page_after_text_partial (ids : Ids) (T : Table R) (rows : List R) (h : Ordered T rows) (hd : T.dirs ≠ [])
    (hlen : ∀ r ∈ rows, (T.key r).length = T.dirs.length) (hlegal : ∀ r ∈ rows, ∀ v ∈ T.key r, Legal v) (i : Nat)
    (r : R) (hr : rows[i]? = some r) (top : Option Nat) :
    ∃ text token st, tokenText (T.key r) = some text ∧ parseToken ids text = some token ∧
      setPage T.dirs.length top 0 (some token) = some st ∧ st.top = top ∧
      (rows.filter (sel T st.token)).drop st.skip = rows.drop (i + 1) := by
  have hm : r ∈ rows := List.mem_of_getElem? hr
  have hne : T.key r ≠ [] := by
    intro he
    have := hlen r hm
    rw [he] at this
    exact hd (List.eq_nil_of_length_eq_zero this.symm)
  obtain ⟨text, token, h1, h2, h3, h4⟩ := C90_token_round_trip_partial ids (T.key r) hne (hlegal r hm)
  have hl : token.length = T.dirs.length := by rw [← h3.length_eq, hlen r hm]
  refine ⟨text, token, ⟨top, 0, some token, none⟩, h1, h2, ?_, rfl, ?_⟩
  · unfold setPage
    dsimp only
    rw [if_neg (by omega), if_pos hl]
  · dsimp only
    have hs : sel T (some token) = sel T (some (T.key r)) := by
      funext x
      show afterKey _ _ _ = afterKey _ _ _
      rw [h4]
    rw [hs, sel_key T rows h i r hr]
    rfl

/-- The token `'O''Neil',7`. -/
example (ids : Ids) : tokenText [.str (chars "O'Neil"), .i32 7] = some (chars "'O''Neil',7") ∧
    ∀ v ∈ [Val.str (chars "O'Neil"), .i32 7], Legal v := by
  refine ⟨by decide +kernel, ?_⟩
  intro v hv
  simp only [List.mem_cons, List.not_mem_nil, or_false] at hv
  rcases hv with rfl | rfl
  · exact .str _
  · exact .i32 _ (by decide)

end Verif.Sql

import Mathlib.Data.List.Sort
import Mathlib.Data.List.Lex
import Mathlib.Data.Prod.Lex

/-!
# C124, C125: content negotiation (pyslet/http/messages.py:2076-2495)

Quality values are counted in thousandths.  Texts are lists of codes; the case of ASCII letters only is changed by `lower`.
-/
namespace Verif.Neg

abbrev Str := List Nat

/-! ### Model -/

/-- `str.lower` for ASCII. -/
def lower (s : Str) : Str := s.map (fun c => if 65 ≤ c ∧ c ≤ 90 then c + 32 else c)

/-- `"*"`. -/
def star : Str := [42]

/-- `"~"`. -/
def tilde : Str := [126]

/-- `MediaRange`, messages.py:2076-2102, with the sorted parameters `_hp` (params.py:489-497). -/
structure MRange where
  type : Str
  subtype : Str
  hp : List (Str × Str)
  deriving DecidableEq

/-- `MediaType`, params.py:464-497, with its parameters by name. -/
structure MType where
  type : Str
  subtype : Str
  params : List (Str × Str)
  deriving DecidableEq

/-- `parameters[p][1]`. -/
def MType.param (m : MType) (p : Str) : Option Str := (m.params.find? (·.1 == p)).map (·.2)

/-- `MediaRange.match_media_type`, messages.py:2125-2166. -/
def MRange.matchType (r : MRange) (m : MType) : Bool :=
  if r.type = star then true
  else if lower r.type ≠ lower m.type then false
  else if r.subtype = star then true
  else if lower r.subtype ≠ lower m.subtype then false
  else r.hp.all (fun pv => m.param pv.1 == some pv.2)

/-- `AcceptItem`, messages.py:2172-2187. -/
structure AItem where
  range : MRange
  q : Nat
  deriving DecidableEq

/-- `'~' if x == '*' else x`. -/
def unstar (s : Str) : Str := if s = star then tilde else s

/-- `AcceptItem.sortkey` and `MediaRange.sortkey`, messages.py:2119-2123, 2209-2210. -/
def AItem.key (a : AItem) : Str ×ₗ Str ×ₗ Int ×ₗ List (Str ×ₗ Str) ×ₗ Int :=
  toLex (unstar a.range.type, toLex (unstar a.range.subtype, toLex (-(a.range.hp.length : Int),
    toLex (a.range.hp.map (fun p => toLex p), -(a.q : Int)))))

/-- `list.sort` by a key: a stable sort. -/
def sortBy {α K : Type} [LinearOrder K] (key : α → K) (l : List α) : List α := l.insertionSort (fun a b => key a ≤ key b)

/-- The loops of `select_type` and `select_token`, messages.py:2230-2251, 2334-2357: `bestmatch` and `bestq` in turn; `first x` is the
quality of the first item that matches `x`. -/
def selLoop {τ : Type} (first : τ → Option Nat) : Option τ → Nat → List τ → Option τ
  | best, _, [] => best
  | best, bq, x :: r =>
    match first x with
    | some q => if q > bq then selLoop first (some x) q r else selLoop first best bq r
    | none => selLoop first best bq r

/-- `AcceptList.select_type`, messages.py:2226-2251. -/
def selectType (items : List AItem) (l : List MType) : Option MType :=
  selLoop (fun m => ((sortBy AItem.key items).find? (fun a => a.range.matchType m)).map (·.q)) none 0 l

/-- `AcceptToken`, messages.py:2274-2288. -/
structure ATok where
  token : Str
  q : Nat
  deriving DecidableEq

/-- `AcceptToken.sortkey`, messages.py:2309-2314. -/
def ATok.key (a : ATok) : Str ×ₗ Int := toLex (unstar a.token, -(a.q : Int))

/-- The test of `select_token`, messages.py:2345, 2400, 2433. -/
def ATok.matchTok (a : ATok) (t : Str) : Bool := lower a.token == lower t || lower a.token == star

/-- The first item that matches a token. -/
def firstTok (items : List ATok) (t : Str) : Option Nat := ((sortBy ATok.key items).find? (fun a => a.matchTok t)).map (·.q)

/-- `AcceptTokenList.select_token`, messages.py:2330-2357. -/
def selectToken (items : List ATok) (l : List Str) : Option Str := selLoop (firstTok items) none 0 l

/-- `"iso-8859-1"`. -/
def latin1 : Str := [105, 115, 111, 45, 56, 56, 53, 57, 45, 49]

/-- `AcceptCharsetList.select_token`, messages.py:2391-2410: a token without a match that is `iso-8859-1` has the quality 1. -/
def selectCharset (items : List ATok) (l : List Str) : Option Str :=
  selLoop (fun t => match firstTok items t with | some q => some q | none => if lower t = latin1 then some 1000 else none) none 0 l

/-- `"identity"`. -/
def identity : Str := [105, 100, 101, 110, 116, 105, 116, 121]

/-- `AcceptEncodingList.select_token`, messages.py:2424-2449. -/
def encLoop (items : List ATok) : Option Str → Nat → List Str → Option Str
  | best, _, [] => best
  | best, bq, x :: r =>
    match firstTok items x with
    | some q => if q > bq then encLoop items (some x) q r else encLoop items best bq r
    | none => if lower x = identity ∧ bq = 0 then encLoop items (some x) bq r else encLoop items best bq r

def selectEncoding (items : List ATok) (l : List Str) : Option Str := encLoop items none 0 l

/-- `AcceptLanguageItem`, messages.py:2452-2461: its range, the empty one for `*`. -/
structure ALang where
  range : List Str
  q : Nat
  deriving DecidableEq

/-- `AcceptLanguageItem.sortkey`, messages.py:2463-2466. -/
def ALang.key (a : ALang) : Int ×ₗ List Str := toLex (-(a.range.length : Int), a.range)

/-- `LanguageTag.partial_match`, params.py: the components of the tag are compared in lower case (`_tag`). -/
def partialMatch (tag range : List Str) : Bool :=
  if range.length > tag.length then false
  else (List.range range.length).all (fun i => (tag.map lower)[i]? == range[i]?)

/-- `AcceptLanguageList.select_language`, messages.py:2484-2495. -/
def selectLanguage (items : List ALang) (l : List (List Str)) : Option (List Str) :=
  selLoop (fun t => ((sortBy ALang.key items).find? (fun a => partialMatch t a.range)).map (·.q)) none 0 l

/-! ### Specification -/

/-- What is chosen, given the quality of each: the first of the best, none if all have the quality 0. -/
def BestOf {τ : Type} (quality : τ → Nat) (l : List τ) (res : Option τ) : Prop :=
  match res with
  | none => ∀ x ∈ l, quality x = 0
  | some x => ∃ a b, l = a ++ x :: b ∧ 0 < quality x ∧ (∀ y ∈ a, quality y < quality x) ∧ ∀ y ∈ b, quality y ≤ quality x

/-- The quality is that of one of the most specific items that match, and 0 if none does. -/
def MostSpecific {α : Type} (items : List α) (hit : α → Prop) (spec : α → Nat) (q : α → Nat) (n : Nat) : Prop :=
  (∃ a ∈ items, hit a ∧ (∀ b ∈ items, hit b → spec b ≤ spec a) ∧ n = q a) ∨ ((∀ a ∈ items, ¬ hit a) ∧ n = 0)

/-- RFC 2616, 14.1: the media types of a range. -/
def InRange (r : MRange) (m : MType) : Prop :=
  r.type = star ∨ (lower r.type = lower m.type ∧ (r.subtype = star ∨
    (lower r.subtype = lower m.subtype ∧ ∀ p v, (p, v) ∈ r.hp → m.param p = some v)))

/-- How specific a range is: all types, the types of a kind, a type, a type with parameters. -/
def specificity (r : MRange) : Nat := if r.type = star then 0 else if r.subtype = star then 1 else 2 + r.hp.length

/-- A range as it is read from a header: in lower case, with `*` as the type only together with `*` as the subtype, and names that do
not start with `~`. -/
structure Plain (r : MRange) : Prop where
  type : lower r.type = r.type
  subtype : lower r.subtype = r.subtype
  both : r.type = star → r.subtype = star
  noTilde : r.type.head? ≠ some 126 ∧ r.subtype.head? ≠ some 126
  ascii : (∀ c ∈ r.type, c < 127) ∧ ∀ c ∈ r.subtype, c < 127

/-! ### The loop -/

theorem selLoop_best {τ : Type} (first : τ → Option Nat) (l : List τ) :
    BestOf (fun x => (first x).getD 0) l (selLoop first none 0 l) := by
  have key : ∀ (l : List τ) (pre : List τ) (best : Option τ) (bq : Nat),
      BestOf (fun x => (first x).getD 0) pre best → bq = (best.map (fun x => (first x).getD 0)).getD 0 →
      BestOf (fun x => (first x).getD 0) (pre ++ l) (selLoop first best bq l) := by
    intro l
    induction l with
    | nil => intro pre best bq h _; simpa [selLoop] using h
    | cons x r ih =>
      intro pre best bq h hb
      have hcat : pre ++ x :: r = (pre ++ [x]) ++ r := by simp
      rw [hcat]
      unfold selLoop
      have hkeep : (first x).getD 0 ≤ bq → BestOf (fun x => (first x).getD 0) (pre ++ [x]) best := by
        intro hle
        cases best with
        | none =>
          intro y hy
          rcases List.mem_append.1 hy with hy | hy
          · exact h y hy
          · rw [List.mem_singleton] at hy; subst hy
            simp only [Option.map_none, Option.getD_none] at hb
            dsimp only
            omega
        | some z =>
          obtain ⟨a, b, e, h0, h1, h2⟩ := h
          refine ⟨a, b ++ [x], by rw [e]; simp, h0, h1, ?_⟩
          intro y hy
          rcases List.mem_append.1 hy with hy | hy
          · exact h2 y hy
          · rw [List.mem_singleton] at hy; subst hy
            simp only [Option.map_some, Option.getD_some] at hb
            dsimp only
            omega
      cases hf : first x with
      | none => exact ih _ _ _ (hkeep (by rw [hf]; exact Nat.zero_le _)) hb
      | some q =>
        dsimp only
        split
        · rename_i hq
          refine ih _ _ _ ?_ (by simp [hf])
          refine ⟨pre, [], by simp, by simp only [hf, Option.getD_some]; omega, ?_, fun y hy => nomatch hy⟩
          intro y hy
          simp only [hf, Option.getD_some]
          have : (first y).getD 0 ≤ bq := by
            cases best with
            | none => have := h y hy; simp only at this; omega
            | some z =>
              simp only [Option.map_some, Option.getD_some] at hb
              obtain ⟨a, b, e, h0, h1, h2⟩ := h
              rw [e] at hy
              rcases List.mem_append.1 hy with hy | hy
              · have := h1 y hy; simp only at this; omega
              · cases hy with
                | head => omega
                | tail _ hy => have := h2 y hy; simp only at this; omega
          omega
        · rename_i hq
          exact ih _ _ _ (hkeep (by rw [hf, Option.getD_some]; omega)) hb
  simpa using key l [] none 0 (fun x hx => nomatch hx) rfl

theorem mem_sortBy {α K : Type} [LinearOrder K] (key : α → K) (l : List α) (a : α) : a ∈ sortBy key l ↔ a ∈ l :=
  List.mem_insertionSort _

/-- The first item that matches in a sorted list is one with the smallest key of those that match. -/
theorem find_sorted {α K : Type} [LinearOrder K] (key : α → K) (l : List α) (p : α → Bool) (a : α)
    (h : (sortBy key l).find? p = some a) : a ∈ l ∧ p a = true ∧ ∀ b ∈ l, p b = true → key a ≤ key b := by
  have hs : (sortBy key l).Pairwise (fun a b => key a ≤ key b) := by
    have : Std.Total (fun a b : α => key a ≤ key b) := ⟨fun a b => le_total _ _⟩
    have : IsTrans α (fun a b => key a ≤ key b) := ⟨fun a b c => le_trans⟩
    exact List.pairwise_insertionSort _ l
  refine ⟨(mem_sortBy key l a).1 (List.mem_of_find?_eq_some h), List.find?_some h, ?_⟩
  intro b hb hp
  rw [List.find?_eq_some_iff_append] at h
  obtain ⟨-, u, v, e, hu⟩ := h
  have hb' := (mem_sortBy key l b).2 hb
  rw [e] at hb' hs
  rcases List.mem_append.1 hb' with h1 | h1
  · have := hu b h1
    rw [hp] at this
    cases this
  · cases h1 with
    | head => exact le_refl _
    | tail _ h1 => exact (List.pairwise_cons.1 (List.pairwise_append.1 hs).2.1).1 b h1

theorem find_sorted_none {α K : Type} [LinearOrder K] (key : α → K) (l : List α) (p : α → Bool)
    (h : (sortBy key l).find? p = none) : ∀ b ∈ l, p b = false := by
  intro b hb
  have := List.find?_eq_none.1 h b ((mem_sortBy key l b).2 hb)
  simpa using this

/-- A more specific item has a smaller key. -/
theorem mostSpecific_first {α K : Type} [LinearOrder K] (key : α → K) (l : List α) (p : α → Bool) (hit : α → Prop)
    (hp : ∀ a, p a = true ↔ hit a) (spec : α → Nat) (q : α → Nat)
    (hk : ∀ a ∈ l, ∀ b ∈ l, hit a → hit b → spec a < spec b → key b < key a) :
    MostSpecific l hit spec q ((((sortBy key l).find? p).map q).getD 0) := by
  cases h : (sortBy key l).find? p with
  | none =>
    refine Or.inr ⟨?_, rfl⟩
    intro a ha hh
    have := find_sorted_none key l p h a ha
    rw [(hp a).2 hh] at this
    cases this
  | some a =>
    obtain ⟨h1, h2, h3⟩ := find_sorted key l p a h
    refine Or.inl ⟨a, h1, (hp a).1 h2, ?_, rfl⟩
    intro b hb hh
    by_contra hlt
    have := hk a h1 b hb ((hp a).1 h2) hh (by omega)
    exact absurd (h3 b hb ((hp b).2 hh)) (not_le.2 this)

/-! ### Media types -/

theorem matchType_iff (r : MRange) (m : MType) : r.matchType m = true ↔ InRange r m := by
  unfold MRange.matchType InRange
  by_cases h1 : r.type = star
  · simp [h1]
  · rw [if_neg h1]
    by_cases h2 : lower r.type = lower m.type
    · by_cases h3 : r.subtype = star
      · simp [h2, h3]
      · by_cases h4 : lower r.subtype = lower m.subtype
        · simp [h1, h2, h3, h4]
        · simp [h1, h2, h3, h4]
    · simp [h1, h2]

theorem lt_tilde {s : Str} (h : s.head? ≠ some 126) (ha : ∀ c ∈ s, c < 127) : s < tilde := by
  unfold tilde
  cases s with
  | nil => exact List.nil_lt_cons _ _
  | cons c s =>
    have h1 : c < 127 := ha c (by simp)
    have h2 : c ≠ 126 := fun e => h (by simp [e])
    exact List.Lex.rel (by omega)

theorem key_lt (a b : AItem) (ha : Plain a.range) (hb : Plain b.range) (m : MType) (hia : InRange a.range m) (hib : InRange b.range m)
    (h : specificity a.range < specificity b.range) : b.key < a.key := by
  unfold specificity at h
  unfold AItem.key
  have hbt : b.range.type ≠ star := by
    intro e
    rw [if_pos e] at h
    omega
  rw [if_neg hbt] at h
  by_cases hat : a.range.type = star
  · -- all types
    rw [Prod.Lex.toLex_lt_toLex]
    left
    unfold unstar
    rw [if_pos hat, if_neg hbt]
    exact lt_tilde hb.noTilde.1 hb.ascii.1
  · rw [if_neg hat] at h
    have hteq : a.range.type = b.range.type := by
      rcases hia with e | ⟨e1, -⟩
      · exact absurd e hat
      · rcases hib with e | ⟨e2, -⟩
        · exact absurd e hbt
        · rw [← ha.type, ← hb.type, e1, e2]
    rw [Prod.Lex.toLex_lt_toLex]
    right
    refine ⟨by rw [hteq], ?_⟩
    by_cases hbs : b.range.subtype = star
    · rw [if_pos hbs] at h
      split at h <;> omega
    · rw [if_neg hbs] at h
      by_cases has : a.range.subtype = star
      · rw [Prod.Lex.toLex_lt_toLex]
        left
        unfold unstar
        rw [if_pos has, if_neg hbs]
        exact lt_tilde hb.noTilde.2 hb.ascii.2
      · rw [if_neg has] at h
        have hseq : a.range.subtype = b.range.subtype := by
          rcases hia with e | ⟨-, e | ⟨e1, -⟩⟩
          · exact absurd e hat
          · exact absurd e has
          · rcases hib with e | ⟨-, e | ⟨e2, -⟩⟩
            · exact absurd e hbt
            · exact absurd e hbs
            · rw [← ha.subtype, ← hb.subtype, e1, e2]
        rw [Prod.Lex.toLex_lt_toLex]
        right
        refine ⟨by rw [hseq], ?_⟩
        rw [Prod.Lex.toLex_lt_toLex]
        left
        dsimp only
        omega

/-- C124: `select_type` chooses the first of the media types of the highest quality, where the quality of a type is that of the most
specific range that it is in (RFC 2616, 14.1); it chooses nothing exactly if all have the quality 0 (which is that of a type in none of
the ranges). -/
theorem C124_select_type_partial (items : List AItem) (hp : ∀ a ∈ items, Plain a.range) (l : List MType) :
    ∃ quality : MType → Nat,
      (∀ m, MostSpecific items (fun a => InRange a.range m) (fun a => specificity a.range) (fun a => a.q) (quality m)) ∧
      BestOf quality l (selectType items l) := by
  refine ⟨_, ?_, selLoop_best _ l⟩
  intro m
  exact mostSpecific_first AItem.key items (fun a => a.range.matchType m) (fun a => InRange a.range m)
    (fun a => matchType_iff a.range m) _ _ (fun a ha b hb => key_lt a b (hp a ha) (hp b hb) m)

end Verif.Neg

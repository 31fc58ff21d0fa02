import Verif.Neg.Accept

/-!
# C124, C125: cases, character sets, encodings and languages
-/
namespace Verif.Neg

/-! ### Cases of C124 -/

/-- `text/html;level=1;q=0.1`, `text/html;q=0.7`, `text/*;q=0.3`, `*/*;q=0.5`, with names of one letter. -/
def demoItems : List AItem :=
  [⟨⟨star, star, []⟩, 500⟩, ⟨⟨[116], star, []⟩, 300⟩, ⟨⟨[116], [104], []⟩, 700⟩, ⟨⟨[116], [104], [([108], [49])]⟩, 100⟩]

theorem plain_check (r : MRange) (h : (lower r.type == r.type && lower r.subtype == r.subtype && (r.type != star || r.subtype == star) &&
    r.type.head? != some 126 && r.subtype.head? != some 126 && r.type.all (· < 127) && r.subtype.all (· < 127)) = true) : Plain r := by
  simp only [Bool.and_eq_true, beq_iff_eq, Bool.or_eq_true, bne_iff_ne, ne_eq, List.all_eq_true, decide_eq_true_eq] at h
  obtain ⟨⟨⟨⟨⟨⟨h1, h2⟩, h3⟩, h4⟩, h5⟩, h6⟩, h7⟩ := h
  exact ⟨h1, h2, fun e => h3.resolve_left (fun hn => hn e), ⟨h4, h5⟩, ⟨h6, h7⟩⟩

example : ∀ a ∈ demoItems, Plain a.range := by
  intro a ha
  simp only [demoItems, List.mem_cons, List.not_mem_nil, or_false] at ha
  rcases ha with rfl | rfl | rfl | rfl <;> exact plain_check _ (by decide)

example : selectType demoItems [⟨[116], [104], [([108], [49])]⟩, ⟨[116], [112], []⟩, ⟨[105], [106], []⟩, ⟨[116], [104], []⟩] =
    some ⟨[116], [104], []⟩ := by decide +kernel
example : selectType demoItems [⟨[116], [104], [([108], [49])]⟩, ⟨[116], [112], []⟩, ⟨[105], [106], []⟩] = some ⟨[105], [106], []⟩ := by
  decide +kernel
example : selectType [⟨⟨[116], [104], []⟩, 0⟩, ⟨⟨star, star, []⟩, 1000⟩] [⟨[116], [104], []⟩] = none := by decide +kernel

/-- C124 is violated for ranges that are not in lower case (which can be constructed, but not read): `T/*` goes before `t/h`. -/
theorem C124_violation_case :
    selectType [⟨⟨[84], star, []⟩, 0⟩, ⟨⟨[116], [104], []⟩, 1000⟩] [⟨[116], [104], []⟩] = none := by decide +kernel

/-- C124 is violated for names that start with `~`, which go after `*`. -/
theorem C124_violation_tilde :
    selectType [⟨⟨star, star, []⟩, 0⟩, ⟨⟨[126, 97], [104], []⟩, 1000⟩] [⟨[126, 97], [104], []⟩] = none := by decide +kernel

/-- C124 is violated for `*/h`, which is accepted and taken as more specific than `*/*` for all types. -/
theorem C124_violation_star :
    selectType [⟨⟨star, [104], []⟩, 0⟩, ⟨⟨star, star, []⟩, 1000⟩] [⟨[105], [106], []⟩] = none := by decide +kernel

/-! ### Tokens -/

/-- An item names a token, in any case, or is `*`. -/
def Names (a : ATok) (t : Str) : Prop := lower a.token = lower t ∨ lower a.token = star

/-- A token is more specific than `*`. -/
def tokSpec (a : ATok) : Nat := if lower a.token = star then 0 else 1

/-- A token that does not start with `~`. -/
def PlainTok (a : ATok) : Prop := a.token.head? ≠ some 126 ∧ ∀ c ∈ a.token, c < 127

theorem matchTok_iff (a : ATok) (t : Str) : a.matchTok t = true ↔ Names a t := by
  unfold ATok.matchTok Names
  rw [Bool.or_eq_true, beq_iff_eq, beq_iff_eq]

theorem lower_star {s : Str} (h : lower s = star) : s = star := by
  unfold lower star at *
  cases s with
  | nil => cases h
  | cons c s =>
    simp only [List.map_cons, List.cons.injEq, List.map_eq_nil_iff] at h
    obtain ⟨h1, h2⟩ := h
    subst h2
    split at h1
    · omega
    · rw [h1]

theorem tok_key_lt (a b : ATok) (hb : PlainTok b) (h : tokSpec a < tokSpec b) : b.key < a.key := by
  unfold tokSpec at h
  have hbs : lower b.token ≠ star := by
    intro e
    rw [if_pos e] at h
    omega
  have has : lower a.token = star := by
    by_contra e
    rw [if_neg e, if_neg hbs] at h
    omega
  unfold ATok.key
  rw [Prod.Lex.toLex_lt_toLex]
  left
  unfold unstar
  rw [if_pos (lower_star has), if_neg (fun e => hbs (by rw [e]; decide))]
  exact lt_tilde hb.1 hb.2

/-- The quality of a token: that of an item that names it, or else that of `*`, or else 0. -/
theorem firstTok_spec (items : List ATok) (hp : ∀ a ∈ items, PlainTok a) (t : Str) :
    MostSpecific items (fun a => Names a t) tokSpec (fun a => a.q) ((firstTok items t).getD 0) :=
  mostSpecific_first ATok.key items (fun a => a.matchTok t) (fun a => Names a t) (fun a => matchTok_iff a t) _ _
    (fun a _ b hb _ _ h => tok_key_lt a b (hp b hb) h)

theorem firstTok_none (items : List ATok) (t : Str) : firstTok items t = none ↔ ∀ a ∈ items, ¬ Names a t := by
  unfold firstTok
  rw [Option.map_eq_none_iff]
  constructor
  · intro h a ha hn
    have := find_sorted_none ATok.key items _ h a ha
    rw [(matchTok_iff a t).2 hn] at this
    cases this
  · intro h
    rw [List.find?_eq_none]
    intro a ha hm
    exact h a ((mem_sortBy ATok.key items a).1 ha) ((matchTok_iff a t).1 hm)

/-- C125: tokens. -/
theorem C125_token_partial (items : List ATok) (hp : ∀ a ∈ items, PlainTok a) (l : List Str) :
    ∃ quality : Str → Nat, (∀ t, MostSpecific items (fun a => Names a t) tokSpec (fun a => a.q) (quality t)) ∧
      BestOf quality l (selectToken items l) :=
  ⟨_, firstTok_spec items hp, selLoop_best _ l⟩

/-- C125: character sets; `iso-8859-1` has the quality 1 if it is not mentioned and there is no `*` (RFC 2616, 14.2). -/
theorem C125_charset_partial (items : List ATok) (hp : ∀ a ∈ items, PlainTok a) (l : List Str) :
    ∃ quality : Str → Nat,
      (∀ t, (lower t = latin1 ∧ (∀ a ∈ items, ¬ Names a t) ∧ quality t = 1000) ∨
        (¬ (lower t = latin1 ∧ ∀ a ∈ items, ¬ Names a t) ∧
          MostSpecific items (fun a => Names a t) tokSpec (fun a => a.q) (quality t))) ∧
      BestOf quality l (selectCharset items l) := by
  refine ⟨_, ?_, selLoop_best _ l⟩
  intro t
  have hs := firstTok_spec items hp t
  have hn := firstTok_none items t
  by_cases h : lower t = latin1 ∧ ∀ a ∈ items, ¬ Names a t
  · left
    refine ⟨h.1, h.2, ?_⟩
    rw [hn.2 h.2]
    simp [h.1]
  · right
    refine ⟨h, ?_⟩
    cases hf : firstTok items t with
    | some q => rw [hf] at hs; exact hs
    | none =>
      rw [hf] at hs
      dsimp only
      rw [if_neg (fun e => h ⟨e, hn.1 hf⟩)]
      exact hs

/-! ### Encodings -/

/-- The preference for an encoding: twice its quality, and 1 for `identity` if it is not mentioned and there is no `*`. -/
def encPref (items : List ATok) (t : Str) : Nat :=
  match firstTok items t with
  | some q => 2 * q
  | none => if lower t = identity then 1 else 0

/-- A result is one of the best. -/
def AmongBest {τ : Type} (pref : τ → Nat) (l : List τ) (res : Option τ) : Prop :=
  match res with
  | none => ∀ x ∈ l, pref x = 0
  | some x => x ∈ l ∧ 0 < pref x ∧ ∀ y ∈ l, pref y ≤ pref x

theorem encLoop_best (items : List ATok) (l : List Str) : AmongBest (encPref items) l (encLoop items none 0 l) := by
  have key : ∀ (l pre : List Str) (best : Option Str) (bq : Nat), AmongBest (encPref items) pre best →
      (bq = 0 → ∀ x, best = some x → encPref items x = 1) → (bq ≠ 0 → ∃ x, best = some x ∧ encPref items x = 2 * bq) →
      AmongBest (encPref items) (pre ++ l) (encLoop items best bq l) := by
    intro l
    induction l with
    | nil => intro pre best bq h _ _; simpa [encLoop] using h
    | cons x r ih =>
      intro pre best bq h h0 h1
      rw [show pre ++ x :: r = (pre ++ [x]) ++ r by simp]
      -- the best so far bounds everything
      have hbound : ∀ y ∈ pre, encPref items y ≤ if bq = 0 then 1 else 2 * bq := by
        intro y hy
        cases hb : best with
        | none => rw [hb] at h; rw [h y hy]; omega
        | some z =>
          rw [hb] at h
          have := h.2.2 y hy
          split
          · rename_i hz; rw [h0 hz z hb] at this; exact this
          · rename_i hz
            obtain ⟨z', e, hz'⟩ := h1 hz
            rw [hb] at e
            injection e with e
            subst e
            omega
      have hkeep : (∀ z, best = some z → encPref items x ≤ encPref items z) → (best = none → encPref items x = 0) →
          AmongBest (encPref items) (pre ++ [x]) best := by
        intro hle hz
        cases hb : best with
        | none =>
          rw [hb] at h
          intro y hy
          rcases List.mem_append.1 hy with hy | hy
          · exact h y hy
          · rw [List.mem_singleton] at hy; subst hy; exact hz hb
        | some z =>
          rw [hb] at h
          refine ⟨by simp [h.1], h.2.1, ?_⟩
          intro y hy
          rcases List.mem_append.1 hy with hy | hy
          · exact h.2.2 y hy
          · rw [List.mem_singleton] at hy; subst hy; exact hle z hb
      have hpos : ∀ z, best = some z → 1 ≤ encPref items z := by
        intro z e
        rw [e] at h
        exact h.2.1
      unfold encLoop
      cases hf : firstTok items x with
      | some q =>
        have hx : encPref items x = 2 * q := by unfold encPref; rw [hf]
        dsimp only
        split
        · rename_i hq
          refine ih _ _ _ ⟨by simp, by rw [hx]; omega, ?_⟩ (fun e => by omega) (fun _ => ⟨x, rfl, hx⟩)
          intro y hy
          rcases List.mem_append.1 hy with hy | hy
          · have := hbound y hy
            rw [hx]
            split at this <;> omega
          · rw [List.mem_singleton] at hy; subst hy; exact le_refl _
        · rename_i hq
          refine ih _ _ _ (hkeep ?_ ?_) h0 h1
          · intro z e
            have := hpos z e
            by_cases hz : bq = 0
            · rw [hx]; omega
            · obtain ⟨z', e', hz'⟩ := h1 hz
              rw [e] at e'
              injection e' with e'
              subst e'
              rw [hx, hz']
              omega
          · intro e
            by_cases hz : bq = 0
            · rw [hx]; omega
            · obtain ⟨z', e', -⟩ := h1 hz
              rw [e] at e'; cases e'
      | none =>
        have hx : encPref items x = if lower x = identity then 1 else 0 := by unfold encPref; rw [hf]
        dsimp only
        split
        · rename_i hid
          rw [if_pos hid.1] at hx
          refine ih _ _ _ ⟨by simp, by omega, ?_⟩ (fun _ z e => by injection e with e; subst e; exact hx) (fun e => absurd hid.2 e)
          intro y hy
          rcases List.mem_append.1 hy with hy | hy
          · have := hbound y hy
            rw [if_pos hid.2] at this
            omega
          · rw [List.mem_singleton] at hy; subst hy; exact le_refl _
        · rename_i hid
          refine ih _ _ _ (hkeep ?_ ?_) h0 h1
          · intro z e
            have := hpos z e
            rw [hx]
            split <;> omega
          · intro e
            rw [hx]
            split
            · rename_i hi
              exfalso
              by_cases hz : bq = 0
              · exact hid ⟨hi, hz⟩
              · obtain ⟨z', e', -⟩ := h1 hz
                rw [e] at e'; cases e'
            · rfl
  simpa using key l [] none 0 (fun x hx => nomatch hx) (fun _ x e => nomatch e) (fun h => absurd rfl h)

/-- C125: encodings; `identity`, if it is not mentioned and there is no `*`, is acceptable, but only when there is nothing else
(RFC 2616, 14.3). -/
theorem C125_encoding_partial (items : List ATok) (hp : ∀ a ∈ items, PlainTok a) (l : List Str) :
    ∃ pref : Str → Nat,
      (∀ t, (lower t = identity ∧ (∀ a ∈ items, ¬ Names a t) ∧ pref t = 1) ∨
        (¬ (lower t = identity ∧ ∀ a ∈ items, ¬ Names a t) ∧
          ∃ q, MostSpecific items (fun a => Names a t) tokSpec (fun a => a.q) q ∧ pref t = 2 * q)) ∧
      AmongBest pref l (selectEncoding items l) := by
  refine ⟨encPref items, ?_, encLoop_best items l⟩
  intro t
  have hs := firstTok_spec items hp t
  have hn := firstTok_none items t
  unfold encPref
  by_cases h : lower t = identity ∧ ∀ a ∈ items, ¬ Names a t
  · left
    refine ⟨h.1, h.2, ?_⟩
    rw [hn.2 h.2]
    simp [h.1]
  · right
    refine ⟨h, ?_⟩
    cases hf : firstTok items t with
    | some q => rw [hf] at hs; exact ⟨q, hs, rfl⟩
    | none =>
      rw [hf] at hs
      dsimp only
      rw [if_neg (fun e => h ⟨e, hn.1 hf⟩)]
      exact ⟨0, hs, rfl⟩

/-! ### Languages -/

theorem partialMatch_iff (tag range : List Str) : partialMatch tag range = true ↔ range <+: tag.map lower := by
  unfold partialMatch
  split
  · rename_i h
    simp only [Bool.false_eq_true, false_iff]
    intro hp
    have := hp.length_le
    simp at this
    omega
  · rename_i h
    rw [List.all_eq_true, List.prefix_iff_getElem?]
    constructor
    · intro hall i hi
      have := hall i (List.mem_range.2 hi)
      rw [beq_iff_eq] at this
      rw [this, List.getElem?_eq_getElem hi]
    · intro hall i hi
      rw [List.mem_range] at hi
      rw [beq_iff_eq, hall i hi, List.getElem?_eq_getElem hi]

/-- C125: languages.  The quality of a language is that of the longest range that its tag starts with, in any case; `*` is the range
of all (RFC 2616, 14.4). -/
theorem C125_language (items : List ALang) (l : List (List Str)) :
    ∃ quality : List Str → Nat,
      (∀ tag, MostSpecific items (fun a => a.range <+: tag.map lower) (fun a => a.range.length) (fun a => a.q) (quality tag)) ∧
      BestOf quality l (selectLanguage items l) := by
  refine ⟨_, ?_, selLoop_best _ l⟩
  intro tag
  refine mostSpecific_first ALang.key items (fun a => partialMatch tag a.range) _ (fun a => partialMatch_iff tag a.range) _ _ ?_
  intro a _ b _ _ _ h
  unfold ALang.key
  rw [Prod.Lex.toLex_lt_toLex]
  left
  dsimp only
  omega

/-- `AcceptLanguageList.select_token`, messages.py:2479-2482, for tags that have been read: `str` of the result. -/
def selectLangToken (items : List ALang) (l : List (List Str)) : Str :=
  match selectLanguage items l with
  | some tag => (tag.intersperse [45]).flatten
  | none => [78, 111, 110, 101]

/-- C125 is violated by `select_token` for languages: if none is acceptable it gives the text `None`. -/
theorem C125_violation_none : selectLangToken [⟨[[101, 110]], 1000⟩] [[[102, 114]]] = [78, 111, 110, 101] := by decide +kernel

/-- C125 is violated for tokens that start with `~`. -/
theorem C125_violation_tilde : selectToken [⟨star, 0⟩, ⟨[126, 97], 1000⟩] [[126, 97]] = none := by decide +kernel

/-! ### Cases -/

example : selectLanguage [⟨[[101, 110]], 500⟩, ⟨[], 100⟩, ⟨[[101, 110], [103, 98]], 0⟩] [[[102, 114]], [[69, 78], [71, 66]], [[101, 110], [117, 115]]] =
    some [[101, 110], [117, 115]] := by decide +kernel
example : selectCharset [⟨[97], 500⟩] [[97], latin1] = some latin1 := by decide +kernel
example : selectEncoding [⟨[97], 500⟩] [identity, [97]] = some [97] ∧ selectEncoding [⟨[97], 500⟩] [identity] = some identity ∧
    selectEncoding [⟨star, 0⟩] [identity] = none := by decide +kernel
example : ∀ a ∈ [(⟨[97], 500⟩ : ATok), ⟨star, 0⟩], PlainTok a := by
  intro a ha
  simp only [List.mem_cons, List.not_mem_nil, or_false] at ha
  rcases ha with rfl | rfl <;> exact ⟨by decide, by decide⟩

end Verif.Neg

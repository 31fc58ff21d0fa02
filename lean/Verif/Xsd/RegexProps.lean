import Verif.Xsd.Regex
/-!
# What an XML Schema regular expression matches (C157)
-/
namespace Verif.Xsd
open Verif.CharClass (Range Str Mem Canon maxunicode addClass addChar subtractClass negate classText pyAtom PyAtom)

/-! ### specification -/

/-- The texts a regular expression describes. -/
def Lang : Re → Str → Prop
  | .eps, w => w = []
  | .cls rs, w => ∃ c, w = [c] ∧ Mem rs c
  | .seq a b, w => ∃ u v, w = u ++ v ∧ Lang a u ∧ Lang b v
  | .alt a b, w => Lang a w ∨ Lang b w
  | .rep a n m, w => ∃ ws : List Str, w = ws.flatten ∧ (∀ u ∈ ws, Lang a u) ∧ n ≤ ws.length ∧ ∀ k, m = some k → ws.length ≤ k

/-- A class whose text Python reads correctly (C156): a set of characters, but not the set of all characters and not the
set of all characters but the backslash. -/
def GoodClass (rs : List Range) : Prop :=
  Canon rs ∧ (∀ c, Mem rs c → c ≤ maxunicode) ∧ (∃ c, c ≤ maxunicode ∧ ¬ Mem rs c) ∧
    (Mem rs 92 ∨ ∃ c, c ≤ maxunicode ∧ c ≠ 92 ∧ ¬ Mem rs c)

/-- All classes are good ones. -/
def Good : Re → Prop
  | .eps => True
  | .cls rs => GoodClass rs
  | .seq a b => Good a ∧ Good b
  | .alt a b => Good a ∧ Good b
  | .rep a n m => Good a ∧ ∀ k, m = some k → n ≤ k

/-- A text is a list of characters. -/
def Text (s : Str) : Prop := ∀ c ∈ s, c ≤ maxunicode

theorem atomTest_iff (a : PyAtom) (c : Nat) : atomTest a c = true ↔ a.Matches c := by
  have h : (a.items.any fun r => decide (r.1 ≤ c) && decide (c ≤ r.2)) = true ↔ Mem a.items c := by
    simp [Mem]
  unfold atomTest PyAtom.Matches
  cases hn : a.neg with
  | true =>
    simp only [if_true]
    rw [← h]
    cases a.items.any fun r => decide (r.1 ≤ c) && decide (c ≤ r.2) <;> simp
  | false =>
    simp only [Bool.false_eq_true, if_false]
    rw [← h]
    cases a.items.any fun r => decide (r.1 ≤ c) && decide (c ≤ r.2) <;> simp

theorem good_atom {rs : List Range} (h : GoodClass rs) : ∃ a, pyAtom (classText rs) = some (a, []) ∧ ∀ c, c ≤ maxunicode → (a.Matches c ↔ Mem rs c) := by
  obtain ⟨h1, h2, ⟨x, hx, hnx⟩, h4⟩ := h
  have := Verif.CharClass.C156_class_text_partial h1 h2 (fun hh => hnx (hh x hx)) (by
    intro hh
    rcases h4 with hb | ⟨c, hc, h92, hn⟩
    · exact absurd rfl ((hh 92 (by decide)).mp hb)
    · exact hn ((hh c hc).mpr h92)) []
  simpa using this

theorem classTest_good {rs : List Range} (h : GoodClass rs) {c : Nat} (hc : c ≤ maxunicode) : classTest rs c = true ↔ Mem rs c := by
  obtain ⟨a, ha, hm⟩ := good_atom h
  unfold classTest
  rw [ha]
  exact (atomTest_iff a c).trans (hm c hc)

theorem good_compiles {r : Re} (h : Good r) : r.compiles = true := by
  induction r with
  | eps => rfl
  | cls rs =>
    obtain ⟨a, ha, _⟩ := good_atom (show GoodClass rs from h)
    simp [Re.compiles, ha]
  | seq a b iha ihb => simp [Re.compiles, iha h.1, ihb h.2]
  | alt a b iha ihb => simp [Re.compiles, iha h.1, ihb h.2]
  | rep a n m ih => exact ih h.1

/-! ### the ways of matching are the words of the language -/

/-- `f` finds only words of `L`, and rests of the text. -/
def Sound (L : Str → Prop) (f : Str → List Str) : Prop := ∀ s, Text s → ∀ e ∈ f s, ∃ p, s = p ++ e ∧ L p

/-- `f` finds all words of `L`. -/
def Complete (L : Str → Prop) (f : Str → List Str) : Prop := ∀ p e, Text (p ++ e) → L p → e ∈ f (p ++ e)

theorem Text.right {p e : Str} (h : Text (p ++ e)) : Text e := fun c hc => h c (List.mem_append_right p hc)

theorem iter_sound {L : Str → Prop} {f : Str → List Str} (hf : Sound L f) : ∀ (n : Nat) (s : Str), Text s → ∀ e ∈ iter f n s,
    ∃ ws : List Str, s = ws.flatten ++ e ∧ (∀ u ∈ ws, L u) ∧ ws.length = n := by
  intro n
  induction n with
  | zero =>
    intro s _ e he
    simp only [iter, List.mem_singleton] at he
    subst he
    exact ⟨[], rfl, by simp, rfl⟩
  | succ n ih =>
    intro s hs e he
    simp only [iter, List.mem_flatMap] at he
    obtain ⟨x, hx, he⟩ := he
    obtain ⟨p, rfl, hp⟩ := hf s hs x hx
    obtain ⟨ws, rfl, hw, hl⟩ := ih x hs.right e he
    refine ⟨p :: ws, by simp, ?_, by simp [hl]⟩
    intro u hu
    rcases List.mem_cons.mp hu with rfl | hu
    · exact hp
    · exact hw u hu

theorem more_sound {L : Str → Prop} {f : Str → List Str} (hf : Sound L f) : ∀ (k : Nat) (s : Str), Text s → ∀ e ∈ more f k s,
    ∃ ws : List Str, s = ws.flatten ++ e ∧ (∀ u ∈ ws, L u) ∧ ws.length ≤ k := by
  intro k
  induction k with
  | zero =>
    intro s _ e he
    simp only [more, List.mem_singleton] at he
    subst he
    exact ⟨[], rfl, by simp, by simp⟩
  | succ k ih =>
    intro s hs e he
    simp only [more, List.mem_append, List.mem_flatMap, List.mem_singleton] at he
    rcases he with ⟨x, hx, he⟩ | rfl
    · obtain ⟨p, rfl, hp⟩ := hf s hs x hx
      split at he
      · next hl =>
        simp only [List.mem_singleton] at he
        subst he
        exact ⟨[], rfl, by simp, by simp⟩
      · obtain ⟨ws, rfl, hw, hl⟩ := ih x hs.right e he
        refine ⟨p :: ws, by simp, ?_, by simp [hl]⟩
        intro u hu
        rcases List.mem_cons.mp hu with rfl | hu
        · exact hp
        · exact hw u hu
    · exact ⟨[], rfl, by simp, by simp⟩

theorem ends_sound : ∀ {r : Re}, Good r → Sound (Lang r) (ends r) := by
  intro r
  induction r with
  | eps =>
    intro _ s _ e he
    simp only [ends, List.mem_singleton] at he
    exact ⟨[], by simp [he], rfl⟩
  | cls rs =>
    intro h s hs e he
    cases s with
    | nil => simp [ends] at he
    | cons c t =>
      simp only [ends] at he
      split at he
      · next hc =>
        simp only [List.mem_singleton] at he
        subst he
        exact ⟨[c], rfl, c, rfl, (classTest_good h (hs c (by simp))).mp hc⟩
      · cases he
  | seq a b iha ihb =>
    intro h s hs e he
    simp only [ends, List.mem_flatMap] at he
    obtain ⟨x, hx, he⟩ := he
    obtain ⟨p, rfl, hp⟩ := iha h.1 s hs x hx
    obtain ⟨q, rfl, hq⟩ := ihb h.2 x hs.right e he
    exact ⟨p ++ q, by simp, p, q, rfl, hp, hq⟩
  | alt a b iha ihb =>
    intro h s hs e he
    simp only [ends, List.mem_append] at he
    rcases he with he | he
    · obtain ⟨p, e1, hp⟩ := iha h.1 s hs e he
      exact ⟨p, e1, .inl hp⟩
    · obtain ⟨p, e1, hp⟩ := ihb h.2 s hs e he
      exact ⟨p, e1, .inr hp⟩
  | rep a n m ih =>
    intro h s hs e he
    simp only [ends, List.mem_flatMap] at he
    obtain ⟨x, hx, he⟩ := he
    obtain ⟨ws, rfl, hw, hl⟩ := iter_sound (ih h.1) n s hs x hx
    obtain ⟨us, rfl, hu, hl2⟩ := more_sound (ih h.1) _ x hs.right e he
    refine ⟨(ws ++ us).flatten, by simp, ws ++ us, rfl, ?_, by simp; omega, ?_⟩
    · intro u hu'
      rcases List.mem_append.mp hu' with h1 | h1
      · exact hw u h1
      · exact hu u h1
    · intro k hk
      subst hk
      have := h.2 k rfl
      simp only at hl2
      simp
      omega

theorem iter_complete {L : Str → Prop} {f : Str → List Str} (hf : Complete L f) : ∀ (ws : List Str) (e : Str), Text (ws.flatten ++ e) →
    (∀ u ∈ ws, L u) → e ∈ iter f ws.length (ws.flatten ++ e) := by
  intro ws
  induction ws with
  | nil => intro e _ _; simp [iter]
  | cons w ws ih =>
    intro e ht h
    simp only [List.flatten_cons, List.append_assoc, List.length_cons, iter, List.mem_flatMap] at *
    exact ⟨_, hf w _ ht (h w (by simp)), ih e ht.right fun u hu => h u (by simp [hu])⟩

theorem more_complete {L : Str → Prop} {f : Str → List Str} (hf : Complete L f) : ∀ (ws : List Str) (k : Nat) (e : Str), Text (ws.flatten ++ e) →
    (∀ u ∈ ws, L u) → (ws.length ≤ k ∨ (ws.flatten ++ e).length < k) → e ∈ more f k (ws.flatten ++ e) := by
  intro ws
  induction ws with
  | nil =>
    intro k e _ _ _
    cases k with
    | zero => simp [more]
    | succ k => simp [more]
  | cons w ws ih =>
    intro k e ht h hk
    by_cases hw : w = []
    · subst hw
      simp only [List.flatten_cons, List.nil_append] at *
      refine ih k e ht (fun u hu => h u (by simp [hu])) ?_
      simp only [List.length_cons] at hk
      omega
    · have hwl : 0 < w.length := List.length_pos_iff.mpr hw
      simp only [List.flatten_cons, List.append_assoc, List.length_cons, List.length_append] at *
      obtain ⟨k, rfl⟩ : ∃ j, k = j + 1 := ⟨k - 1, by omega⟩
      simp only [more, List.mem_append, List.mem_flatMap]
      refine .inl ⟨_, hf w _ ht (h w (by simp)), ?_⟩
      rw [if_neg (by simp only [List.length_append]; omega)]
      exact ih k e ht.right (fun u hu => h u (by simp [hu])) (by omega)

theorem ends_complete : ∀ {r : Re}, Good r → Complete (Lang r) (ends r) := by
  intro r
  induction r with
  | eps =>
    intro _ p e _ hp
    have hp : p = [] := hp
    subst hp
    simp [ends]
  | cls rs =>
    rintro h p e ht ⟨c, rfl, hc⟩
    simp only [List.cons_append, List.nil_append, ends]
    rw [if_pos ((classTest_good h (ht c (by simp))).mpr hc)]
    simp
  | seq a b iha ihb =>
    rintro h p e ht ⟨u, v, rfl, hu, hv⟩
    rw [List.append_assoc] at ht ⊢
    simp only [ends, List.mem_flatMap]
    exact ⟨_, iha h.1 u _ ht hu, ihb h.2 v _ ht.right hv⟩
  | alt a b iha ihb =>
    rintro h p e ht (hp | hp)
    · exact List.mem_append_left _ (iha h.1 p e ht hp)
    · exact List.mem_append_right _ (ihb h.2 p e ht hp)
  | rep a n m ih =>
    rintro h p e ht ⟨ws, rfl, hw, hn, hm⟩
    have es : ws.flatten ++ e = (ws.take n).flatten ++ ((ws.drop n).flatten ++ e) := by
      rw [← List.append_assoc, ← List.flatten_append, List.take_append_drop]
    rw [es] at ht ⊢
    simp only [ends, List.mem_flatMap]
    have hl : (ws.take n).length = n := by simp [hn]
    refine ⟨(ws.drop n).flatten ++ e, ?_, ?_⟩
    · have := iter_complete (ih h.1) (ws.take n) _ ht fun u hu => hw u (List.mem_of_mem_take hu)
      rwa [hl] at this
    · refine more_complete (ih h.1) _ _ e ht.right (fun u hu => hw u (List.mem_of_mem_drop hu)) ?_
      cases m with
      | none => exact .inr (by simp)
      | some k =>
        have := hm k rfl
        exact .inl (by simp; omega)

/-! ### C157 -/

/-- **C157** (no false match): what is matched is described by the regular expression. -/
theorem C157_sound_partial {r : Re} (h : Good r) {t : Str} (ht : Text t) (hm : reMatch r t = true) : Lang r t := by
  unfold reMatch at hm
  simp only [beq_iff_eq] at hm
  obtain ⟨p, e, hp⟩ := ends_sound h t ht [] (List.mem_of_head? hm)
  rw [e, List.append_nil]
  exact hp

/-- **C157**: a text is matched exactly when it is described, if no shorter beginning of the text is described too. -/
theorem C157_prefix_free_partial {r : Re} (h : Good r) {t : Str} (ht : Text t)
    (hp : ∀ p e, t = p ++ e → e ≠ [] → ¬ Lang r p) : reMatch r t = true ↔ Lang r t := by
  constructor
  · exact C157_sound_partial h ht
  · intro hl
    have hmem : [] ∈ ends r t := by
      have := ends_complete h t [] (by simpa using ht) hl
      rwa [List.append_nil] at this
    unfold reMatch
    cases he : ends r t with
    | nil => rw [he] at hmem; cases hmem
    | cons e es =>
      obtain ⟨p, h1, h2⟩ := ends_sound h t ht e (by rw [he]; simp)
      by_cases h0 : e = []
      · simp [h0]
      · exact absurd h2 (hp p e h1 h0)

/-- **C157**: whenever a text is described, some way of matching it - not necessarily the first - reaches the end. -/
theorem C157_some_way {r : Re} (h : Good r) {t : Str} (ht : Text t) : Lang r t ↔ [] ∈ ends r t := by
  constructor
  · intro hl
    have := ends_complete h t [] (by simpa using ht) hl
    rwa [List.append_nil] at this
  · intro hm
    obtain ⟨p, e, hp⟩ := ends_sound h t ht [] hm
    rw [e, List.append_nil]
    exact hp

/-- Patterns that match in one way at most: sequences of characters and exact repetitions of them. -/
inductive Fixed : Re → Prop
  | eps : Fixed .eps
  | cls (rs) : Fixed (.cls rs)
  | seq {a b} (ha : Fixed a) (hb : Fixed b) : Fixed (.seq a b)
  | rep {a} (ha : Fixed a) (n) : Fixed (.rep a n (some n))

/-- Patterns without alternatives whose only part of variable length is a repeated character at the end. -/
inductive Simple : Re → Prop
  | fixed {a} (h : Fixed a) : Simple a
  | rep (rs n m) : Simple (.rep (.cls rs) n m)
  | seq {a b} (ha : Fixed a) (hb : Simple b) : Simple (.seq a b)
  | last {a} (ha : Simple a) : Simple (.seq a .eps)

theorem flatMap_le {α β : Type} {l : List α} {f : α → List β} (hl : l.length ≤ 1) (hf : ∀ x, (f x).length ≤ 1) : (l.flatMap f).length ≤ 1 := by
  match l, hl with
  | [], _ => simp
  | [x], _ => simpa using hf x

theorem iter_fixed {f : Str → List Str} (hf : ∀ s, (f s).length ≤ 1) : ∀ (n : Nat) (s : Str), (iter f n s).length ≤ 1 := by
  intro n
  induction n with
  | zero => intro s; simp [iter]
  | succ n ih => intro s; exact flatMap_le (hf s) ih

theorem Fixed.ends {r : Re} (h : Fixed r) : ∀ s, (ends r s).length ≤ 1 := by
  induction h with
  | eps => intro s; simp [Xsd.ends]
  | cls rs =>
    intro s
    cases s with
    | nil => simp [Xsd.ends]
    | cons c t => simp only [Xsd.ends]; split <;> simp
  | seq ha hb iha ihb => intro s; exact flatMap_le (iha s) ihb
  | rep ha n ih =>
    intro s
    refine flatMap_le (iter_fixed ih n s) ?_
    intro e
    simp [more]

/-- Longest matches first. -/
def Longest (l : List Str) : Prop := l.Pairwise fun x y => x.length ≤ y.length

theorem longest_flatMap {α : Type} {l : List α} {f : α → List Str} (hl : l.length ≤ 1) (hf : ∀ x, Longest (f x)) : Longest (l.flatMap f) := by
  match l, hl with
  | [], _ => exact List.Pairwise.nil
  | [x], _ => simpa using hf x

theorem more_le {rs : List Range} : ∀ (k : Nat) (s : Str), ∀ e ∈ more (ends (.cls rs)) k s, e.length ≤ s.length := by
  intro k
  induction k with
  | zero => intro s e he; simp only [more, List.mem_singleton] at he; simp [he]
  | succ k ih =>
    intro s e he
    simp only [more, List.mem_append, List.mem_flatMap, List.mem_singleton] at he
    rcases he with ⟨x, hx, he⟩ | rfl
    · cases s with
      | nil => simp [ends] at hx
      | cons c t =>
        simp only [ends] at hx
        split at hx
        · simp only [List.mem_singleton] at hx
          subst hx
          split at he
          · simp only [List.mem_singleton] at he; simp [he]
          · have := ih _ e he; simp; omega
        · cases hx
    · exact Nat.le_refl _

theorem more_longest {rs : List Range} : ∀ (k : Nat) (s : Str), Longest (more (ends (.cls rs)) k s) := by
  intro k
  induction k with
  | zero => intro s; simp [more, Longest]
  | succ k ih =>
    intro s
    have hle := more_le (rs := rs) (k + 1) s
    simp only [more] at hle ⊢
    unfold Longest
    rw [List.pairwise_append]
    refine ⟨?_, by simp, ?_⟩
    · refine longest_flatMap (Fixed.ends (.cls rs) s) ?_
      intro x
      split
      · simp [Longest]
      · exact ih x
    · intro a ha b hb
      simp only [List.mem_singleton] at hb
      subst hb
      exact hle a (List.mem_append_left _ ha)

theorem Simple.longest {r : Re} (h : Simple r) : ∀ s, Longest (ends r s) := by
  induction h with
  | @fixed a h =>
    intro s
    have := h.ends s
    match hl : Xsd.ends a s, this with
    | [], _ => exact List.Pairwise.nil
    | [x], _ => simp [Longest]
  | rep rs n m =>
    intro s
    refine longest_flatMap (iter_fixed (Fixed.ends (.cls rs)) n s) ?_
    intro e
    exact more_longest _ e
  | seq ha hb ih =>
    intro s
    exact longest_flatMap (ha.ends s) ih
  | @last a ha ih =>
    intro s
    have : Xsd.ends (.seq a .eps) s = Xsd.ends a s := by
      simp only [Xsd.ends]
      exact List.flatMap_singleton' _
    rw [this]
    exact ih s

/-- **C157**: patterns without alternatives that vary only in the number of repetitions of their last character match
exactly what they describe. -/
theorem C157_simple {r : Re} (h : Good r) (hs : Simple r) {t : Str} (ht : Text t) : reMatch r t = true ↔ Lang r t := by
  constructor
  · exact C157_sound_partial h ht
  · intro hl
    have hmem := (C157_some_way h ht).mp hl
    have hsort := hs.longest t
    unfold reMatch
    cases he : ends r t with
    | nil => rw [he] at hmem; cases hmem
    | cons e es =>
      rw [he] at hmem hsort
      rcases List.mem_cons.mp hmem with h0 | h0
      · simp [← h0]
      · have := List.rel_of_pairwise_cons hsort h0
        simp only [List.length_nil, Nat.le_zero, List.length_eq_zero_iff] at this
        simp [this]

/-- Tables for examples. -/
def noUcd : Ucd := ⟨fun _ => [], fun _ => none, [], []⟩

/-- **C157** (violation): `a|ab` describes `ab` but does not match it: the first alternative matches a part of the text
and the others are not tried. -/
theorem C157_alternative_violation : ∃ r, parse noUcd [97, 124, 97, 98] = some r ∧ Good r ∧ Lang r [97, 98] ∧ reMatch r [97, 98] = false := by
  have g : ∀ c, c = 97 ∨ c = 98 → GoodClass [(c, c)] := by
    intro c hc
    refine ⟨⟨by simp, by simp⟩, ?_, ⟨0, by decide, ?_⟩, .inr ⟨0, by decide, by decide, ?_⟩⟩
    · rintro x ⟨r, hr, h1, h2⟩
      simp only [List.mem_singleton] at hr
      subst hr
      have : maxunicode = 1114111 := rfl
      simp only at h2
      omega
    · rintro ⟨r, hr, h1, h2⟩
      simp only [List.mem_singleton] at hr
      subst hr
      simp only at h1
      omega
    · rintro ⟨r, hr, h1, h2⟩
      simp only [List.mem_singleton] at hr
      subst hr
      simp only at h1
      omega
  refine ⟨.alt (.seq (.cls [(97, 97)]) .eps) (.seq (.cls [(97, 97)]) (.seq (.cls [(98, 98)]) .eps)), by decide +kernel,
    ⟨⟨g 97 (.inl rfl), trivial⟩, g 97 (.inl rfl), g 98 (.inr rfl), trivial⟩, ?_, by decide +kernel⟩
  exact .inr ⟨[97], [98], rfl, ⟨97, rfl, by simp [Mem]⟩, [98], [], rfl, ⟨98, rfl, by simp [Mem]⟩, rfl⟩

/-- **C157** (violation): the same without alternatives: `a?(ab)?` does not match `ab`. -/
theorem C157_greedy_violation : ∃ r, parse noUcd [97, 63, 40, 97, 98, 41, 63] = some r ∧ Lang r [97, 98] ∧ reMatch r [97, 98] = false := by
  refine ⟨.seq (.rep (.cls [(97, 97)]) 0 (some 1)) (.seq (.rep (.seq (.cls [(97, 97)]) (.seq (.cls [(98, 98)]) .eps)) 0 (some 1)) .eps),
    by decide +kernel, ?_, by decide +kernel⟩
  refine ⟨[], [97, 98], rfl, ⟨[], rfl, by simp, by simp, by simp⟩, [97, 98], [], by simp, ⟨[[97, 98]], rfl, ?_, by simp, ?_⟩, rfl⟩
  · intro u hu
    simp only [List.mem_singleton] at hu
    subst hu
    exact ⟨[97], [98], rfl, ⟨97, rfl, by simp [Mem]⟩, [98], [], rfl, ⟨98, rfl, by simp [Mem]⟩, rfl⟩
  · intro k hk; cases hk; simp

/-- **C157** (violation): a class of all characters, here `[\s\S]`, matches nothing. -/
theorem C157_full_class_violation : ∃ r, parse noUcd [91, 92, 115, 92, 83, 93] = some r ∧ Lang r [97] ∧ regexMatch noUcd [91, 92, 115, 92, 83, 93] [97] = some false := by
  refine ⟨.seq (.cls [(0, maxunicode)]) .eps, by decide +kernel, ?_, by decide +kernel⟩
  exact ⟨[97], [], rfl, ⟨97, rfl, (0, maxunicode), by simp, by decide, by decide⟩, rfl⟩

/-- **C157** (violation): the class `[^\\]` of all characters but the backslash cannot be compiled. -/
theorem C157_backslash_class_violation : ∃ r, parse noUcd [91, 94, 92, 92, 93] = some r ∧ Lang r [97] ∧ regexMatch noUcd [91, 94, 92, 92, 93] [97] = none := by
  refine ⟨.seq (.cls [(0, 91), (93, maxunicode)]) .eps, by decide +kernel, ?_, by decide +kernel⟩
  exact ⟨[97], [], rfl, ⟨97, rfl, (93, maxunicode), by simp, by decide, by decide⟩, rfl⟩

/-- A typical pattern to which `C157_simple` applies: `[A-Z]{2}\-[0-9]{1,4}`. -/
example : ∃ r, parse noUcd [91, 65, 45, 90, 93, 123, 50, 125, 92, 45, 91, 48, 45, 57, 93, 123, 49, 44, 52, 125] = some r ∧ Simple r ∧
    reMatch r [65, 66, 45, 49, 50] = true ∧ reMatch r [65, 66, 45] = false := by
  refine ⟨.seq (.rep (.cls [(65, 90)]) 2 (some 2)) (.seq (.cls [(45, 45)]) (.seq (.rep (.cls [(48, 57)]) 1 (some 4)) .eps)), by decide +kernel,
    .seq (.rep (.cls _) 2) (.seq (.cls _) (.last (.rep _ _ _))), by decide +kernel, by decide +kernel⟩

end Verif.Xsd

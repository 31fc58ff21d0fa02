import Verif.Http.Grammar
/-! # Lemmas about the byte and word parsers -/
namespace Verif.Http
open Text (Step run run_eq isDigit)

theorem spanSp_append (s : Bytes) : (spanSp s).1 ++ (spanSp s).2 = s := by
  induction s with
  | nil => rfl
  | cons b r ih => simp only [spanSp]; split <;> simp [ih]

theorem spanSp_run (p t : Bytes) (hp : ∀ b ∈ p, b = 32 ∨ b = 9) (ht : ∀ b r, t = b :: r → ¬ (b = 32 ∨ b = 9)) :
    spanSp (p ++ t) = (p, t) := by
  induction p with
  | nil =>
    cases t with
    | nil => rfl
    | cons b r => rw [List.nil_append, spanSp, if_neg (ht b r rfl)]
  | cons b p ih =>
    rw [List.cons_append, spanSp, if_pos (hp b (by simp)), ih fun c h => hp c (by simp [h])]

theorem spanSp_split (p : Bytes) : ∃ p1 p2, p = p1 ++ p2 ∧ (∀ b ∈ p1, b = 32 ∨ b = 9) ∧
    (∀ b r, p2 = b :: r → ¬ (b = 32 ∨ b = 9)) := by
  induction p with
  | nil => exact ⟨[], [], rfl, by simp, by simp⟩
  | cons b p ih =>
    by_cases hb : b = 32 ∨ b = 9
    · obtain ⟨p1, p2, h1, h2, h3⟩ := ih
      exact ⟨b :: p1, p2, by simp [h1], by simpa using ⟨hb, h2⟩, h3⟩
    · refine ⟨[], b :: p, rfl, by simp, ?_⟩
      intro c r h
      simp only [List.cons.injEq] at h
      rw [← h.1]; exact hb

theorem parseLws_append {s l r : Bytes} (h : parseLws s = some (l, r)) : s = l ++ r ∧ l ≠ [] := by
  unfold parseLws at h
  dsimp only at h
  by_cases hc : s.take 2 = [13, 10]
  · rw [if_pos hc] at h
    split at h
    · exact absurd h (by simp)
    · next h0 =>
      simp only [Option.some.injEq, Prod.mk.injEq] at h
      obtain ⟨rfl, rfl⟩ := h
      refine ⟨?_, by simp⟩
      rw [List.append_assoc, spanSp_append, ← hc, List.take_append_drop]
  · rw [if_neg hc] at h
    split at h
    · exact absurd h (by simp)
    · next h0 =>
      simp only [Option.some.injEq, Prod.mk.injEq, List.nil_append] at h
      obtain ⟨rfl, rfl⟩ := h
      refine ⟨(spanSp_append s).symm, by simpa using h0⟩

theorem parseLws_length {s l r : Bytes} (h : parseLws s = some (l, r)) : r.length < s.length := by
  obtain ⟨rfl, h0⟩ := parseLws_append h
  have := List.length_pos_iff.mpr h0
  simp; omega

/-- A byte at which linear white space can start. -/
def LwsStart (b : Nat) : Prop := b = 32 ∨ b = 9 ∨ b = 13

theorem parseLws_none {b : Nat} {r : Bytes} (h : ¬ LwsStart b) : parseLws (b :: r) = none := by
  simp only [LwsStart, not_or] at h
  unfold parseLws
  have hc : ¬ (b :: r).take 2 = [13, 10] := by
    intro hh; cases r <;> simp at hh; omega
  dsimp only
  have hs : spanSp (b :: r) = ([], b :: r) := by rw [spanSp, if_neg (by omega)]
  rw [if_neg hc, hs]
  simp

theorem parseLws_nil : parseLws [] = none := by rfl

/-- White space from its first byte. -/
theorem parseLws_sp {b : Nat} (hb : b = 32 ∨ b = 9) (r : Bytes) :
    parseLws (b :: r) = some (b :: (spanSp r).1, (spanSp r).2) := by
  unfold parseLws
  have hc : ¬ (b :: r).take 2 = [13, 10] := by
    intro hh; cases r <;> simp at hh; omega
  dsimp only
  rw [if_neg hc, spanSp, if_pos hb]
  simp

theorem parseOneText_length {u : Bool} {s t r : Bytes} (h : parseOneText u s = some (t, r)) : r.length < s.length := by
  unfold parseOneText at h
  split at h
  · next l r' hl =>
    have := parseLws_length hl
    simp only [Option.some.injEq, Prod.mk.injEq] at h
    rw [← h.2]; exact this
  · split at h
    · cases h
    · split at h
      · simp only [Option.some.injEq, Prod.mk.injEq] at h
        rw [← h.2]; simp
      · cases h

theorem textStep_dec (u : Bool) (ends : List Nat) (s : Bytes) (a : Bytes) (r : Bytes)
    (h : textStep u ends s = .emit a r) : r.length < s.length := by
  cases s with
  | nil => simp [textStep] at h
  | cons b s =>
    simp only [textStep] at h
    split at h
    · cases h
    · split at h
      · next t r' ht =>
        cases h
        exact parseOneText_length ht
      · cases h

/-- The text loops never fail, and what they return is not longer than what was there. -/
theorem text_run_length (u : Bool) (ends : List Nat) : ∀ (n : Nat) (s : Bytes), s.length ≤ n →
    ∃ ts r, run (textStep u ends) List.length s = some (ts, r) ∧ r.length ≤ s.length ∧ (ts = [] ∨ r.length < s.length) := by
  intro n
  induction n with
  | zero =>
    intro s hs
    have : s = [] := List.length_eq_zero_iff.mp (by omega)
    subst this
    exact ⟨[], [], rfl, Nat.le_refl _, .inl rfl⟩
  | succ n ih =>
    intro s hs
    rw [run_eq (textStep_dec _ _)]
    cases hf : textStep u ends s with
    | stop => exact ⟨[], s, rfl, Nat.le_refl _, .inl rfl⟩
    | fail => cases s <;> simp only [textStep] at hf <;> (repeat' split at hf) <;> cases hf
    | last a r => cases s <;> simp only [textStep] at hf <;> (repeat' split at hf) <;> cases hf
    | emit a r =>
      have hd := textStep_dec u ends s a r hf
      obtain ⟨ts, r', h1, h2, _⟩ := ih r (by omega)
      exact ⟨a :: ts, r', by simp [h1], by omega, .inr (by omega)⟩

theorem parseTextTo_length {u : Bool} {ends : List Nat} {s t r : Bytes} (h : parseTextTo u ends s = some (t, r)) :
    r.length < s.length := by
  obtain ⟨ts, r', h1, h2, h3⟩ := text_run_length u ends s.length s (Nat.le_refl _)
  unfold parseTextTo at h
  rw [h1] at h
  simp only at h
  split at h
  · cases h
  · next h0 =>
    simp only [Option.some.injEq, Prod.mk.injEq] at h
    rw [← h.2]
    rcases h3 with h3 | h3
    · exact absurd (by simp [h3]) h0
    · exact h3

theorem parseQuotedPair_length {s q r : Bytes} (h : parseQuotedPair s = some (q, r)) : r.length < s.length := by
  unfold parseQuotedPair at h
  split at h
  · split at h
    · simp only [Option.some.injEq, Prod.mk.injEq] at h
      rw [← h.2]; simp; omega
    · cases h
  · cases h

theorem qstrStep_dec (u : Bool) (s : Bytes) (a : Bytes) (r : Bytes)
    (h : qstrStep u s = .emit a r) : r.length < s.length := by
  cases s with
  | nil => simp [qstrStep] at h
  | cons b s =>
    simp only [qstrStep] at h
    split at h
    · cases h
    · split at h
      · split at h
        · next hq => cases h; exact parseQuotedPair_length hq
        · cases h
      · split at h
        · next hq => cases h; exact parseTextTo_length hq
        · cases h

theorem qstrStep_last (u : Bool) (s : Bytes) (a : Bytes) (r : Bytes)
    (h : qstrStep u s = .last a r) : r.length < s.length ∧ s.head? = some 34 ∧ a = [34] := by
  cases s with
  | nil => simp [qstrStep] at h
  | cons b s =>
    simp only [qstrStep] at h
    split at h
    · next hb => cases h; simp [hb]
    · split at h
      · split at h <;> cases h
      · split at h <;> cases h

/-- A loop whose iterations make progress does not make the input longer. -/
theorem loop_length {α σ : Type} (f : σ → Step α σ) (μ : σ → Nat) (h : ∀ s a r, f s = .emit a r → μ r < μ s)
    (hl : ∀ s a r, f s = .last a r → μ r ≤ μ s) : ∀ (n : Nat) (s : σ) (ts : List α) (r : σ), μ s ≤ n →
    run f μ s = some (ts, r) → μ r ≤ μ s := by
  intro n
  induction n with
  | zero =>
    intro s ts r hs hr
    rw [run_eq h] at hr
    cases hf : f s with
    | stop => rw [hf] at hr; simp only [Option.some.injEq, Prod.mk.injEq] at hr; rw [hr.2]; exact Nat.le_refl _
    | fail => rw [hf] at hr; cases hr
    | last a r' =>
      rw [hf] at hr; simp only [Option.some.injEq, Prod.mk.injEq] at hr; rw [← hr.2]; exact hl s a r' hf
    | emit a r' => have := h s a r' hf; omega
  | succ n ih =>
    intro s ts r hs hr
    rw [run_eq h] at hr
    cases hf : f s with
    | stop => rw [hf] at hr; simp only [Option.some.injEq, Prod.mk.injEq] at hr; rw [hr.2]; exact Nat.le_refl _
    | fail => rw [hf] at hr; cases hr
    | last a r' =>
      rw [hf] at hr; simp only [Option.some.injEq, Prod.mk.injEq] at hr; rw [← hr.2]; exact hl s a r' hf
    | emit a r' =>
      rw [hf] at hr
      simp only at hr
      have hd := h s a r' hf
      cases hr' : run f μ r' with
      | none => rw [hr'] at hr; cases hr
      | some p =>
        rw [hr'] at hr
        simp only [Option.map_some, Option.some.injEq, Prod.mk.injEq] at hr
        have := ih r' p.1 p.2 (by omega) hr'
        rw [← hr.2]; omega

theorem parseQuotedString_length {u : Bool} {s q r : Bytes} (h : parseQuotedString u s = some (q, r)) :
    r.length ≤ s.length := by
  unfold parseQuotedString at h
  split at h
  · next qs r' hr =>
    simp only [Option.some.injEq, Prod.mk.injEq] at h
    rw [← h.2]
    exact loop_length _ _ (qstrStep_dec u) (fun s a r h => Nat.le_of_lt (qstrStep_last u s a r h).1) _ _ _ _ (Nat.le_refl _) hr
  · cases h

theorem commentStep_dec (u : Bool) (s : Nat × Bytes) (a : Bytes) (r : Nat × Bytes)
    (h : commentStep u s = .emit a r) : r.2.length < s.2.length := by
  obtain ⟨d, s⟩ := s
  cases s with
  | nil => simp [commentStep] at h
  | cons b s =>
    simp only [commentStep] at h
    split at h
    · split at h <;> cases h; simp
    · split at h
      · cases h; simp
      · split at h
        · split at h
          · next hq => cases h; exact parseQuotedPair_length hq
          · cases h
        · split at h
          · next hq => cases h; exact parseTextTo_length hq
          · cases h

theorem commentStep_last (u : Bool) (s : Nat × Bytes) (a : Bytes) (r : Nat × Bytes)
    (h : commentStep u s = .last a r) : r.2.length < s.2.length := by
  obtain ⟨d, s⟩ := s
  cases s with
  | nil => simp [commentStep] at h
  | cons b s =>
    simp only [commentStep] at h
    split at h
    · split at h <;> cases h; simp
    · split at h
      · cases h
      · split at h
        · split at h <;> cases h
        · split at h <;> cases h

theorem parseComment_length {u : Bool} {s q r : Bytes} (h : parseComment u s = some (q, r)) : r.length ≤ s.length := by
  unfold parseComment at h
  split at h
  · next qs d r' hr =>
    split at h
    · cases h
    · simp only [Option.some.injEq, Prod.mk.injEq] at h
      rw [← h.2]
      exact loop_length _ (fun p : Nat × Bytes => p.2.length) (commentStep_dec u)
        (fun s a r h => Nat.le_of_lt (commentStep_last u s a r h)) _ _ _ _ (Nat.le_refl _) hr
  · cases h

theorem parseToken_length {s t r : Bytes} (h : parseToken s = some (t, r)) : r.length < s.length := by
  unfold parseToken at h
  dsimp only at h
  split at h
  · cases h
  · next h0 =>
    simp only [Option.some.injEq, Prod.mk.injEq] at h
    obtain ⟨h1, h2⟩ := h
    rw [h1] at h0 h2
    have hp := List.length_pos_iff.mpr h0
    have hle : t.length ≤ s.length := by rw [← h1]; exact (List.takeWhile_prefix _).length_le
    rw [← h2, List.length_drop]
    omega

theorem skipLws_length : ∀ (n : Nat) (s : Bytes), (skipLws n s).length ≤ s.length := by
  intro n
  induction n with
  | zero => intro s; exact Nat.le_refl _
  | succ n ih =>
    intro s
    simp only [skipLws]
    split
    · next h => exact Nat.le_trans (ih _) (Nat.le_of_lt (parseLws_length h))
    · exact Nat.le_refl _

theorem wordStep_dec (ig : Bool) (s : Bytes) (a : List Word) (r : Bytes)
    (h : wordStep ig s = .emit a r) : r.length < s.length := by
  cases s with
  | nil => simp [wordStep] at h
  | cons b s =>
    have hk := skipLws_length (b :: s).length (b :: s)
    simp only [wordStep] at h
    generalize skipLws (b :: s).length (b :: s) = k at hk h
    cases k with
    | nil => cases h
    | cons c t =>
      simp only at h
      have hk' : t.length + 1 ≤ (b :: s).length := hk
      split at h
      · split at h
        · split at h
          · next hq => cases h; have := parseComment_length hq; omega
          · cases h
        · split at h
          · split at h
            · next hq => cases h; have := parseQuotedString_length hq; omega
            · cases h
          · cases h; omega
      · split at h
        · next hq => cases h; have := parseToken_length hq; simp only [List.length_cons] at this hk' ⊢; omega
        · cases h

theorem words_emit {ig : Bool} {s r : Bytes} {a : List Word} (h : wordStep ig s = .emit a r) :
    words ig s = (words ig r).map (a ++ ·) := by
  unfold words
  rw [run_eq (wordStep_dec _), h]
  simp only
  cases run (wordStep ig) List.length r <;> simp

theorem words_nil (ig : Bool) : words ig [] = some [] := by
  cases ig <;> rfl

/-! ### quoted strings -/

/-- What may stand unescaped inside a quoted string that is not folded. -/
def Plain (b : Nat) : Prop := b ≠ 34 ∧ b ≠ 92 ∧ b < 256 ∧ (isCtl b = false ∨ b = 9)

theorem text_plain : ∀ (n : Nat) (p t : Bytes), p.length ≤ n → (∀ b ∈ p, Plain b) →
    (∃ b r, t = b :: r ∧ (b = 34 ∨ b = 92)) →
    ∃ ts, run (textStep true [34, 92]) List.length (p ++ t) = some (ts, t) ∧ ts.flatten = p := by
  intro n
  induction n with
  | zero =>
    intro p t hp _ ⟨b, r, ht, hb⟩
    have : p = [] := List.length_eq_zero_iff.mp (by omega)
    subst this
    refine ⟨[], ?_, rfl⟩
    rw [List.nil_append, run_eq (textStep_dec _ _), ht, textStep, if_pos (by rcases hb with rfl | rfl <;> rfl)]
  | succ n ih =>
    intro p t hp hpl ⟨b, r, ht, hb⟩
    cases p with
    | nil =>
      refine ⟨[], ?_, rfl⟩
      rw [List.nil_append, run_eq (textStep_dec _ _), ht, textStep, if_pos (by rcases hb with rfl | rfl <;> rfl)]
    | cons c p =>
      obtain ⟨h1, h2, h3, h4⟩ := hpl c (by simp)
      have hpl' : ∀ x ∈ p, Plain x := fun x hx => hpl x (by simp [hx])
      have hends : ([34, 92] : List Nat).contains c = false := by simp; omega
      rw [List.cons_append, run_eq (textStep_dec _ _), textStep, hends]
      simp only [Bool.false_eq_true, if_false]
      by_cases hsp : c = 32 ∨ c = 9
      · obtain ⟨p1, p2, hpp, hs1, hs2⟩ := spanSp_split p
        have hsplit : spanSp (p ++ t) = (p1, p2 ++ t) := by
          rw [hpp, List.append_assoc]
          apply spanSp_run _ _ hs1
          intro x y hxy
          cases p2 with
          | nil =>
            rw [List.nil_append, ht] at hxy
            simp only [List.cons.injEq] at hxy
            omega
          | cons x' y' =>
            simp only [List.cons_append, List.cons.injEq] at hxy
            rw [← hxy.1]; exact hs2 x' y' rfl
        have hone : parseOneText true (c :: (p ++ t)) = some (c :: p1, p2 ++ t) := by
          unfold parseOneText
          rw [parseLws_sp hsp, hsplit]
          have : ((c :: p1).take 2 == [13, 10]) = false := by
            rw [beq_eq_false_iff_ne]; intro hh; cases p1 <;> simp at hh; omega
          simp only [this, Bool.and_false, Bool.false_eq_true, if_false]
        rw [hone]
        simp only
        have hlen : p2.length ≤ n := by
          have : (p1 ++ p2).length ≤ n := by rw [← hpp]; simp at hp; omega
          simp at this; omega
        obtain ⟨ts, hts, hf⟩ := ih p2 t hlen (fun x hx => hpl' x (by rw [hpp]; simp [hx])) ⟨b, r, ht, hb⟩
        refine ⟨(c :: p1) :: ts, by rw [hts]; rfl, by simp [hf, hpp]⟩
      · have hctl : isCtl c = false := by rcases h4 with h4 | h4 <;> simp_all
        have hl : ¬ LwsStart c := by
          simp only [isCtl, Bool.or_eq_false_iff, decide_eq_false_iff_not] at hctl
          simp only [LwsStart]; omega
        have hone : parseOneText true (c :: (p ++ t)) = some ([c], p ++ t) := by
          unfold parseOneText
          rw [parseLws_none hl]
          simp [hctl, isOctet, h3]
        rw [hone]
        simp only
        obtain ⟨ts, hts, hf⟩ := ih p t (by simp at hp; omega) hpl' ⟨b, r, ht, hb⟩
        exact ⟨[c] :: ts, by rw [hts]; rfl, by simp [hf]⟩

/-- The contents of a quoted string: plain bytes and quoted pairs. -/
inductive QContent : Bytes → Prop
  | nil : QContent []
  | pair {b : Nat} {q : Bytes} : b < 128 → QContent q → QContent (92 :: b :: q)
  | plain {b : Nat} {q : Bytes} : Plain b → QContent q → QContent (b :: q)

theorem QContent.split {q : Bytes} (h : QContent q) : ∃ p q', q = p ++ q' ∧ (∀ b ∈ p, Plain b) ∧
    QContent q' ∧ (q' = [] ∨ ∃ b r, q' = 92 :: b :: r ∧ b < 128 ∧ QContent r) := by
  induction h with
  | nil => exact ⟨[], [], rfl, by simp, .nil, .inl rfl⟩
  | pair hb hq _ => exact ⟨[], _, rfl, by simp, .pair hb hq, .inr ⟨_, _, rfl, hb, hq⟩⟩
  | @plain b q hb _ ih =>
    obtain ⟨p, q', h1, h2, h3, h4⟩ := ih
    exact ⟨b :: p, q', by simp [h1], by simpa using ⟨hb, h2⟩, h3, h4⟩

theorem qstr_pair_step {u : Bool} {b : Nat} {r : Bytes} (hb : b < 128) :
    qstrStep u (92 :: b :: r) = .emit [92, b] r := by
  simp [qstrStep, parseQuotedPair, isChar, hb]

theorem qstr_content : ∀ (n : Nat) (q rest : Bytes), q.length ≤ n → QContent q →
    ∃ qs, run (qstrStep true) List.length (q ++ 34 :: rest) = some (qs, rest) ∧ qs.flatten = q ++ [34] := by
  intro n
  induction n with
  | zero =>
    intro q rest hq _
    have : q = [] := List.length_eq_zero_iff.mp (by omega)
    subst this
    refine ⟨[[34]], ?_, rfl⟩
    rw [List.nil_append, run_eq (qstrStep_dec _), qstrStep, if_pos rfl]
  | succ n ih =>
    intro q rest hq hc
    obtain ⟨p, q', rfl, hp, hc', hq'⟩ := hc.split
    by_cases hp0 : p = []
    · subst hp0
      rcases hq' with rfl | ⟨b, r, rfl, hb, hr⟩
      · refine ⟨[[34]], ?_, rfl⟩
        rw [List.nil_append, List.nil_append, run_eq (qstrStep_dec _), qstrStep, if_pos rfl]
      · obtain ⟨qs, h1, h2⟩ := ih r rest (by simp at hq; omega) hr
        refine ⟨[92, b] :: qs, ?_, by simp [h2]⟩
        rw [List.nil_append, List.cons_append, List.cons_append, run_eq (qstrStep_dec _), qstr_pair_step hb]
        simp only
        rw [h1]; rfl
    · have hne : ∃ b r, q' ++ 34 :: rest = b :: r ∧ (b = 34 ∨ b = 92) := by
        rcases hq' with rfl | ⟨b, r, rfl, hb, hr⟩
        · exact ⟨34, rest, rfl, .inl rfl⟩
        · exact ⟨92, b :: (r ++ 34 :: rest), by simp, .inr rfl⟩
      obtain ⟨ts, ht1, ht2⟩ := text_plain p.length p (q' ++ 34 :: rest) (Nat.le_refl _) hp hne
      have htext : parseTextTo true [34, 92] (p ++ (q' ++ 34 :: rest)) = some (p, q' ++ 34 :: rest) := by
        unfold parseTextTo
        rw [ht1]
        simp only
        rw [ht2, if_neg hp0]
      have hlen := List.length_pos_iff.mpr hp0
      obtain ⟨qs, h1, h2⟩ := ih q' rest (by simp at hq; omega) hc'
      refine ⟨p :: qs, ?_, by simp [h2]⟩
      rw [List.append_assoc, run_eq (qstrStep_dec _)]
      cases p with
      | nil => exact absurd rfl hp0
      | cons c p =>
        obtain ⟨g1, g2, _, _⟩ := hp c (by simp)
        rw [List.cons_append] at htext ⊢
        rw [qstrStep, if_neg g1, if_neg g2, htext]
        simp only
        rw [h1]; rfl

theorem parseQuotedString_content {q : Bytes} (h : QContent q) (rest : Bytes) :
    parseQuotedString true (q ++ 34 :: rest) = some (34 :: q ++ [34], rest) := by
  obtain ⟨qs, h1, h2⟩ := qstr_content q.length q rest (Nat.le_refl _) h
  unfold parseQuotedString
  rw [h1]
  simp [h2]

theorem quoteLoop_content (s : Bytes) (h : ∀ b ∈ s, b < 256) : QContent (quoteLoop s).1 := by
  induction s with
  | nil => exact .nil
  | cons b r ih =>
    have ih := ih fun c hc => h c (by simp [hc])
    have hb := h b (by simp)
    simp only [quoteLoop]
    split
    · next hh =>
      refine .pair ?_ ih
      simp only [isCtl, Bool.or_eq_true, Bool.and_eq_true, beq_iff_eq, decide_eq_true_eq] at hh
      omega
    · next hh =>
      have hplain : Plain b := by
        simp only [isCtl, Bool.or_eq_true, Bool.and_eq_true, beq_iff_eq, decide_eq_true_eq, Bool.not_eq_true',
          Bool.or_eq_false_iff, beq_eq_false_iff_ne] at hh
        refine ⟨by omega, by omega, hb, ?_⟩
        simp only [isCtl, Bool.or_eq_false_iff, decide_eq_false_iff_not, beq_eq_false_iff_ne]
        omega
      split <;> exact .plain hplain ih

/-! ### the word parser -/

/-- A byte that can be part of a token, as `parse_token` sees it. -/
def TokByte (b : Nat) : Prop := isCtl b = false ∧ isSeparator b = false

instance (b : Nat) : Decidable (TokByte b) := inferInstanceAs (Decidable (_ ∧ _))

/-- What follows a token: nothing, or a byte that is not part of it. -/
def TokEnd (r : Bytes) : Prop := ∀ b r', r = b :: r' → ¬ TokByte b

theorem tokEnd_nil : TokEnd [] := by intro b r h; cases h
theorem tokEnd_cons {b : Nat} {r : Bytes} (h : ¬ TokByte b) : TokEnd (b :: r) := by
  intro c r' hh
  simp only [List.cons.injEq] at hh
  rw [← hh.1]; exact h

theorem tokByte_iff (b : Nat) : (!(isCtl b || isSeparator b)) = true ↔ TokByte b := by
  simp [TokByte]

theorem parseToken_append (t r : Bytes) (h0 : t ≠ []) (ht : ∀ b ∈ t, TokByte b) (hr : TokEnd r) :
    parseToken (t ++ r) = some (t, r) := by
  have : (t ++ r).takeWhile (fun b => !(isCtl b || isSeparator b)) = t := by
    rw [List.takeWhile_append_of_pos (fun b hb => (tokByte_iff b).mpr (ht b hb))]
    cases r with
    | nil => simp
    | cons b r' =>
      rw [List.takeWhile_cons, if_neg (by rw [tokByte_iff]; exact hr b r' rfl)]
      simp
  unfold parseToken
  rw [this]
  simp [h0]

theorem skipLws_none {n : Nat} {s : Bytes} (h : parseLws s = none) : skipLws n s = s := by
  cases n with
  | zero => rfl
  | succ n => simp [skipLws, h]

theorem tokByte_lws {b : Nat} (h : TokByte b) : ¬ LwsStart b := by
  obtain ⟨h1, h2⟩ := h
  intro hl
  rcases hl with rfl | rfl | rfl
  · exact absurd h2 (by decide)
  · exact absurd h1 (by decide)
  · exact absurd h1 (by decide)

/-- A token followed by something else is one word. -/
theorem words_token (ig : Bool) (t r : Bytes) (h0 : t ≠ []) (ht : ∀ b ∈ t, TokByte b) (hr : TokEnd r) :
    words ig (t ++ r) = (words ig r).map (.text t :: ·) := by
  have hp := parseToken_append t r h0 ht hr
  cases t with
  | nil => exact absurd rfl h0
  | cons b t =>
    have hb := ht b (by simp)
    have hl := parseLws_none (r := t ++ r) (tokByte_lws hb)
    rw [List.cons_append] at hp ⊢
    rw [words_emit (a := [.text (b :: t)]) (r := r)]
    · rfl
    · simp only [wordStep]
      rw [skipLws_none hl, hl]
      simp only [hb.2, Bool.false_eq_true, if_false, hp, Option.isSome_none, Bool.and_false, List.nil_append]

/-- A separator other than white space, "(" and DQUOTE is one word. -/
theorem words_sep (ig : Bool) (c : Nat) (r : Bytes) (hs : isSeparator c = true) (h1 : c ≠ 40) (h2 : c ≠ 34)
    (h3 : c ≠ 32) (h4 : c ≠ 9) : words ig (c :: r) = (words ig r).map (.sep c :: ·) := by
  have hl : parseLws (c :: r) = none := by
    apply parseLws_none
    rintro (h | h | h)
    · exact h3 h
    · exact h4 h
    · subst h; exact absurd hs (by decide)
  rw [words_emit (a := [.sep c]) (r := r)]
  · rfl
  · simp only [wordStep]
    rw [skipLws_none hl, hl]
    simp [hs, h1, h2]

/-- A quoted string is one word. -/
theorem words_quoted (ig : Bool) (q r : Bytes) (h : QContent q) :
    words ig (34 :: q ++ 34 :: r) = (words ig r).map (.text (34 :: q ++ [34]) :: ·) := by
  have hl : parseLws (34 :: (q ++ 34 :: r)) = none := by
    apply parseLws_none
    rintro (h | h | h) <;> cases h
  have hs : isSeparator 34 = true := by decide
  rw [List.cons_append, words_emit (a := [.text (34 :: q ++ [34])]) (r := r)]
  · rfl
  · simp only [wordStep]
    rw [skipLws_none hl, hl]
    simp only [hs, if_true]
    rw [if_neg (by decide), parseQuotedString_content h]
    simp

/-- One space before something that is not white space. -/
theorem words_sp (ig : Bool) (c : Nat) (r : Bytes) (h : ¬ LwsStart c) :
    words ig (32 :: c :: r) = if ig then words ig (c :: r) else (words ig (c :: r)).map (.sep 32 :: ·) := by
  have hsp : spanSp (c :: r) = ([], c :: r) := by
    rw [spanSp, if_neg]
    intro hh; apply h; simp only [LwsStart]; omega
  have hl : parseLws (32 :: c :: r) = some ([32], c :: r) := by
    rw [parseLws_sp (.inl rfl), hsp]
  have hn := parseLws_none (r := r) h
  have hk : skipLws (32 :: c :: r).length (32 :: c :: r) = c :: r := by
    rw [List.length_cons, skipLws, hl]
    exact skipLws_none hn
  have hk' : skipLws (c :: r).length (c :: r) = c :: r := skipLws_none hn
  have key : ∀ (sp : List Word) (s : Bytes), s = 32 :: c :: r →
      sp = (if !ig && (parseLws (32 :: c :: r)).isSome then [Word.sep 32] else []) →
      words ig (32 :: c :: r) = (words ig (c :: r)).map (sp ++ ·) := by
    intro sp s _ hspe
    unfold words
    rw [run_eq (wordStep_dec ig) (32 :: c :: r), run_eq (wordStep_dec ig) (c :: r)]
    have e1 : wordStep ig (32 :: c :: r) = match wordStep ig (c :: r) with
        | .stop => .stop
        | .fail => .fail
        | .last a r => .last (sp ++ a) r
        | .emit a r => .emit (sp ++ a) r := by
      simp only [wordStep]
      rw [hk, hk', hn]
      rw [← hspe]
      simp only [Option.isSome_none, Bool.and_false, Bool.false_eq_true, if_false, List.nil_append]
      by_cases g1 : isSeparator c = true
      · simp only [g1, if_true]
        by_cases g2 : c = 40
        · simp only [g2, if_true]
          cases parseComment true r <;> rfl
        · simp only [g2, if_false]
          by_cases g3 : c = 34
          · simp only [g3, if_true]
            cases parseQuotedString true r <;> rfl
          · simp only [g3, if_false]
      · simp only [g1, Bool.false_eq_true, if_false]
        cases parseToken (c :: r) <;> rfl
    rw [e1]
    cases hw : wordStep ig (c :: r) with
    | stop =>
      exfalso
      simp only [wordStep] at hw
      rw [hk'] at hw
      simp only at hw
      repeat' split at hw
      all_goals cases hw
    | fail => rfl
    | last a r' => simp
    | emit a r' =>
      simp only
      cases run (wordStep ig) List.length r' <;> simp
  have := key _ _ rfl rfl
  rw [this, hl]
  cases ig
  · simp
  · simp

end Verif.Http

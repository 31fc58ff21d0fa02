import Verif.Http.GrammarLemmas
/-! # C25: HTTP quoted strings -/
namespace Verif.Http

/-- `b` may stand in a token of RFC 2616: a printable ASCII character other than SP and ``()<>@,;:\\"/[]?={}``. -/
def TokenChar (b : Nat) : Prop :=
  33 ≤ b ∧ b ≤ 126 ∧ b ∉ [40, 41, 60, 62, 64, 44, 59, 58, 92, 34, 47, 91, 93, 63, 61, 123, 125]

/-- **C25**, **C26**: `check_token` accepts exactly the byte strings of token characters, and the characters a
`WordParser` takes as part of a token are exactly these and the bytes from 128. -/
theorem C26_token_chars :
    (∀ t, checkToken t = true ↔ ∀ b ∈ t, TokenChar b) ∧ (∀ b, TokByte b ↔ TokenChar b ∨ 128 ≤ b) := by
  have e : ∀ b, TokByte b ↔ TokenChar b ∨ 128 ≤ b := by
    intro b
    simp only [TokByte, TokenChar, isCtl, isSeparator, separators, List.contains_eq_mem, decide_eq_false_iff_not,
      List.mem_cons, List.not_mem_nil, Bool.or_eq_false_iff, beq_eq_false_iff_ne, not_or, ne_eq, not_false_eq_true, and_true]
    omega
  refine ⟨fun t => ?_, e⟩
  simp only [checkToken, List.all_eq_true]
  refine forall_congr' fun b => forall_congr' fun _ => ?_
  have := e b
  simp only [TokByte] at this
  simp only [Bool.and_eq_true, Bool.not_eq_true', Bool.or_eq_false_iff, isChar, Bool.not_eq_false', decide_eq_true_eq]
  unfold TokenChar at *
  constructor
  · intro ⟨h1, h2, h3⟩
    rcases this.mp ⟨h2, h1⟩ with h | h
    · exact h
    · omega
  · intro h
    obtain ⟨h1, h2⟩ := this.mpr (.inl h)
    exact ⟨h2, h1, by omega⟩

theorem unescape_true_cons (b : Nat) (r : Bytes) : unescape true (b :: r) = b :: unescape false r := by
  simp [unescape]

theorem unescape_quoteLoop (s : Bytes) : unescape false (quoteLoop s).1 = s := by
  induction s with
  | nil => rfl
  | cons b r ih =>
    simp only [quoteLoop]
    split
    · simp [unescape, ih]
    · next hh =>
      have hb : (b == 92) = false := by
        simp only [Bool.or_eq_true, Bool.and_eq_true, not_or] at hh
        simpa using hh.1.1
      split <;> simp [unescape, hb, ih]

theorem unescape_plain (q : Bytes) (h : q.contains 92 = false) : unescape false q = q := by
  induction q with
  | nil => rfl
  | cons b r ih =>
    simp only [List.contains_cons, Bool.or_eq_false_iff] at h
    have hb : (b == 92) = false := by rw [beq_eq_false_iff_ne]; intro e; subst e; exact absurd h.1 (by decide)
    simp [unescape, hb, ih h.2]

theorem decode_quoted (q : Bytes) : decodeQuotedString (34 :: q ++ [34]) = unescape false q := by
  unfold decodeQuotedString
  simp only [List.cons_append, List.tail_cons, List.dropLast_concat]
  split
  · rfl
  · next h => rw [unescape_plain _ (by simpa using h)]

theorem decode_quoteLoop (s : Bytes) : decodeQuotedString (34 :: (quoteLoop s).1 ++ [34]) = s := by
  rw [decode_quoted, unescape_quoteLoop]

theorem quoteLoop_flag (s : Bytes) : (quoteLoop s).2 = false ↔ ∀ b ∈ s, TokByte b := by
  induction s with
  | nil => simp [quoteLoop]
  | cons b r ih =>
    simp only [quoteLoop]
    have h92 : isSeparator 92 = true := by decide
    have h34 : isSeparator 34 = true := by decide
    split
    · next hh =>
      simp only [Bool.true_eq_false, List.mem_cons, forall_eq_or_imp, TokByte, false_iff, not_and]
      intro h
      simp only [Bool.or_eq_true, Bool.and_eq_true, beq_iff_eq] at hh
      rcases hh with (rfl | rfl) | ⟨h', _⟩
      · rw [h92] at h; simp at h
      · rw [h34] at h; simp at h
      · rw [h'] at h; simp at h
    · split
      · next hh =>
        simp only [Bool.true_eq_false, List.mem_cons, forall_eq_or_imp, TokByte, false_iff, not_and]
        intro h
        simp only [Bool.or_eq_true] at hh
        rcases hh with hh | hh
        · rw [hh] at h; simp at h
        · rw [hh] at h; simp at h
      · next hh =>
        simp only [Bool.or_eq_true, not_or, Bool.not_eq_true] at hh
        simp [ih, TokByte, hh.1, hh.2]

theorem quoteLoop_tok (s : Bytes) (h : ∀ b ∈ s, TokByte b) : (quoteLoop s).1 = s := by
  induction s with
  | nil => rfl
  | cons b r ih =>
    obtain ⟨h1, h2⟩ := h b (by simp)
    have ih := ih fun c hc => h c (by simp [hc])
    have h3 : b ≠ 92 := by intro e; subst e; exact absurd h2 (by decide)
    have h4 : b ≠ 34 := by intro e; subst e; exact absurd h2 (by decide)
    simp [quoteLoop, h1, h2, h3, h4, ih]

/-- Without `force`, exactly the strings made of token bytes are left unquoted. -/
theorem quoteString_noforce (s : Bytes) :
    quoteString s false = if ∀ b ∈ s, TokByte b then s else quoteString s true := by
  unfold quoteString
  by_cases h : ∀ b ∈ s, TokByte b
  · simp [(quoteLoop_flag s).mpr h, quoteLoop_tok s h, if_pos h]
  · have : (quoteLoop s).2 = true := by
      cases hq : (quoteLoop s).2 with
      | true => rfl
      | false => exact absurd ((quoteLoop_flag s).mp hq) h
    simp [this, if_neg h]

/-- **C25**: `decode_quoted_string(quote_string(s))` is `s`, for every byte string. -/
theorem C25_decode_quote (s : Bytes) : decodeQuotedString (quoteString s true) = s := by
  unfold quoteString
  simp only [Bool.true_or, if_true]
  exact decode_quoteLoop s

/-- **C25**: a quoted byte string, whatever follows it, is read by `WordParser` as exactly one word, and the word
decodes to the byte string. -/
theorem C25_one_word (s : Bytes) (h : ∀ b ∈ s, b < 256) (ignoreSp : Bool) (rest : Bytes) :
    ∃ w, words ignoreSp (quoteString s true ++ rest) = (words ignoreSp rest).map (.text w :: ·) ∧
      w.head? = some 34 ∧ decodeQuotedString w = s := by
  refine ⟨34 :: (quoteLoop s).1 ++ [34], ?_, rfl, decode_quoteLoop s⟩
  have := words_quoted ignoreSp (quoteLoop s).1 rest (quoteLoop_content s h)
  unfold quoteString
  simp only [Bool.true_or, if_true]
  simpa using this

example : words true (quoteString [97, 34, 92, 9, 0, 13, 10, 32, 255] true) =
      some [.text (quoteString [97, 34, 92, 9, 0, 13, 10, 32, 255] true)] ∧
    quoteString [97, 34, 92, 9, 0, 13, 10, 32, 255] true =
      [34, 97, 92, 34, 92, 92, 9, 92, 0, 92, 13, 92, 10, 32, 255, 34] := by decide +kernel

/-- **C25**: without `force` a string is quoted exactly when it is not a token (or empty), and a non-empty string
is again read back as a single word: the token itself or a quoted string that decodes to it. -/
theorem C25_noforce (s : Bytes) (h : ∀ b ∈ s, b < 256) (h0 : s ≠ []) (ignoreSp : Bool) (rest : Bytes)
    (hr : TokEnd rest) : ∃ w, words ignoreSp (quoteString s false ++ rest) = (words ignoreSp rest).map (.text w :: ·) ∧
      ((w = s ∧ ∀ b ∈ s, TokByte b) ∨ (w.head? = some 34 ∧ decodeQuotedString w = s)) := by
  rw [quoteString_noforce]
  by_cases ht : ∀ b ∈ s, TokByte b
  · rw [if_pos ht]
    exact ⟨s, words_token ignoreSp s rest h0 ht hr, .inl ⟨rfl, ht⟩⟩
  · rw [if_neg ht]
    obtain ⟨w, h1, h2⟩ := C25_one_word s h ignoreSp rest
    exact ⟨w, h1, .inr h2⟩

/-- The empty byte string written without `force` is nothing at all, so it is read back as no word (violation of
C26 for empty parameter values). -/
theorem C25_empty_violation : quoteString [] false = [] ∧ words true (quoteString [] false) = some [] := by
  decide +kernel

/-- `WordParser` accepts a quoted string whose closing quote is missing, and decoding it loses its last byte:
`"abc` is read as `ab`. -/
theorem C25_unterminated_violation : words true [34, 97, 98, 99] = some [.text [34, 97, 98, 99]] ∧
    decodeQuotedString [34, 97, 98, 99] = [97, 98] := by decide +kernel

end Verif.Http

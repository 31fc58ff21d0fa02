import Verif.Http.WordLemmas
/-! # C26: HTTP parameters round trip -/
namespace Verif.Http
open Text (isDigit decVal decStr decPad decVal_decStr decStr_isDigit decStr_ne_nil)

theorem lowerByte_ascii {b : Nat} (h : b < 128) : lowerByte b < 128 ∧ lowerChar b = lowerByte b := by
  unfold lowerByte lowerChar
  constructor
  · split <;> omega
  · by_cases h1 : 65 ≤ b ∧ b ≤ 90
    · rw [if_pos h1, if_pos (.inl h1)]
    · rw [if_neg h1, if_neg (by omega)]

theorem lowerBytes_ascii {s : Bytes} (h : ∀ b ∈ s, b < 128) : (∀ b ∈ lowerBytes s, b < 128) ∧ lowerText s = lowerBytes s := by
  constructor
  · intro b hb
    obtain ⟨c, hc, rfl⟩ := List.mem_map.mp hb
    exact (lowerByte_ascii (h c hc)).1
  · exact List.map_congr_left fun b hb => (lowerByte_ascii (h b hb)).2

theorem lowerText_idem_ascii {s : Bytes} (h : ∀ b ∈ s, b < 128) : lowerText (lowerBytes s) = lowerText s := by
  simp only [lowerText, lowerBytes, List.map_map]
  apply List.map_congr_left
  intro b hb
  have := h b hb
  simp only [Function.comp, lowerChar, lowerByte]
  split
  · rw [if_neg (by omega), if_pos (by omega)]
  · rfl

theorem tok47 : ¬ TokByte 47 := by decide

theorem openWords_ok {ig : Bool} {s : Bytes} {ws : List Word} (h : words ig s = some ws) : openWords ig s = .ok ws := by
  simp [openWords, h]

/-- **C26** (media types): a media type whose type and subtype are tokens and whose parameters are well formed is
read back from what `to_bytes` wrote as a media type that is equal (same sort key), with the type and subtype in
lower case and the same parameters with their names as they were. -/
theorem C26_media_type (m : MediaType) (h1 : AsciiToken m.type) (h2 : AsciiToken m.subtype) (h3 : ValidParams m.params) :
    ∃ s m', m.toBytes = .ok s ∧ MediaType.fromStr s = .ok m' ∧ m'.sortkey = m.sortkey ∧
      m'.type = lowerText m.type ∧ m'.subtype = lowerText m.subtype ∧ m'.params.Perm m.params := by
  obtain ⟨p, ws, hf, hw, hp, hend, hsp⟩ := parse_formatted false false m.params h3
  have a1 : ∀ b ∈ m.type, b < 128 := fun b hb => (h1.2 b hb).2
  have a2 : ∀ b ∈ m.subtype, b < 128 := fun b hb => (h2.2 b hb).2
  have t1 : ∀ b ∈ m.type, TokByte b := fun b hb => (h1.2 b hb).1
  have t2 : ∀ b ∈ m.subtype, TokByte b := fun b hb => (h2.2 b hb).1
  refine ⟨m.type ++ [47] ++ m.subtype ++ p, ⟨lowerBytes m.type, lowerBytes m.subtype, sorted m.params⟩, ?_, ?_, ?_, ?_, ?_, ?_⟩
  · unfold MediaType.toBytes
    rw [hf, ascii_ok (by simp only [List.mem_append, List.mem_singleton]; rintro b ((hb | rfl) | hb); exact a1 b hb; decide; exact a2 b hb)]
    rfl
  · have hwords : words false (m.type ++ [47] ++ m.subtype ++ p) = some (.text m.type :: .sep 47 :: .text m.subtype :: ws) := by
      rw [List.append_assoc, List.append_assoc, List.singleton_append, words_token false m.type _ h1.1 t1 (tokEnd_cons tok47),
        words_sep false 47 _ (by decide) (by decide) (by decide) (by decide) (by decide),
        words_token false m.subtype p h2.1 t2 hend, hw]
      rfl
    unfold MediaType.fromStr requireMediaType
    simp only [openWords_ok hwords, bind, Except.bind, parseSp_text, requireToken_tok h1.1 t1,
      ascii_ok (lowerBytes_ascii a1).1, requireSep_eq, requireToken_tok h2.1 t2, ascii_ok (lowerBytes_ascii a2).1, hsp, hp]
    rfl
  · simp only [MediaType.sortkey, lowerText_idem_ascii a1, lowerText_idem_ascii a2, paramKey_perm (sorted_perm m.params)]
  · exact (lowerBytes_ascii a1).2.symm
  · exact (lowerBytes_ascii a2).2.symm
  · exact sorted_perm m.params

/-- A media type `Text/x; Charset=utf-8; q="a b"`. -/
example : let m : MediaType := ⟨[84, 101, 120, 116], [120], [([113], [113], [97, 32, 98]),
      ([99, 104], [67, 104], [117, 116, 102, 45, 56])]⟩
    AsciiToken m.type ∧ AsciiToken m.subtype ∧ ValidParams m.params := by
  refine ⟨⟨by decide, by decide⟩, ⟨by decide, by decide⟩, by decide, ?_⟩
  intro e he
  simp only [List.mem_cons, List.not_mem_nil, or_false] at he
  rcases he with rfl | rfl
  · exact ⟨⟨by decide, by decide⟩, by decide, by decide, by decide⟩
  · exact ⟨⟨by decide, by decide⟩, by decide, by decide, by decide⟩

/-- An empty parameter value is written as nothing, and the result cannot be read back: `a/b; c=`. -/
theorem C26_empty_value_violation : (⟨[97], [98], [([99], [99], [])]⟩ : MediaType).toBytes =
      .ok [97, 47, 98, 59, 32, 99, 61] ∧
    MediaType.fromStr [97, 47, 98, 59, 32, 99, 61] = .error .badSyntax := by
  constructor
  · simp [MediaType.toBytes, formatParameters, ascii, bind, Except.bind, pure, Except.pure, quoteString, quoteLoop]
  · rfl

/-- `a/b; c=""` is accepted, but what `to_bytes` makes of it is not. -/
theorem C26_empty_value_parsed : MediaType.fromStr [97, 47, 98, 59, 32, 99, 61, 34, 34] =
    .ok ⟨[97], [98], [([99], [99], [])]⟩ := by decide +kernel

/-- A parameter name with a byte above 127 is accepted by `from_str` but the media type cannot be written. -/
theorem C26_latin1_name_violation : MediaType.fromStr [97, 47, 98, 59, 233, 61, 99] =
      .ok ⟨[97], [98], [([233], [233], [99])]⟩ ∧
    (⟨[97], [98], [([233], [233], [99])]⟩ : MediaType).toBytes = .error .value := by
  constructor
  · rfl
  · simp [MediaType.toBytes, formatParameters, ascii, bind, Except.bind, pure, Except.pure]

/-- **C26** (transfer encodings): every transfer encoding the constructor makes from a token and well formed
parameters is read back equal. -/
theorem C26_transfer_encoding (token : Bytes) (d : Params) (h1 : AsciiToken token) (h3 : ValidParams d) :
    ∃ s t', (mkTransferEncoding token d).toBytes = .ok s ∧ TransferEncoding.fromStr s = .ok t' ∧
      t'.sortkey = (mkTransferEncoding token d).sortkey ∧ t'.token = lowerText token ∧
      t'.params.Perm (mkTransferEncoding token d).params := by
  have a1 : ∀ b ∈ token, b < 128 := fun b hb => (h1.2 b hb).2
  have hlow := lowerBytes_ascii a1
  have hidem : lowerText (lowerText token) = lowerText token := by
    rw [hlow.2]; exact (lowerText_idem_ascii a1).trans hlow.2
  have t1 : ∀ b ∈ lowerText token, TokByte b := by
    rw [hlow.2]
    intro b hb
    obtain ⟨c, hc, rfl⟩ := List.mem_map.mp hb
    unfold lowerByte
    split
    · next hr =>
      refine ⟨by simp only [isCtl, Bool.or_eq_false_iff, decide_eq_false_iff_not, beq_eq_false_iff_ne]; omega, ?_⟩
      simp only [isSeparator, separators, List.contains_cons, List.contains_nil, Bool.or_false, Bool.or_eq_false_iff,
        beq_eq_false_iff_ne]
      omega
    · exact (h1.2 c hc).1
  have n1 : lowerText token ≠ [] := by simp [lowerText, h1.1]
  have a2 : ∀ b ∈ lowerText token, b < 128 := by rw [hlow.2]; exact hlow.1
  by_cases hc : lowerText token = chunkedToken
  · refine ⟨chunkedToken, ⟨chunkedToken, []⟩, ?_, by rfl, ?_, hc.symm, ?_⟩
    · simp only [mkTransferEncoding, hc, if_true, TransferEncoding.toBytes, formatParameters, List.mergeSort_nil]
      rfl
    · simp only [mkTransferEncoding, hc, if_true]
    · simp only [mkTransferEncoding, hc, if_true]
      exact List.Perm.refl _
  · obtain ⟨p, ws, hf, hw, hp, hend, hsp⟩ := parse_formatted true true d h3
    refine ⟨lowerText token ++ p, ⟨lowerText token, sorted d⟩, ?_, ?_, ?_, rfl, ?_⟩
    · simp only [mkTransferEncoding, hc, if_false, TransferEncoding.toBytes, hf, ascii_ok a2]
      rfl
    · have hwords : words true (lowerText token ++ p) = some (.text (lowerText token) :: ws) := by
        rw [words_token true _ _ n1 t1 hend, hw]; rfl
      have hl2 : lowerBytes (lowerText token) = lowerText token := by
        rw [← (lowerBytes_ascii a2).2]; exact hidem
      unfold TransferEncoding.fromStr requireTransferEncoding
      simp only [openWords_ok hwords, bind, Except.bind, parseSp_text, requireToken_tok n1 t1, hl2, hp]
      simp only [ne_eq, hc, not_false_eq_true, if_true, pure, Except.pure]
      simp only [requireEnd, mkTransferEncoding, hidem, hc, if_false]
    · simp only [mkTransferEncoding, hc, if_false, TransferEncoding.sortkey, paramKey_perm (sorted_perm d)]
    · simp only [mkTransferEncoding, hc, if_false]
      exact sorted_perm d

example : AsciiToken [71, 122, 105, 112] ∧ lowerText [71, 122, 105, 112] ≠ chunkedToken := by
  refine ⟨⟨by decide, by decide⟩, by decide⟩

theorem hexUpper_lt {n : Nat} (h : n < 16) : isHex (hexUpper n) = true ∧ hexDigit (hexUpper n) = n ∧
    TokByte (hexUpper n) := by
  have : ∀ n < 16, isHex (hexUpper n) = true ∧ hexDigit (hexUpper n) = n ∧ TokByte (hexUpper n) := by decide
  exact this n h

theorem hexStr_spec (n : Nat) : hexStr n ≠ [] ∧ (∀ b ∈ hexStr n, isHex b = true ∧ TokByte b) ∧ hexVal (hexStr n) = n := by
  induction n using Nat.strongRecOn with
  | ind n ih =>
    rw [hexStr]
    split
    · next h =>
      obtain ⟨h1, h2, h3⟩ := hexUpper_lt h
      refine ⟨by simp, by simpa using ⟨h1, h3⟩, by simp [hexVal, h2]⟩
    · next h =>
      obtain ⟨h1, h2, h3⟩ := hexUpper_lt (Nat.mod_lt n (by decide : 0 < 16))
      obtain ⟨i1, i2, i3⟩ := ih (n / 16) (by omega)
      refine ⟨by simp, ?_, ?_⟩
      · intro b hb
        rw [List.mem_append, List.mem_singleton] at hb
        rcases hb with hb | rfl
        · exact i2 b hb
        · exact ⟨h1, h3⟩
      · have : hexVal (hexStr (n / 16) ++ [hexUpper (n % 16)]) = 16 * hexVal (hexStr (n / 16)) + hexDigit (hexUpper (n % 16)) := by
          simp [hexVal, List.foldl_append]
        rw [this, i3, h2]
        omega

/-- **C26** (chunk headers): a chunk size and its extensions are read back from what `to_bytes` wrote. -/
theorem C26_chunk (c : Chunk) (h3 : ValidParams c.extensions) :
    ∃ s c', c.toBytes = .ok s ∧ Chunk.fromStr s = .ok c' ∧ c'.sortkey = c.sortkey ∧ c'.size = c.size ∧
      c'.extensions.Perm c.extensions := by
  obtain ⟨n1, hx, hv⟩ := hexStr_spec c.size
  have t1 : ∀ b ∈ hexStr c.size, TokByte b := fun b hb => (hx b hb).2
  have hdig : isHexDigits (hexStr c.size) = true := by
    simp only [isHexDigits, Bool.and_eq_true, List.all_eq_true]
    exact ⟨by simpa using n1, fun b hb => (hx b hb).1⟩
  obtain ⟨p, ws, hf, hw, hp, hend, hsp⟩ := parse_formatted true true c.extensions h3
  refine ⟨hexStr c.size ++ p, ⟨c.size, sorted c.extensions⟩, ?_, ?_, ?_, rfl, sorted_perm _⟩
  · simp only [Chunk.toBytes, hf]; rfl
  · have hwords : words true (hexStr c.size ++ p) = some (.text (hexStr c.size) :: ws) := by
      rw [words_token true _ _ n1 t1 hend, hw]; rfl
    unfold Chunk.fromStr requireChunk requireHexInteger wpHexInteger
    simp only [openWords_ok hwords, bind, Except.bind, parseSp_text, hdig, if_true, hv, hp, pure, Except.pure, requireEnd]
  · simp only [Chunk.sortkey, paramKey_perm (sorted_perm c.extensions)]

example : (⟨305419896, []⟩ : Chunk).toBytes = .ok [49, 50, 51, 52, 53, 54, 55, 56] := by decide +kernel

/-- **C26** (entity tags): every entity tag, weak or strong, is read back as it was. -/
theorem C26_entity_tag (e : EntityTag) (h : ∀ b ∈ e.tag, b < 256) : EntityTag.fromStr e.toBytes = .ok e := by
  obtain ⟨tag, weak⟩ := e
  obtain ⟨w, h1, h2, h3⟩ := C25_one_word tag h true []
  rw [List.append_nil, words_nil] at h1
  obtain ⟨i1, i2, i3⟩ := isQuoted_quoted (ws := []) h2
  cases weak with
  | false =>
    have hwp : wpToken [.text w] = (none, [.text w]) := by
      cases w with
      | nil => cases h2
      | cons b t =>
        simp only [List.head?_cons, Option.some.injEq] at h2
        subst h2
        rfl
    unfold EntityTag.fromStr requireEntityTag entityWeak EntityTag.toBytes
    simp only [Bool.false_eq_true, if_false, openWords_ok h1, bind, Except.bind, parseSp_text, hwp,
      pure, Except.pure, i3, parseSp_nil, requireEnd, h3]
  | true =>
    have hwords : words true ([87, 47] ++ quoteString tag true) = some [.text [87], .sep 47, .text w] := by
      have := words_token true [87] (47 :: quoteString tag true) (by decide) (by decide) (tokEnd_cons tok47)
      rw [show [87, 47] ++ quoteString tag true = [87] ++ 47 :: quoteString tag true by rfl, this,
        words_sep true 47 _ (by decide) (by decide) (by decide) (by decide) (by decide), h1]
      rfl
    have hwp : wpToken [.text [87], .sep 47, .text w] = (some [87], [.sep 47, .text w]) := by rfl
    unfold EntityTag.fromStr requireEntityTag entityWeak EntityTag.toBytes
    simp only [if_true, openWords_ok hwords, bind, Except.bind, parseSp_text, hwp, parseSp_sep (show 47 ≠ 32 by decide),
      requireSep_eq, pure, Except.pure, i3, parseSp_nil, requireEnd, h3, upperBytes, List.map_cons, List.map_nil, upperByte]
    simp [i3, h3, parseSp_nil]

example : EntityTag.toBytes ⟨[97, 34, 98], true⟩ = [87, 47, 34, 97, 92, 34, 98, 34] := by decide

/-! ### versions, product tokens and language tags -/

theorem splitByte_none (c : Nat) (s : Bytes) (h : c ∉ s) : splitByte c s = [s] := by
  induction s with
  | nil => rfl
  | cons b r ih =>
    simp only [List.mem_cons, not_or] at h
    rw [splitByte, if_neg (fun e => h.1 e.symm), ih h.2]

theorem splitByte_append (c : Nat) (s t : Bytes) (h : c ∉ s) : splitByte c (s ++ c :: t) = s :: splitByte c t := by
  induction s with
  | nil => rw [List.nil_append, splitByte, if_pos rfl]
  | cons b r ih =>
    simp only [List.mem_cons, not_or] at h
    rw [List.cons_append, splitByte, if_neg (fun e => h.1 e.symm), ih h.2]

theorem splitByte_join (c : Nat) : ∀ (l : List Bytes), l ≠ [] → (∀ s ∈ l, c ∉ s) → splitByte c (joinByte c l) = l := by
  intro l
  induction l with
  | nil => intro h; exact absurd rfl h
  | cons s l ih =>
    intro _ h
    cases l with
    | nil => exact splitByte_none c s (h s (by simp))
    | cons t l =>
      rw [joinByte, splitByte_append c s _ (h s (by simp)), ih (by simp) fun x hx => h x (by simp [hx])]
      simp

theorem digit_tok {b : Nat} (h : isDigit b = true) : TokByte b ∧ b ≠ 46 ∧ b < 128 := by
  simp only [isDigit, Bool.and_eq_true, decide_eq_true_eq] at h
  refine ⟨⟨?_, ?_⟩, by omega, by omega⟩
  · simp only [isCtl, Bool.or_eq_false_iff, decide_eq_false_iff_not, beq_eq_false_iff_ne]; omega
  · simp only [isSeparator, separators, List.contains_cons, List.contains_nil, Bool.or_false, Bool.or_eq_false_iff,
      beq_eq_false_iff_ne]
    omega

theorem isDigits_decStr (n : Nat) : isDigits (decStr n) = true := by
  simp only [isDigits, Bool.and_eq_true, List.all_eq_true]
  exact ⟨by simpa using decStr_ne_nil n, decStr_isDigit n⟩

/-- **C26** (protocol versions): every version `HTTP/m.n` is read back as it was. -/
theorem C26_http_version (v : HTTPVersion) : HTTPVersion.fromStr v.toBytes = .ok v := by
  obtain ⟨ma, mi⟩ := v
  have htok : ∀ b ∈ decStr ma ++ 46 :: decStr mi, TokByte b := by
    intro b hb
    simp only [List.mem_append, List.mem_cons] at hb
    rcases hb with hb | rfl | hb
    · exact (digit_tok (decStr_isDigit _ b hb)).1
    · decide
    · exact (digit_tok (decStr_isDigit _ b hb)).1
  have n1 : decStr ma ++ 46 :: decStr mi ≠ [] := by simp
  have hwords : words true (HTTPVersion.toBytes ⟨ma, mi⟩) =
      some [.text [72, 84, 84, 80], .sep 47, .text (decStr ma ++ 46 :: decStr mi)] := by
    have e : HTTPVersion.toBytes ⟨ma, mi⟩ = [72, 84, 84, 80] ++ 47 :: ((decStr ma ++ 46 :: decStr mi) ++ []) := by
      simp [HTTPVersion.toBytes]
    rw [e, words_token true _ _ (by decide) (by decide) (tokEnd_cons tok47),
      words_sep true 47 _ (by decide) (by decide) (by decide) (by decide) (by decide),
      words_token true _ _ n1 htok tokEnd_nil, words_nil]
    rfl
  have hs : splitByte 46 (decStr ma ++ 46 :: decStr mi) = [decStr ma, decStr mi] := by
    rw [splitByte_append, splitByte_none]
    · intro hm; exact (digit_tok (decStr_isDigit _ _ hm)).2.1 rfl
    · intro hm; exact (digit_tok (decStr_isDigit _ _ hm)).2.1 rfl
  unfold HTTPVersion.fromStr requireHttpVersion
  simp only [openWords_ok hwords, bind, Except.bind, parseSp_text, parseSp_sep (show 47 ≠ 32 by decide), requireSep_eq,
    requireToken_tok (t := [72, 84, 84, 80]) (by decide) (by decide), requireToken_tok n1 htok, hs, isDigits_decStr, decVal_decStr]
  rfl

/-- **C26** (product tokens): read back as they were. -/
theorem C26_product_token (p : ProductToken) (h : AsciiToken p.token) (hv : ∀ v, p.version = some v → AsciiToken v) :
    ∃ s, p.toBytes = .ok s ∧ ProductToken.fromStr s = .ok p := by
  obtain ⟨t, v⟩ := p
  have t1 : ∀ b ∈ t, TokByte b := fun b hb => (h.2 b hb).1
  have a1 : ∀ b ∈ t, b < 128 := fun b hb => (h.2 b hb).2
  cases v with
  | none =>
    refine ⟨t, ascii_ok a1, ?_⟩
    have hwords : words true t = some [.text t] := by
      have := words_token true t [] h.1 t1 tokEnd_nil
      rw [List.append_nil, words_nil] at this
      exact this
    unfold ProductToken.fromStr requireProductToken
    simp only [openWords_ok hwords, bind, Except.bind, parseSp_text, requireToken_tok (show t ≠ [] from h.1) t1, ascii_ok a1,
      parseSp_nil]
    rfl
  | some v =>
    have hv := hv v rfl
    have t2 : ∀ b ∈ v, TokByte b := fun b hb => (hv.2 b hb).1
    have a2 : ∀ b ∈ v, b < 128 := fun b hb => (hv.2 b hb).2
    refine ⟨t ++ [47] ++ v, ascii_ok ?_, ?_⟩
    · simp only [List.mem_append, List.mem_singleton]
      rintro b ((hb | rfl) | hb)
      · exact a1 b hb
      · decide
      · exact a2 b hb
    · have hwords : words true (t ++ [47] ++ v) = some [.text t, .sep 47, .text v] := by
        have e : t ++ [47] ++ v = t ++ 47 :: (v ++ []) := by simp
        rw [e, words_token true _ _ h.1 t1 (tokEnd_cons tok47),
          words_sep true 47 _ (by decide) (by decide) (by decide) (by decide) (by decide),
          words_token true _ _ hv.1 t2 tokEnd_nil, words_nil]
        rfl
      unfold ProductToken.fromStr requireProductToken
      simp only [openWords_ok hwords, bind, Except.bind, parseSp_text, requireToken_tok (show t ≠ [] from h.1) t1, ascii_ok a1,
        parseSp_sep (show 47 ≠ 32 by decide), parseSep, if_true, requireToken_tok hv.1 t2, ascii_ok a2, pure, Except.pure,
        parseSp_nil, requireEnd]

theorem mapM_ascii (l : List Bytes) (h : ∀ s ∈ l, ∀ b ∈ s, b < 128) : l.mapM ascii = .ok l := by
  induction l with
  | nil => rfl
  | cons s l ih =>
    rw [List.mapM_cons, ascii_ok (h s (by simp)), ih fun x hx => h x (by simp [hx])]
    rfl

/-- **C26** (language tags): a language tag made of ASCII tokens without hyphens is read back as it was. -/
theorem C26_language_tag (l : LanguageTag) (h : ∀ s ∈ l.primary :: l.subtags, AsciiToken s ∧ 45 ∉ s) :
    ∃ s, l.toBytes = .ok s ∧ LanguageTag.fromStr s = .ok l := by
  obtain ⟨p, ps⟩ := l
  simp only at h
  have hj : ∀ (l : List Bytes), (∀ s ∈ l, AsciiToken s ∧ 45 ∉ s) → ∀ b ∈ joinByte 45 l, TokByte b ∧ b < 128 := by
    intro l
    induction l with
    | nil => intro _ b hb; cases hb
    | cons s l ih =>
      intro h b hb
      cases l with
      | nil => exact (h s (by simp)).1.2 b hb
      | cons t l =>
        rw [joinByte] at hb
        · rw [List.mem_append, List.mem_cons] at hb
          rcases hb with hb | rfl | hb
          · exact (h s (by simp)).1.2 b hb
          · exact ⟨by decide, by decide⟩
          · exact ih (fun x hx => h x (by simp [hx])) b hb
        · simp
  have hb := hj (p :: ps) h
  have n1 : joinByte 45 (p :: ps) ≠ [] := by
    have := (h p (by simp)).1.1
    cases ps with
    | nil => exact this
    | cons q qs => simp [joinByte]
  have t1 : ∀ b ∈ joinByte 45 (p :: ps), TokByte b := fun b h => (hb b h).1
  refine ⟨joinByte 45 (p :: ps), ascii_ok fun b h => (hb b h).2, ?_⟩
  have hwords : words false (joinByte 45 (p :: ps)) = some [.text (joinByte 45 (p :: ps))] := by
    have := words_token false (joinByte 45 (p :: ps)) [] n1 t1 tokEnd_nil
    rw [List.append_nil, words_nil] at this
    exact this
  have hs := splitByte_join 45 (p :: ps) (by simp) fun s hs => (h s hs).2
  unfold LanguageTag.fromStr requireLanguageTag
  simp only [openWords_ok hwords, bind, Except.bind, parseSp_text, requireToken_tok n1 t1, hs, parseSp_nil]
  rw [ascii_ok fun b hb => ((h p (by simp)).1.2 b hb).2, mapM_ascii ps fun s hs b hb => ((h s (by simp [hs])).1.2 b hb).2]
  rfl

example : LanguageTag.fromStr [101, 110, 45, 71, 66] = .ok ⟨[101, 110], [[71, 66]]⟩ := by decide +kernel

end Verif.Http

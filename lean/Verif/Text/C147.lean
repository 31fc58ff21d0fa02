import Verif.Text.Detect
/-!
# C147: theorems about the detection of encodings
-/
namespace Verif.Text

/-- **C147**: a file that starts with a byte order mark is read with its encoding, from the first character after the mark. -/
theorem C147_bom (e : Enc) (he : e.proper) (t : List Nat) (ht : Plain t) :
    ∃ n, autoDetect (bom e ++ enc e t) = (e, n, true) ∧ (bom e ++ enc e t).drop n = enc e t := by
  have second : ∀ (f : Nat → List Nat) (g : Nat → Nat × Nat), (∀ u, f u = [(g u).1, (g u).2]) → (∀ u, u ≠ 0 → u < 65536 → (g u).1 ≠ 0 ∨ (g u).2 ≠ 0) →
      ∃ a b, (a ≠ 0 ∨ b ≠ 0) ∧ ((t.flatMap fun c => (units16 c).flatMap f) ++ [81, 81, 81, 81]).take 2 = [a, b] := by
    intro f g hf hg
    cases t with
    | nil => exact ⟨81, 81, by simp, by simp⟩
    | cons c t =>
      obtain ⟨u, us, h1, h2, h3⟩ := units16_head (ht c (by simp)).1 (ht c (by simp)).2
      exact ⟨(g u).1, (g u).2, hg u h2 h3, by simp [h1, hf]⟩
  have shape : ∀ l : List Nat, ∀ a b, (l ++ [81, 81, 81, 81]).take 2 = [a, b] → ∀ x y, pad4 (x :: y :: l) = [x, y, a, b] := by
    intro l a b h x y
    simp [pad4, h]
  rcases he with rfl | rfl | rfl | rfl | rfl
  · refine ⟨3, ?_, by simp [bom, encChar, encodeChar]⟩
    obtain ⟨a, b, c, e, h1, -, -⟩ := take4 (enc .utf8 t) 81
    have : pad4 (bom .utf8 ++ enc .utf8 t) = [0xef, 0xbb, 0xbf, a] := by
      have h2 := congrArg (List.take 1) h1
      rw [List.take_take] at h2
      simp [pad4, bom, encChar, encodeChar] at h2 ⊢
      exact h2
    simp [autoDetect, this, trimMagic, magicTable]
  · refine ⟨2, ?_, by simp [bom, encChar, units16]⟩
    obtain ⟨a, b, h1, h2⟩ := second (fun u => [u / 256, u % 256]) (fun u => (u / 256, u % 256)) (fun _ => rfl) (by intro u h0 h1; dsimp only; omega)
    have : pad4 (bom .utf16be ++ enc .utf16be t) = [0xfe, 0xff, a, b] := shape _ a b h2 0xfe 0xff
    have h3 : ¬ (a = 0 ∧ b = 0) := by omega
    simp [autoDetect, this, trimMagic, magicTable, h3]
  · refine ⟨2, ?_, by simp [bom, encChar, units16]⟩
    obtain ⟨a, b, h1, h2⟩ := second (fun u => [u % 256, u / 256]) (fun u => (u % 256, u / 256)) (fun _ => rfl) (by intro u h0 h1; dsimp only; omega)
    have : pad4 (bom .utf16le ++ enc .utf16le t) = [0xff, 0xfe, a, b] := shape _ a b h2 0xff 0xfe
    have h3 : ¬ (a = 0 ∧ b = 0) := by omega
    simp [autoDetect, this, trimMagic, magicTable, h3]
  · refine ⟨4, ?_, by simp [bom, encChar]⟩
    have : pad4 (bom .utf32be ++ enc .utf32be t) = [0, 0, 0xfe, 0xff] := by simp [pad4, bom, encChar]
    simp [autoDetect, this, trimMagic, magicTable]
  · refine ⟨4, ?_, by simp [bom, encChar]⟩
    have : pad4 (bom .utf32le ++ enc .utf32le t) = [0xff, 0xfe, 0, 0] := by simp [pad4, bom, encChar]
    simp [autoDetect, this, trimMagic, magicTable]

theorem find_mid {β : Type} {m : List Nat} {l : List (List Nat × β)} (h : ∀ p ∈ l, p.1 ≠ m) : (l.find? fun p => p.1 == m) = none := by
  rw [List.find?_eq_none]
  intro p hp
  simpa using h p hp

/-- **C147**: a file in UTF-8 without a mark is read as such, whatever it contains. -/
theorem C147_utf8 (t : List Nat) (ht : Plain t) (hb : t.head? ≠ some 0xFEFF) : autoDetect (enc .utf8 t) = (.utf8, 0, false) := by
  obtain ⟨a, b, c, e, h1, h2, h3⟩ := take4 (enc .utf8 t) 81
  have hm : ∀ y ∈ [a, b, c, e], y ≠ 0 ∧ y < 0xF8 := by
    intro y hy
    rcases h2 y hy with h | h
    · exact enc8_mid ht y h
    · omega
  simp only [List.mem_cons, List.not_mem_nil, or_false, forall_eq_or_imp, forall_eq] at hm
  obtain ⟨⟨a0, a1⟩, ⟨b0, b1⟩, ⟨c0, c1⟩, e0, e1⟩ := hm
  have hnb : ¬ ([a, b, c] = [0xef, 0xbb, 0xbf]) := by
    intro h
    obtain ⟨r, hr⟩ := h3 _ _ _ h (by omega)
    exact hb (enc8_bom ht hr)
  have hp : pad4 (enc .utf8 t) = [a, b, c, e] := h1
  have htm : trimMagic [a, b, c, e] = [a, b, c, e] := by
    unfold trimMagic
    rw [if_neg, if_neg]
    · simpa using hnb
    · simp; omega
  unfold autoDetect
  rw [hp, htm, find_mid]
  · rfl
  · intro p hp
    simp only [magicTable, List.mem_cons, List.not_mem_nil, or_false] at hp
    rcases hp with rfl | rfl | rfl | rfl | rfl | rfl | rfl | rfl | rfl | rfl | rfl | rfl | rfl | rfl | rfl <;> simp <;> omega

/-- **C147**: without a mark, a document in UTF-32 is recognised by its first `<`, and one in UTF-16 by the first two characters of its
XML declaration. -/
theorem C147_no_bom (t : List Nat) :
    autoDetect (enc .utf32be (60 :: t)) = (.utf32be, 0, false) ∧ autoDetect (enc .utf32le (60 :: t)) = (.utf32le, 0, false) ∧
    autoDetect (enc .utf16be (60 :: 63 :: t)) = (.utf16be, 0, false) ∧ autoDetect (enc .utf16le (60 :: 63 :: t)) = (.utf16le, 0, false) := by
  refine ⟨?_, ?_, ?_, ?_⟩ <;> simp [autoDetect, enc, encChar, units16, pad4, trimMagic, magicTable]

/-! ## `detect_encoding` -/

/-- **C147**: a text in UTF-8 is recognised, whatever it contains. -/
theorem C147_detect_utf8 (t : List Nat) (ht : Plain t) (hb : t.head? ≠ some 0xFEFF) : detectEnc (enc .utf8 t) = some .utf8 := by
  obtain ⟨a, b, c, e, h1, h2, h3⟩ := take4 (enc .utf8 t) 0x2a
  have hm : ∀ y ∈ [a, b, c, e], star y = 0x2a := by
    intro y hy
    have : y ≠ 0 ∧ y < 0xF8 := by
      rcases h2 y hy with h | h
      · exact enc8_mid ht y h
      · omega
    unfold star
    rw [if_neg]
    omega
  simp only [List.mem_cons, List.not_mem_nil, or_false, forall_eq_or_imp, forall_eq] at hm
  unfold detectEnc
  rw [if_neg, h1]
  · simp [hm, starTable]
  · intro h
    obtain ⟨r, hr⟩ : ∃ r, enc .utf8 t = 0xef :: 0xbb :: 0xbf :: r := ⟨(enc .utf8 t).drop 3, by
      conv_lhs => rw [← List.take_append_drop 3 (enc .utf8 t), h]
      rfl⟩
    exact hb (enc8_bom ht hr)

/-- **C147**: texts that start with two ASCII characters are recognised in each of the encodings; a text in UTF-8 always is. -/
theorem C147_detect (e : Enc) (he : e.proper) (a b : Nat) (t : List Nat) (ha : 0 < a ∧ a < 128) (hb : 0 < b ∧ b < 128)
    (ht : Plain t) : detectEnc (enc e (a :: b :: t)) = some e := by
  have sa : star a = 0x2a := by unfold star; rw [if_neg]; omega
  have sb : star b = 0x2a := by unfold star; rw [if_neg]; omega
  have a1 : a / 256 = 0 := by omega
  have a2 : a % 256 = a := by omega
  have a3 : a / 65536 = 0 := by omega
  have a4 : a / 16777216 = 0 := by omega
  have b1 : b / 256 = 0 := by omega
  have b2 : b % 256 = b := by omega
  have a5 : a < 65536 := by omega
  have b5 : b < 65536 := by omega
  have s0 : star 0 = 0 := rfl
  rcases he with rfl | rfl | rfl | rfl | rfl
  · refine C147_detect_utf8 _ ?_ (by simp; omega)
    intro c hc
    simp only [List.mem_cons] at hc
    rcases hc with rfl | rfl | hc
    · exact ⟨⟨by omega, by omega⟩, by omega⟩
    · exact ⟨⟨by omega, by omega⟩, by omega⟩
    · exact ht c hc
  · simp [detectEnc, enc, encChar, units16, a1, a2, b1, b2, a5, b5, sa, sb, s0, starTable]
  · have : a ≠ 239 := by omega
    simp [detectEnc, enc, encChar, units16, a1, a2, b1, b2, a5, b5, sa, sb, s0, starTable, this]
  · simp [detectEnc, enc, encChar, a1, a2, a3, a4, sa, s0, starTable]
  · have : a ≠ 239 := by omega
    simp [detectEnc, enc, encChar, a1, a2, a3, a4, sa, s0, starTable, this]

/-- **C147**: with a byte order mark: in UTF-8 and UTF-32 any text is recognised, in UTF-16 one that starts with a character of
Latin-1 other than U+00FE and U+00FF. -/
theorem C147_detect_bom (t : List Nat) : detectEnc (bom .utf8 ++ enc .utf8 t) = some .utf8sig ∧
    detectEnc (bom .utf32be ++ enc .utf32be t) = some .utf32be ∧ detectEnc (bom .utf32le ++ enc .utf32le t) = some .utf32le ∧
    (∀ a, 0 < a → a < 0xfe → detectEnc (bom .utf16be ++ enc .utf16be (a :: t)) = some .utf16be ∧
      detectEnc (bom .utf16le ++ enc .utf16le (a :: t)) = some .utf16le) := by
  refine ⟨?_, ?_, ?_, ?_⟩
  · simp [detectEnc, bom, encChar, encodeChar]
  · simp [detectEnc, bom, encChar, star, starTable]
  · simp [detectEnc, bom, encChar, star, starTable]
  · intro a h0 h1
    have sa : star a = 0x2a := by unfold star; rw [if_neg]; omega
    have a1 : a / 256 = 0 := by omega
    have a2 : a % 256 = a := by omega
    have a5 : a < 65536 := by omega
    have s0 : star 0 = 0 := rfl
    have s1 : star 0xfe = 0xfe := rfl
    have s2 : star 0xff = 0xff := rfl
    constructor <;> simp [detectEnc, bom, enc, encChar, units16, a1, a2, a5, sa, s0, s1, s2, starTable]

/-- The hypotheses are met: `<é😀`. -/
example : Plain [60, 0xE9, 0x1F600] := by
  intro c hc
  simp only [List.mem_cons, List.not_mem_nil, or_false] at hc
  rcases hc with rfl | rfl | rfl <;> exact ⟨⟨by omega, by omega⟩, by omega⟩

example : autoDetect (bom .utf16le ++ enc .utf16le [60, 0xE9, 0x1F600]) = (.utf16le, 2, true) := by decide +kernel

/-! ## Violations -/

/-- **C147, violated**: no file is ever taken for EBCDIC, not even one that starts with the four bytes of `<?xm` in it. -/
theorem C147_ebcdic_violation : (∀ d, (autoDetect d).1 ≠ .cp500) ∧ autoDetect [0x4c, 0x6f, 0xa7, 0x94, 0x93] = (.utf8, 0, false) := by
  refine ⟨?_, by decide +kernel⟩
  intro d h
  have hl : ∀ m : List Nat, (trimMagic m).length ≤ m.length := by
    intro m
    unfold trimMagic
    repeat' split
    all_goals (try simp only [List.length_take])
    all_goals omega
  have hl4 : (trimMagic (pad4 d)).length ≤ 4 := by
    refine Nat.le_trans (hl _) ?_
    simp [pad4]
  unfold autoDetect at h
  cases hf : magicTable.find? fun p => p.1 == trimMagic (pad4 d) with
  | none => rw [hf] at h; cases h
  | some p =>
    rw [hf] at h
    have h1 := List.mem_of_find?_eq_some hf
    have h2 : p.1 = trimMagic (pad4 d) := by simpa using List.find?_some hf
    rw [← h2] at hl4
    simp only [magicTable, List.mem_cons, List.not_mem_nil, or_false] at h1
    rcases h1 with rfl | rfl | rfl | rfl | rfl | rfl | rfl | rfl | rfl | rfl | rfl | rfl | rfl | rfl | rfl <;> first | (cases h; done) | (simp at hl4; done)

/-- **C147, violated**: `detect_encoding` does not recognise a text of one character in UTF-16, nor one whose first characters are not
in Latin-1, even after a byte order mark. -/
theorem C147_detect_violation : detectEnc (enc .utf16be [0x31]) = none ∧ detectEnc (bom .utf16be) = none ∧
    detectEnc (bom .utf16be ++ enc .utf16be [0x4E2D, 0x6587]) = none ∧ detectEnc (enc .utf16le [0x4E2D, 0x6587]) = some .utf8 := by
  decide +kernel

end Verif.Text

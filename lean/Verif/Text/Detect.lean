import Verif.Text.Utf8
import Mathlib.Data.List.Basic
/-!
# Model of the detection of encodings, `pyslet/xml/structures.py:3539-3595` and `pyslet/unicode5.py:38-101`
-/
namespace Verif.Text

/-- The names of Python codecs that detection gives. -/
inductive Enc where
  | utf8 | utf8sig | utf16be | utf16le | utf32be | utf32le | utf32 | cp500
  deriving DecidableEq, Repr

/-! ## Specification: how texts are encoded -/

/-- The 16-bit units of a character. -/
def units16 (c : Nat) : List Nat := if c < 0x10000 then [c] else [0xD800 + (c - 0x10000) / 1024, 0xDC00 + (c - 0x10000) % 1024]

/-- The bytes of a character. -/
def encChar : Enc → Nat → List Nat
  | .utf16be, c => (units16 c).flatMap fun u => [u / 256, u % 256]
  | .utf16le, c => (units16 c).flatMap fun u => [u % 256, u / 256]
  | .utf32be, c => [c / 16777216, c / 65536 % 256, c / 256 % 256, c % 256]
  | .utf32le, c => [c % 256, c / 256 % 256, c / 65536 % 256, c / 16777216]
  | _, c => encodeChar c

/-- The bytes of a text, without a byte order mark. -/
def enc (e : Enc) (t : List Nat) : List Nat := t.flatMap (encChar e)

/-- The byte order mark: the bytes of U+FEFF. -/
def bom (e : Enc) : List Nat := encChar e 0xFEFF

/-- The encodings of Unicode. -/
def Enc.proper (e : Enc) : Prop := e = .utf8 ∨ e = .utf16be ∨ e = .utf16le ∨ e = .utf32be ∨ e = .utf32le

/-- A text without NUL (which XML does not allow). -/
def Plain (t : List Nat) : Prop := ∀ c ∈ t, Scalar c ∧ c ≠ 0

/-! ## `XMLEntity.auto_detect_encoding` -/

/-- `magic_table`, structures.py:3539-3572: encoding, number of bytes to skip, and whether there is a byte order mark.  The last two keys
are written with an octal escape and have five bytes. -/
def magicTable : List (List Nat × (Enc × Nat × Bool)) :=
  [([0x00, 0x00, 0xfe, 0xff], (.utf32be, 4, true)),
   ([0xff, 0xfe, 0x00, 0x00], (.utf32le, 4, true)),
   ([0x00, 0x00, 0xff, 0xfe], (.utf32, 4, true)),
   ([0xfe, 0xff, 0x00, 0x00], (.utf32, 4, true)),
   ([0xfe, 0xff], (.utf16be, 2, true)),
   ([0xff, 0xfe], (.utf16le, 2, true)),
   ([0xef, 0xbb, 0xbf], (.utf8, 3, true)),
   ([0x00, 0x00, 0x00, 0x3c], (.utf32be, 0, false)),
   ([0x3c, 0x00, 0x00, 0x00], (.utf32le, 0, false)),
   ([0x00, 0x00, 0x3c, 0x00], (.utf32le, 0, false)),
   ([0x00, 0x3c, 0x00, 0x00], (.utf32le, 0, false)),
   ([0x00, 0x3c, 0x00, 0x3f], (.utf16be, 0, false)),
   ([0x3c, 0x00, 0x3f, 0x00], (.utf16le, 0, false)),
   ([0x03, 0x63, 0x3f, 0x78, 0x6d], (.utf8, 0, false)),
   ([0x04, 0x63, 0x6f, 0xa7, 0x94], (.cp500, 0, false))]

/-- `magic[:4]`, filled up with `Q`, structures.py:3581-3587. -/
def pad4 (d : List Nat) : List Nat := (d ++ [81, 81, 81, 81]).take 4

/-- structures.py:3588-3592. -/
def trimMagic (m : List Nat) : List Nat :=
  if m.take 2 = [0xff, 0xfe] ∨ m.take 2 = [0xfe, 0xff] then (if m.drop 2 ≠ [0, 0] then m.take 2 else m)
  else if m.take 3 = [0xef, 0xbb, 0xbf] then m.take 3 else m

/-- `auto_detect_encoding`, structures.py:3574-3595, for a file of bytes: the encoding, the position of the first byte of the text and
`self.bom`. -/
def autoDetect (d : List Nat) : Enc × Nat × Bool :=
  ((magicTable.find? fun p => p.1 == trimMagic (pad4 d)).map (·.2)).getD (.utf8, 0, false)

/-! ## `detect_encoding` -/

/-- `MAGIC_TABLE`, unicode5.py:38-67. -/
def starTable : List (List Nat × Enc) :=
  [([0x00, 0x00, 0xfe, 0xff], .utf32be),
   ([0xff, 0xfe, 0x00, 0x00], .utf32le),
   ([0x00, 0x00, 0xff, 0xfe], .utf32),
   ([0xfe, 0xff, 0x00, 0x00], .utf32),
   ([0xfe, 0xff, 0x00, 0x2a], .utf16be),
   ([0xff, 0xfe, 0x2a, 0x00], .utf16le),
   ([0x00, 0x00, 0x00, 0x2a], .utf32be),
   ([0x2a, 0x00, 0x00, 0x00], .utf32le),
   ([0x00, 0x00, 0x2a, 0x00], .utf32le),
   ([0x00, 0x2a, 0x00, 0x00], .utf32le),
   ([0x00, 0x2a, 0x00, 0x2a], .utf16be),
   ([0x2a, 0x00, 0x2a, 0x00], .utf16le),
   ([0x2a, 0x2a, 0x2a, 0x2a], .utf8)]

/-- A byte that matters, or a star. -/
def star (b : Nat) : Nat := if b = 0 ∨ b = 0xfe ∨ b = 0xff then b else 0x2a

/-- `detect_encoding`, unicode5.py:70-101. -/
def detectEnc (d : List Nat) : Option Enc :=
  if d.take 3 = [0xef, 0xbb, 0xbf] then some .utf8sig
  else (starTable.find? fun p => p.1 == ((d ++ [0x2a, 0x2a, 0x2a, 0x2a]).take 4).map star).map (·.2)

/-! ## Proofs -/

theorem pad4_cons (a b c d : Nat) (r : List Nat) : pad4 (a :: b :: c :: d :: r) = [a, b, c, d] := by simp [pad4]

/-- The bytes of a text in UTF-8: none is 0, 0xfe or 0xff. -/
theorem encodeChar_mid {c : Nat} (h : Scalar c) (h0 : c ≠ 0) : ∀ b ∈ encodeChar c, b ≠ 0 ∧ b < 0xF8 := by
  intro b hb
  obtain ⟨h1, h2⟩ := h
  unfold encodeChar at hb
  split at hb
  · simp only [List.mem_singleton] at hb; omega
  · split at hb
    · simp only [List.mem_cons, List.not_mem_nil, or_false] at hb; omega
    · split at hb
      · simp only [List.mem_cons, List.not_mem_nil, or_false] at hb; omega
      · simp only [List.mem_cons, List.not_mem_nil, or_false] at hb; omega

theorem enc8_mid {t : List Nat} (h : Plain t) : ∀ b ∈ enc .utf8 t, b ≠ 0 ∧ b < 0xF8 := by
  intro b hb
  obtain ⟨c, hc, hb⟩ := List.mem_flatMap.mp hb
  exact encodeChar_mid (h c hc).1 (h c hc).2 b hb

/-- Only U+FEFF starts with the byte order mark of UTF-8. -/
theorem enc8_bom {t r : List Nat} (h : Plain t) (he : enc .utf8 t = 0xef :: 0xbb :: 0xbf :: r) : t.head? = some 0xFEFF := by
  cases t with
  | nil => simp [enc] at he
  | cons c t =>
    have h1 : enc .utf8 (c :: t) = encodeChar c ++ enc .utf8 t := by simp [enc, encChar]
    have h2 := decodeChar_encodeChar c (h c (by simp)).1 (enc .utf8 t)
    rw [← h1, he] at h2
    simp [decodeChar, isCont, Scalar] at h2
    simp [← h2.1]

theorem take4 (d : List Nat) (x : Nat) : ∃ a b c e, (d ++ [x, x, x, x]).take 4 = [a, b, c, e] ∧ (∀ y ∈ [a, b, c, e], y ∈ d ∨ y = x) ∧
    (∀ p q s, [a, b, c] = [p, q, s] → x ≠ s → ∃ r, d = p :: q :: s :: r) := by
  match d with
  | [] => exact ⟨x, x, x, x, rfl, by simp, by simp⟩
  | [a] => exact ⟨a, x, x, x, rfl, by simp, by simp⟩
  | [a, b] => exact ⟨a, b, x, x, rfl, by simp, by simp⟩
  | [a, b, c] => exact ⟨a, b, c, x, rfl, by simp, by simp⟩
  | a :: b :: c :: e :: r => exact ⟨a, b, c, e, rfl, by simp, by simp⟩

/-- The first 16-bit unit of a character that is not NUL. -/
theorem units16_head {c : Nat} (h : Scalar c) (h0 : c ≠ 0) : ∃ u us, units16 c = u :: us ∧ u ≠ 0 ∧ u < 65536 := by
  obtain ⟨h1, h2⟩ := h
  unfold units16
  split
  · exact ⟨c, [], rfl, h0, by omega⟩
  · exact ⟨_, _, rfl, by omega, by omega⟩

end Verif.Text

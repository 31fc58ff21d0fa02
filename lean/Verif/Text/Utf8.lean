/-!
# Strict UTF-8, as in Python's `encode('utf-8')` and `decode('utf-8')`

A character is its code point; a byte string is a list of byte values.  Surrogates cannot be encoded and
encoded surrogates, overlong forms and values past U+10FFFF cannot be decoded (`none`: UnicodeError).
-/
namespace Verif.Text

/-- A Unicode scalar value: what `encode('utf-8')` accepts. -/
def Scalar (c : Nat) : Prop := c < 0x110000 ∧ ¬ (0xD800 ≤ c ∧ c < 0xE000)
instance (c : Nat) : Decidable (Scalar c) := by unfold Scalar; infer_instance

/-- The bytes of one scalar value. -/
def encodeChar (c : Nat) : List Nat :=
  if c < 0x80 then [c]
  else if c < 0x800 then [0xC0 + c / 64, 0x80 + c % 64]
  else if c < 0x10000 then [0xE0 + c / 4096, 0x80 + c / 64 % 64, 0x80 + c % 64]
  else [0xF0 + c / 262144, 0x80 + c / 4096 % 64, 0x80 + c / 64 % 64, 0x80 + c % 64]

/-- `s.encode('utf-8')` -/
def utf8Encode (s : List Nat) : Option (List Nat) :=
  if s.all (fun c => decide (Scalar c)) then some (s.flatMap encodeChar) else none

/-- A continuation byte. -/
def isCont (b : Nat) : Bool := 0x80 ≤ b && b < 0xC0

/-- Decode one character: its code and the rest. -/
def decodeChar : List Nat → Option (Nat × List Nat)
  | [] => none
  | a :: r =>
    if a < 0x80 then some (a, r)
    else if a < 0xC2 then none
    else if a < 0xE0 then
      match r with
      | b :: r => if isCont b then some ((a - 0xC0) * 64 + (b - 0x80), r) else none
      | _ => none
    else if a < 0xF0 then
      match r with
      | b :: c :: r =>
        let v := (a - 0xE0) * 4096 + (b - 0x80) * 64 + (c - 0x80)
        if isCont b && isCont c && decide (0x800 ≤ v) && decide (Scalar v) then some (v, r) else none
      | _ => none
    else if a < 0xF5 then
      match r with
      | b :: c :: d :: r =>
        let v := (a - 0xF0) * 262144 + (b - 0x80) * 4096 + (c - 0x80) * 64 + (d - 0x80)
        if isCont b && isCont c && isCont d && decide (0x10000 ≤ v) && decide (Scalar v) then some (v, r) else none
      | _ => none
    else none

theorem decodeChar_length (b : List Nat) (c : Nat) (r : List Nat) (h : decodeChar b = some (c, r)) : r.length < b.length := by
  unfold decodeChar at h
  split at h
  · cases h
  · split at h
    · cases h; simp
    · split at h
      · cases h
      · split at h
        · split at h
          · split at h
            · simp only [Option.some.injEq, Prod.mk.injEq] at h; obtain ⟨-, rfl⟩ := h; simp; omega
            · cases h
          · cases h
        · split at h
          · split at h
            · dsimp only at h
              split at h
              · simp only [Option.some.injEq, Prod.mk.injEq] at h; obtain ⟨-, rfl⟩ := h; simp; omega
              · cases h
            · cases h
          · split at h
            · split at h
              · dsimp only at h
                split at h
                · simp only [Option.some.injEq, Prod.mk.injEq] at h; obtain ⟨-, rfl⟩ := h; simp; omega
                · cases h
              · cases h
            · cases h

/-- `b.decode('utf-8')` -/
def utf8Decode (b : List Nat) : Option (List Nat) :=
  match b with
  | [] => some []
  | x :: xs =>
    match h : decodeChar (x :: xs) with
    | none => none
    | some (c, r) => do return c :: (← utf8Decode r)
termination_by b.length
decreasing_by exact decodeChar_length _ _ _ h

theorem encodeChar_ne_nil (c : Nat) : encodeChar c ≠ [] := by
  unfold encodeChar
  split
  · simp
  · split
    · simp
    · split <;> simp

theorem decodeChar_encodeChar (c : Nat) (h : Scalar c) (r : List Nat) : decodeChar (encodeChar c ++ r) = some (c, r) := by
  unfold encodeChar
  have hs := h
  unfold Scalar at h
  split
  · rename_i h1; simp [decodeChar, h1]
  · split
    · rename_i h1 h2
      have a1 : ¬ (0xC0 + c / 64 < 0x80) := by omega
      have a2 : ¬ (0xC0 + c / 64 < 0xC2) := by omega
      have a3 : 0xC0 + c / 64 < 0xE0 := by omega
      have b1 : isCont (0x80 + c % 64) = true := by simp [isCont]; omega
      simp only [List.cons_append, List.nil_append, decodeChar, if_neg a1, if_neg a2, if_pos a3, b1, if_true]
      have e1 : 0xC0 + c / 64 - 0xC0 = c / 64 := by omega
      have e2 : 0x80 + c % 64 - 0x80 = c % 64 := by omega
      rw [e1, e2, show c / 64 * 64 + c % 64 = c by omega]
    · split
      · rename_i h1 h2 h3
        have a1 : ¬ (0xE0 + c / 4096 < 0x80) := by omega
        have a2 : ¬ (0xE0 + c / 4096 < 0xC2) := by omega
        have a3 : ¬ (0xE0 + c / 4096 < 0xE0) := by omega
        have a4 : 0xE0 + c / 4096 < 0xF0 := by omega
        have b1 : isCont (0x80 + c % 64) = true := by simp [isCont]; omega
        have b2 : isCont (0x80 + c / 64 % 64) = true := by simp [isCont]; omega
        have e : (0xE0 + c / 4096 - 0xE0) * 4096 + (0x80 + c / 64 % 64 - 0x80) * 64 + (0x80 + c % 64 - 0x80) = c := by omega
        have e3 : decide (0x800 ≤ c) = true := by simp; omega
        simp only [List.cons_append, List.nil_append, decodeChar, if_neg a1, if_neg a2, if_neg a3, if_pos a4, b1, b2, e, e3]
        simp [hs]
      · rename_i h1 h2 h3
        have a1 : ¬ (0xF0 + c / 262144 < 0x80) := by omega
        have a2 : ¬ (0xF0 + c / 262144 < 0xC2) := by omega
        have a3 : ¬ (0xF0 + c / 262144 < 0xE0) := by omega
        have a4 : ¬ (0xF0 + c / 262144 < 0xF0) := by omega
        have a5 : 0xF0 + c / 262144 < 0xF5 := by omega
        have b1 : isCont (0x80 + c % 64) = true := by simp [isCont]; omega
        have b2 : isCont (0x80 + c / 64 % 64) = true := by simp [isCont]; omega
        have b3 : isCont (0x80 + c / 4096 % 64) = true := by simp [isCont]; omega
        have e : (0xF0 + c / 262144 - 0xF0) * 262144 + (0x80 + c / 4096 % 64 - 0x80) * 4096 + (0x80 + c / 64 % 64 - 0x80) * 64 +
          (0x80 + c % 64 - 0x80) = c := by omega
        have e3 : decide (0x10000 ≤ c) = true := by simp; omega
        simp only [List.cons_append, List.nil_append, decodeChar, if_neg a1, if_neg a2, if_neg a3, if_neg a4, if_pos a5, b1, b2, b3, e, e3]
        simp [hs]

/-- The other way: what is decoded encodes to the bytes read. -/
theorem encodeChar_decodeChar (b : List Nat) (c : Nat) (r : List Nat) (h : decodeChar b = some (c, r)) :
    b = encodeChar c ++ r ∧ Scalar c := by
  unfold decodeChar at h
  split at h
  · cases h
  · rename_i a r'
    split at h
    · rename_i h1
      cases h
      exact ⟨by simp [encodeChar, h1], by unfold Scalar; omega⟩
    · split at h
      · cases h
      · split at h
        · split at h
          · split at h
            · rename_i h1 h2 h3 b r1 h4
              simp only [Option.some.injEq, Prod.mk.injEq] at h
              obtain ⟨rfl, rfl⟩ := h
              simp [isCont] at h4
              refine ⟨?_, by unfold Scalar; omega⟩
              unfold encodeChar
              rw [if_neg (by omega), if_pos (by omega)]
              simp only [List.cons_append, List.nil_append, List.cons.injEq, and_true]
              omega
            · cases h
          · cases h
        · split at h
          · split at h
            · dsimp only at h
              split at h
              · rename_i h1 h2 h3 h4 b c r1 h5
                simp only [Option.some.injEq, Prod.mk.injEq] at h
                obtain ⟨rfl, rfl⟩ := h
                simp [isCont] at h5
                obtain ⟨⟨⟨k1, k2⟩, k3⟩, k4⟩ := h5
                refine ⟨?_, k4⟩
                unfold Scalar at k4
                unfold encodeChar
                rw [if_neg (by omega), if_neg (by omega), if_pos (by omega)]
                simp only [List.cons_append, List.nil_append, List.cons.injEq, and_true]
                omega
              · cases h
            · cases h
          · split at h
            · split at h
              · dsimp only at h
                split at h
                · rename_i h1 h2 h3 h4 h5 b c d r1 h6
                  simp only [Option.some.injEq, Prod.mk.injEq] at h
                  obtain ⟨rfl, rfl⟩ := h
                  simp [isCont] at h6
                  obtain ⟨⟨⟨⟨k1, k2⟩, k3⟩, k4⟩, k5⟩ := h6
                  refine ⟨?_, k5⟩
                  unfold Scalar at k5
                  unfold encodeChar
                  rw [if_neg (by omega), if_neg (by omega), if_neg (by omega)]
                  simp only [List.cons_append, List.nil_append, List.cons.injEq, and_true]
                  omega
                · cases h
              · cases h
            · cases h

/-- Decoding undoes encoding. -/
theorem utf8Decode_flatMap (s : List Nat) (h : ∀ c ∈ s, Scalar c) : utf8Decode (s.flatMap encodeChar) = some s := by
  induction s with
  | nil => simp [utf8Decode]
  | cons c s ih =>
    have hd := decodeChar_encodeChar c (h c (by simp)) (s.flatMap encodeChar)
    have ih := ih (fun x hx => h x (by simp [hx]))
    rw [List.flatMap_cons]
    cases hb : encodeChar c ++ s.flatMap encodeChar with
    | nil => simp at hb; exact absurd hb.1 (encodeChar_ne_nil c)
    | cons x xs =>
      rw [hb] at hd
      rw [utf8Decode]
      split
      · rename_i h2; rw [hd] at h2; cases h2
      · rename_i c' r' h2
        rw [hd] at h2; cases h2
        rw [ih]; rfl

theorem utf8_round_trip (s b : List Nat) (h : utf8Encode s = some b) : utf8Decode b = some s := by
  unfold utf8Encode at h
  split at h
  · rename_i hs
    cases h
    exact utf8Decode_flatMap s (fun c hc => by simpa using List.all_eq_true.1 hs c hc)
  · cases h

/-- Encoding undoes decoding. -/
theorem utf8Encode_decode (b s : List Nat) (h : utf8Decode b = some s) : utf8Encode s = some b := by
  have key : ∀ n (b s : List Nat), b.length ≤ n → utf8Decode b = some s → s.flatMap encodeChar = b ∧ ∀ c ∈ s, Scalar c := by
    intro n
    induction n with
    | zero =>
      intro b s hn h
      have : b = [] := List.length_eq_zero_iff.1 (by omega)
      subst this
      rw [utf8Decode] at h; cases h; simp
    | succ n ih =>
      intro b s hn h
      cases b with
      | nil => rw [utf8Decode] at h; cases h; simp
      | cons x xs =>
        rw [utf8Decode] at h
        split at h
        · cases h
        · rename_i c r hd
          have hl := decodeChar_length _ _ _ hd
          obtain ⟨e1, e2⟩ := encodeChar_decodeChar _ _ _ hd
          cases hr : utf8Decode r with
          | none => rw [hr] at h; cases h
          | some t =>
            rw [hr] at h
            cases h
            obtain ⟨k1, k2⟩ := ih r t (by simp only [List.length_cons] at hl hn ⊢; omega) hr
            refine ⟨by rw [List.flatMap_cons, k1, ← e1], ?_⟩
            intro y hy
            rcases List.mem_cons.1 hy with rfl | hy
            · exact e2
            · exact k2 y hy
  obtain ⟨h1, h2⟩ := key b.length b s (Nat.le_refl _) h
  unfold utf8Encode
  rw [if_pos (by rw [List.all_eq_true]; intro c hc; simpa using h2 c hc), h1]

theorem encodeChar_bytes (c : Nat) (h : Scalar c) : ∀ b ∈ encodeChar c, b < 256 := by
  unfold Scalar at h
  unfold encodeChar
  intro b hb
  split at hb
  · simp at hb; omega
  · split at hb
    · simp at hb; omega
    · split at hb
      · simp at hb; omega
      · simp at hb; omega

theorem encodeChar_zero (c : Nat) (h : 0 ∈ encodeChar c) : c = 0 := by
  unfold encodeChar at h
  split at h
  · simp at h; omega
  · split at h
    · simp at h; omega
    · split at h
      · simp at h; omega
      · simp at h; omega

/-- "é€😀" -/
example : utf8Decode [0xC3, 0xA9, 0xE2, 0x82, 0xAC, 0xF0, 0x9F, 0x98, 0x80] = some [0xE9, 0x20AC, 0x1F600] := by decide +kernel
/-- An overlong form and a surrogate are refused. -/
example : utf8Decode [0xC0, 0x80] = none ∧ utf8Decode [0xED, 0xA0, 0x80] = none := by decide +kernel

end Verif.Text

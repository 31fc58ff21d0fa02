import Verif.Http.Ranges
/-!
# Properties of `ContentRange`, `Allow` and `AcceptRanges` (C153, C154)
-/
namespace Verif.Http
open Text (isDigit decVal decStr decVal_decStr decStr_isDigit decStr_ne_nil)

theorem isDigits_spec {t : Bytes} (h : isDigits t = true) : t ≠ [] ∧ ∀ b ∈ t, isDigit b = true := by
  simp only [isDigits, Bool.and_eq_true, List.all_eq_true, Bool.not_eq_true', List.isEmpty_eq_false_iff] at h
  exact h

theorem lowerChar_tok {a b : Nat} (ha : a < 128) (h : lowerChar a = b) (hb : TokByte b) : TokByte a := by
  unfold lowerChar at h
  split at h
  · have h65 : 65 ≤ a ∧ a ≤ 90 := by omega
    have : ∀ x ∈ List.range 91, 65 ≤ x → TokByte x := by decide
    exact this a (List.mem_range.mpr (by omega)) h65.1
  · subst h; exact hb

theorem unit_tok {u : Bytes} (ha : ∀ b ∈ u, b < 128) (h : lowerText u = [98, 121, 116, 101, 115]) :
    u ≠ [] ∧ ∀ b ∈ u, TokByte b := by
  constructor
  · intro e; subst e; cases h
  · intro b hb
    have hm : lowerChar b ∈ ([98, 121, 116, 101, 115] : Bytes) := by
      rw [← h]; exact List.mem_map.mpr ⟨b, hb, rfl⟩
    have : ∀ x ∈ ([98, 121, 116, 101, 115] : Bytes), TokByte x := by decide
    exact lowerChar_tok (ha b hb) rfl (this _ hm)

theorem tok45 : TokByte 45 := by decide

theorem words_range {u spec t : Bytes} (hu : u ≠ [] ∧ ∀ b ∈ u, TokByte b) (hs : spec ≠ [] ∧ ∀ b ∈ spec, TokByte b)
    (ht : t ≠ [] ∧ ∀ b ∈ t, TokByte b) :
    words true (u ++ 32 :: (spec ++ 47 :: t)) = some [.text u, .text spec, .sep 47, .text t] := by
  rw [words_token true u _ hu.1 hu.2 (tokEnd_cons (by decide))]
  obtain ⟨b, r, hb⟩ := List.exists_cons_of_ne_nil hs.1
  have e : words true (32 :: (spec ++ 47 :: t)) = words true (spec ++ 47 :: t) := by
    rw [hb, List.cons_append, words_sp true b _ (tokByte_lws (hs.2 b (by rw [hb]; simp)))]
    rfl
  have e2 : words true t = some [.text t] := by
    have := words_token true t [] ht.1 ht.2 tokEnd_nil
    rwa [List.append_nil, words_nil] at this
  rw [e, words_token true spec _ hs.1 hs.2 (tokEnd_cons tok47),
    words_sep true 47 _ (by decide) (by decide) (by decide) (by decide) (by decide), e2]
  rfl

theorem range_words {u spec t : Bytes} {s : Bytes} {a b n : Option Int} (hu : u ≠ [] ∧ ∀ b ∈ u, TokByte b) (hs : spec ≠ [] ∧ ∀ b ∈ spec, TokByte b)
    (ht : t ≠ [] ∧ ∀ b ∈ t, TokByte b) (hw : words true s = some [.text u, .text spec, .sep 47, .text t]) (hua : ∀ b ∈ u, b < 128)
    (hl : lowerText u = [98, 121, 116, 101, 115]) (h1 : rangeSpec spec = .ok (a, b)) (h2 : rangeTotal t = .ok n)
    (h3 : ¬ (a.isSome && b.isNone) = true) : ContentRange.fromStr s = .ok ⟨a, b, n⟩ := by
  unfold ContentRange.fromStr requireContentRange
  simp only [openWords_ok hw, bind, Except.bind, parseSp_text, requireToken_tok hu.1 hu.2, ascii_ok hua, hl, requireToken_tok hs.1 hs.2,
    h1, parseSp_sep (show 47 ≠ 32 by decide), requireSep_eq, requireToken_tok ht.1 ht.2, h2, ContentRange.make, if_neg h3]
  rfl

theorem digits_tok {t : Bytes} (h0 : t ≠ []) (h : ∀ b ∈ t, isDigit b = true) : t ≠ [] ∧ ∀ b ∈ t, TokByte b :=
  ⟨h0, fun b hb => (digit_tok (h b hb)).1⟩

theorem digit_ne45 {b : Nat} (h : isDigit b = true) : b ≠ 45 ∧ b ≠ 42 := by
  simp only [isDigit, Bool.and_eq_true, decide_eq_true_eq] at h
  omega

theorem rangeTotal_digits {t : Bytes} (h0 : t ≠ []) (h : ∀ b ∈ t, isDigit b = true) : rangeTotal t = .ok (some (decVal t)) := by
  have h42 : t ≠ [42] := by
    intro e
    exact (digit_ne45 (h 42 (by rw [e]; simp))).2 rfl
  have hd : isDigits t = true := by
    simp only [isDigits, Bool.and_eq_true, List.all_eq_true, Bool.not_eq_true', List.isEmpty_eq_false_iff]
    exact ⟨h0, h⟩
  simp [rangeTotal, h42, hd]

theorem rangeSpec_digits {a b : Bytes} (ha0 : a ≠ []) (ha : ∀ x ∈ a, isDigit x = true) (hb0 : b ≠ []) (hb : ∀ x ∈ b, isDigit x = true) :
    rangeSpec (a ++ 45 :: b) = .ok (some (decVal a), some (decVal b)) := by
  have h42 : a ++ 45 :: b ≠ [42] := by
    intro e
    have : (45 : Nat) ∈ ([42] : Bytes) := by rw [← e]; simp
    simp at this
  have hs : splitByte 45 (a ++ 45 :: b) = [a, b] := by
    rw [splitByte_append, splitByte_none]
    · intro hm; exact (digit_ne45 (hb _ hm)).1 rfl
    · intro hm; exact (digit_ne45 (ha _ hm)).1 rfl
  have hd : ∀ {t : Bytes}, t ≠ [] → (∀ b ∈ t, isDigit b = true) → isDigits t = true := by
    intro t h0 h
    simp only [isDigits, Bool.and_eq_true, List.all_eq_true, Bool.not_eq_true', List.isEmpty_eq_false_iff]
    exact ⟨h0, h⟩
  simp [rangeSpec, h42, hs, hd ha0 ha, hd hb0 hb]

/-! ### C153: specification -/

/-- The text of a range of bytes: `*`, or two numbers with a hyphen. -/
inductive RangeText : Bytes → Option Int → Option Int → Prop
  | unknown : RangeText [42] none none
  | span {a b : Bytes} (ha0 : a ≠ []) (ha : ∀ x ∈ a, 48 ≤ x ∧ x ≤ 57) (hb0 : b ≠ []) (hb : ∀ x ∈ b, 48 ≤ x ∧ x ≤ 57) :
    RangeText (a ++ 45 :: b) (some (decVal a)) (some (decVal b))

/-- The text of a total length: `*` or a number. -/
inductive TotalText : Bytes → Option Int → Prop
  | unknown : TotalText [42] none
  | known {a : Bytes} (ha0 : a ≠ []) (ha : ∀ x ∈ a, 48 ≤ x ∧ x ≤ 57) : TotalText a (some (decVal a))

theorem isDigit_iff (b : Nat) : isDigit b = true ↔ 48 ≤ b ∧ b ≤ 57 := by
  simp [isDigit]

theorem RangeText.spec {s : Bytes} {a b : Option Int} (h : RangeText s a b) :
    rangeSpec s = .ok (a, b) ∧ (s ≠ [] ∧ ∀ b ∈ s, TokByte b) ∧ ¬ (a.isSome && b.isNone) = true := by
  cases h with
  | unknown => exact ⟨rfl, ⟨by decide, by decide⟩, by decide⟩
  | span ha0 ha hb0 hb =>
    have ha' := fun x hx => (isDigit_iff x).mpr (ha x hx)
    have hb' := fun x hx => (isDigit_iff x).mpr (hb x hx)
    refine ⟨rangeSpec_digits ha0 ha' hb0 hb', ⟨by simp, ?_⟩, by simp⟩
    intro x hx
    simp only [List.mem_append, List.mem_cons] at hx
    rcases hx with hx | rfl | hx
    · exact (digits_tok ha0 ha').2 x hx
    · exact tok45
    · exact (digits_tok hb0 hb').2 x hx

theorem TotalText.spec {s : Bytes} {n : Option Int} (h : TotalText s n) :
    rangeTotal s = .ok n ∧ (s ≠ [] ∧ ∀ b ∈ s, TokByte b) := by
  cases h with
  | unknown => exact ⟨rfl, by decide, by decide⟩
  | known ha0 ha =>
    have ha' := fun x hx => (isDigit_iff x).mpr (ha x hx)
    exact ⟨rangeTotal_digits ha0 ha', digits_tok ha0 ha'⟩

/-- **C153**: every Content-Range value of the grammar - the unit `bytes` in any case, a range or `*`, and a length or
`*` - is read as the numbers it says. -/
theorem C153_reads {u r t : Bytes} {a b n : Option Int} (hu : lowerText u = [98, 121, 116, 101, 115]) (ha : ∀ c ∈ u, c < 128)
    (hr : RangeText r a b) (ht : TotalText t n) : ContentRange.fromStr (u ++ [32] ++ r ++ [47] ++ t) = .ok ⟨a, b, n⟩ := by
  obtain ⟨r1, r2, r3⟩ := hr.spec
  obtain ⟨t1, t2⟩ := ht.spec
  have := words_range (unit_tok ha hu) r2 t2
  refine range_words (unit_tok ha hu) r2 t2 ?_ ha hu r1 t1 r3
  simpa using this

theorem lower_bytes : lowerText [98, 121, 116, 101, 115] = [98, 121, 116, 101, 115] := by decide

theorem decText (n : Nat) : TotalText (decStr n) (some (n : Int)) := by
  have := TotalText.known (a := decStr n) (decStr_ne_nil n) fun x hx => (isDigit_iff x).mp (decStr_isDigit n x hx)
  rwa [decVal_decStr] at this

theorem rangeText (a b : Nat) : RangeText (decStr a ++ 45 :: decStr b) (some (a : Int)) (some (b : Int)) := by
  have := RangeText.span (a := decStr a) (b := decStr b) (decStr_ne_nil a) (fun x hx => (isDigit_iff x).mp (decStr_isDigit a x hx))
    (decStr_ne_nil b) fun x hx => (isDigit_iff x).mp (decStr_isDigit b x hx)
  rwa [decVal_decStr, decVal_decStr] at this

theorem fmtInt_nat (n : Nat) : fmtInt (n : Int) = decStr n := by
  unfold fmtInt
  rw [if_neg (by omega)]
  rfl

/-- A content range as HTTP knows it: a range of two byte positions or none, and a length or none. -/
def HttpRange (c : ContentRange) : Prop :=
  ((c.first = none ∧ c.last = none) ∨ ∃ a b : Nat, c.first = some (a : Int) ∧ c.last = some (b : Int)) ∧
    (c.total = none ∨ ∃ n : Nat, c.total = some (n : Int))

/-- **C153**: a written content range is read back as it was. -/
theorem C153_round_trip {c : ContentRange} (h : HttpRange c) : ∃ s, c.str = .ok s ∧ ContentRange.fromStr s = .ok c := by
  obtain ⟨f, l, t⟩ := c
  obtain ⟨h1, h2⟩ := h
  dsimp only at h1 h2
  have key : ∀ {r s : Bytes}, RangeText r f l → TotalText s t →
      ContentRange.fromStr ([98, 121, 116, 101, 115, 32] ++ r ++ [47] ++ s) = .ok ⟨f, l, t⟩ := by
    intro r s hr hs
    have := C153_reads (u := [98, 121, 116, 101, 115]) lower_bytes (by decide) hr hs
    simpa using this
  rcases h1 with ⟨rfl, rfl⟩ | ⟨a, b, rfl, rfl⟩ <;> rcases h2 with rfl | ⟨n, rfl⟩
  · exact ⟨_, rfl, key .unknown .unknown⟩
  · refine ⟨_, rfl, ?_⟩
    simp only [fmtInt_nat]
    exact key .unknown (decText n)
  · refine ⟨_, rfl, ?_⟩
    simp only [fmtInt_nat]
    exact key (rangeText a b) .unknown
  · refine ⟨_, rfl, ?_⟩
    simp only [fmtInt_nat]
    exact key (rangeText a b) (decText n)

theorem splitByte_two {c : Nat} : ∀ {s a b : Bytes}, splitByte c s = [a, b] → s = a ++ c :: b := by
  intro s
  have ne : ∀ t : Bytes, splitByte c t ≠ [] := by
    intro t
    cases t with
    | nil => simp [splitByte]
    | cons x t =>
      rw [splitByte]
      split
      · simp
      · split <;> simp
  have one : ∀ (t a : Bytes), splitByte c t = [a] → t = a := by
    intro t
    induction t with
    | nil => intro a h; simp [splitByte] at h; exact h.symm
    | cons x t ih =>
      intro a h
      rw [splitByte] at h
      split at h
      · simp only [List.cons.injEq] at h
        exact absurd h.2 (ne t)
      · split at h
        · next hn => exact absurd hn (ne t)
        · next hd tl hs =>
          simp only [List.cons.injEq] at h
          obtain ⟨rfl, rfl⟩ := h
          rw [ih hd hs]
  induction s with
  | nil => intro a b h; simp [splitByte] at h
  | cons x s ih =>
    intro a b h
    rw [splitByte] at h
    split at h
    · next hx =>
      simp only [List.cons.injEq] at h
      obtain ⟨rfl, h2⟩ := h
      rw [hx, one s b h2]
      rfl
    · split at h
      · cases h
      · next hd tl hs =>
        simp only [List.cons.injEq] at h
        obtain ⟨rfl, rfl⟩ := h
        rw [ih hs]
        rfl

theorem rangeSpec_sound {s : Bytes} {a b : Option Int} (h : rangeSpec s = .ok (a, b)) : RangeText s a b := by
  unfold rangeSpec at h
  split at h
  · next e => subst e; cases h; exact .unknown
  · split at h
    · next x y hs =>
      split at h
      · next hd =>
        rw [Bool.and_eq_true] at hd
        obtain ⟨a0, a1⟩ := isDigits_spec hd.1
        obtain ⟨b0, b1⟩ := isDigits_spec hd.2
        cases h
        rw [splitByte_two hs]
        exact .span a0 (fun x hx => (isDigit_iff x).mp (a1 x hx)) b0 fun x hx => (isDigit_iff x).mp (b1 x hx)
      · cases h
    · cases h

theorem rangeTotal_sound {s : Bytes} {n : Option Int} (h : rangeTotal s = .ok n) : TotalText s n := by
  unfold rangeTotal at h
  split at h
  · next e => subst e; cases h; exact .unknown
  · split at h
    · next hd =>
      obtain ⟨a0, a1⟩ := isDigits_spec hd
      cases h
      exact .known a0 fun x hx => (isDigit_iff x).mp (a1 x hx)
    · cases h

/-- The words without the spaces between them. -/
def noSp (ws : List Word) : List Word := ws.filter fun w => decide (w ≠ .sep 32)

theorem noSp_parseSp (ws : List Word) : noSp (parseSp ws) = noSp ws := by
  unfold parseSp
  cases ws with
  | nil => rfl
  | cons w r =>
    cases w with
    | text t => rfl
    | sep b =>
      simp only [parseSep]
      split
      · next h => subst h; simp [noSp]
      · rfl

theorem requireToken_inv {ws r : List Word} {t : Bytes} (h : requireToken ws = .ok (t, r)) : ws = .text t :: r := by
  unfold requireToken at h
  split at h
  · next t' r' hw =>
    cases h
    cases ws with
    | nil => simp [wpToken] at hw
    | cons w ws =>
      cases w with
      | sep b => simp [wpToken] at hw
      | text x =>
        cases x with
        | nil => simp [wpToken] at hw
        | cons b x =>
          simp only [wpToken] at hw
          split at hw
          · cases hw; rfl
          · cases hw
  · cases h

theorem requireSep_inv {c : Nat} {ws r : List Word} (h : requireSep c ws = .ok r) : ws = .sep c :: r := by
  unfold requireSep at h
  split at h
  · next r' hw =>
    cases h
    cases ws with
    | nil => simp [parseSep] at hw
    | cons w ws =>
      cases w with
      | text x => simp [parseSep] at hw
      | sep b =>
        simp only [parseSep] at hw
        split at hw
        · next hb => subst hb; cases hw; rfl
        · cases hw
  · cases h

theorem requireEnd_inv {ws : List Word} (h : requireEnd ws = .ok ()) : ws = [] := by
  cases ws with
  | nil => rfl
  | cons w ws => cases h

theorem ascii_inv {s t : Bytes} (h : ascii s = .ok t) : t = s ∧ ∀ b ∈ s, b < 128 := by
  unfold ascii at h
  split at h
  · next hs =>
    cases h
    exact ⟨rfl, by simpa using hs⟩
  · cases h

theorem parseSp_ne {w : Word} {ws r : List Word} (h : parseSp ws = w :: r) (hw : w ≠ .sep 32) : noSp ws = w :: noSp r := by
  rw [← noSp_parseSp, h]
  simp [noSp, hw]

/-- **C153**: nothing else is read: apart from spaces the value consists of the unit, a range, a `/` and a length, and
the numbers of the result are the ones written. -/
theorem C153_only {s : Bytes} {c : ContentRange} (h : ContentRange.fromStr s = .ok c) :
    ∃ ws u r t, words true s = some ws ∧ noSp ws = [.text u, .text r, .sep 47, .text t] ∧
      lowerText u = [98, 121, 116, 101, 115] ∧ RangeText r c.first c.last ∧ TotalText t c.total := by
  unfold ContentRange.fromStr requireContentRange at h
  cases hw : openWords true s with
  | error e => rw [hw] at h; cases h
  | ok ws =>
    have hws : words true s = some ws := by
      unfold openWords at hw
      split at hw
      · next h' => cases hw; exact h'
      · cases hw
    simp only [hw, bind, Except.bind] at h
    cases h1 : requireToken (parseSp (parseSp ws)) with
    | error e => simp [h1] at h
    | ok p1 =>
      obtain ⟨u, w1⟩ := p1
      simp only [h1] at h
      cases ha : ascii u with
      | error e => simp [ha] at h
      | ok u' =>
        obtain ⟨rfl, ha'⟩ := ascii_inv ha
        simp only [ha] at h
        by_cases hl : lowerText u' = [98, 121, 116, 101, 115]
        · simp only [hl, ne_eq, not_true_eq_false, if_false] at h
          cases h2 : requireToken (parseSp w1) with
          | error e => simp [h2, pure, Except.pure] at h
          | ok p2 =>
            obtain ⟨r, w2⟩ := p2
            simp only [h2, pure, Except.pure] at h
            cases h3 : rangeSpec r with
            | error e => simp [h3] at h
            | ok p3 =>
              obtain ⟨a, b⟩ := p3
              simp only [h3] at h
              cases h4 : requireSep 47 (parseSp w2) with
              | error e => simp [h4] at h
              | ok w3 =>
                simp only [h4] at h
                cases h5 : requireToken (parseSp w3) with
                | error e => simp [h5] at h
                | ok p5 =>
                  obtain ⟨t, w4⟩ := p5
                  simp only [h5] at h
                  cases h6 : rangeTotal t with
                  | error e => simp [h6] at h
                  | ok n =>
                    simp only [h6, ContentRange.make] at h
                    split at h
                    · cases h
                    · next c' hc =>
                      split at hc
                      · cases hc
                      cases hc
                      dsimp only at h
                      split at h
                      · cases h
                      · next hend =>
                        cases h
                        rename_i heq
                        split at heq
                        · cases heq
                        cases heq
                        refine ⟨ws, u', r, t, hws, ?_, hl, rangeSpec_sound h3, rangeTotal_sound h6⟩
                        have e1 := parseSp_ne (requireToken_inv h1) (by simp)
                        rw [noSp_parseSp] at e1
                        rw [e1, parseSp_ne (requireToken_inv h2) (by simp), parseSp_ne (requireSep_inv h4) (by decide),
                          parseSp_ne (requireToken_inv h5) (by simp), ← noSp_parseSp, requireEnd_inv hend]
                        rfl
        · simp [hl, throw, throwThe, MonadExceptOf.throw] at h

theorem RangeText.nat {s : Bytes} {a b : Option Int} (h : RangeText s a b) :
    (a = none ∧ b = none) ∨ ∃ x y : Nat, a = some (x : Int) ∧ b = some (y : Int) := by
  cases h with
  | unknown => exact .inl ⟨rfl, rfl⟩
  | span => exact .inr ⟨_, _, rfl, rfl⟩

theorem TotalText.nat {s : Bytes} {a : Option Int} (h : TotalText s a) : a = none ∨ ∃ x : Nat, a = some (x : Int) := by
  cases h with
  | unknown => exact .inl rfl
  | known => exact .inr ⟨_, rfl⟩

/-- **C153**: whatever was read is a content range of HTTP and can be written and read again without change. -/
theorem C153_stable {s : Bytes} {c : ContentRange} (h : ContentRange.fromStr s = .ok c) :
    HttpRange c ∧ ∃ s', c.str = .ok s' ∧ ContentRange.fromStr s' = .ok c := by
  obtain ⟨_, _, _, _, _, _, _, hr, ht⟩ := C153_only h
  have hh : HttpRange c := ⟨hr.nat, ht.nat⟩
  exact ⟨hh, C153_round_trip hh⟩

/-- The positions `first..last` lie in an instance of the given length (any length, if it is unknown). -/
def Inside (c : ContentRange) : Prop :=
  ∃ a b : Int, c.first = some a ∧ c.last = some b ∧ 0 ≤ a ∧ a ≤ b ∧ ∀ n, c.total = some n → b < n

/-- **C153** (validity): for every content range that can be constructed `is_valid` tells exactly whether it names
positions inside the instance, and `len` counts the positions `first..last`, with a ValueError if there is none. -/
theorem C153_valid {f l t : Option Int} {c : ContentRange} (h : ContentRange.make f l t = .ok c) :
    (∃ v, c.isValid = .ok v ∧ (v = true ↔ Inside c)) ∧
      (Inside c → ∃ a b, c.first = some a ∧ c.last = some b ∧ c.len = .ok (b - a + 1) ∧ 0 < b - a + 1) ∧
      (∀ n, c.len = .ok n → 0 < n ∧ ∃ a b, c.first = some a ∧ c.last = some b ∧ b = a + n - 1) ∧
      ((c.first = none ∨ ∃ a b, c.first = some a ∧ c.last = some b ∧ b < a) → c.len = .error .value) := by
  unfold ContentRange.make at h
  split at h
  · cases h
  · next hf =>
    cases h
    cases f with
    | none =>
      refine ⟨⟨false, rfl, ?_⟩, ?_, ?_, fun _ => rfl⟩
      · constructor
        · intro h; cases h
        · rintro ⟨a, b, h, _⟩; cases h
      · rintro ⟨a, b, h, _⟩; cases h
      · intro n h; cases h
    | some a =>
      cases l with
      | none => exact absurd rfl hf
      | some b =>
        refine ⟨⟨_, rfl, ?_⟩, ?_, ?_, ?_⟩
        · simp only [Bool.and_eq_true, decide_eq_true_eq]
          constructor
          · rintro ⟨⟨h1, h2⟩, h3⟩
            refine ⟨a, b, rfl, rfl, h2, h1, ?_⟩
            intro n hn
            dsimp only at hn
            subst hn
            simpa using h3
          · rintro ⟨a', b', ha, hb, h1, h2, h3⟩
            cases ha; cases hb
            refine ⟨⟨h2, h1⟩, ?_⟩
            cases t with
            | none => rfl
            | some n => simpa using h3 n rfl
        · rintro ⟨a', b', ha, hb, h1, h2, h3⟩
          cases ha; cases hb
          refine ⟨a, b, rfl, rfl, ?_, by omega⟩
          simp only [ContentRange.len]
          rw [if_pos (by omega)]
        · intro n hn
          simp only [ContentRange.len] at hn
          split at hn
          · cases hn
            exact ⟨by omega, a, b, rfl, rfl, by omega⟩
          · cases hn
        · rintro (h | ⟨a', b', ha, hb, h1⟩)
          · cases h
          · cases ha; cases hb
            simp only [ContentRange.len]
            rw [if_neg (by omega)]

/-- A header can be read although it names no position of the instance: `bytes 5-3/2`. -/
theorem C153_invalid_read : ∃ s c, ContentRange.fromStr s = .ok c ∧ c.isValid = .ok false ∧ c.len = .error .value :=
  ⟨[98, 121, 116, 101, 115, 32, 53, 45, 51, 47, 50], ⟨some 5, some 3, some 2⟩, by decide +kernel, rfl, rfl⟩

/-- Without the hypotheses of `C153_round_trip` the result differs: negative positions are written and rejected, and a
last position without a first one, which the constructor accepts, is lost. -/
theorem C153_round_trip_violation : (∃ c s, ContentRange.make (some (-1)) (some 5) none = .ok c ∧ c.str = .ok s ∧
      ContentRange.fromStr s = .error .badSyntax) ∧
    ∃ c s, ContentRange.make none (some 5) none = .ok c ∧ c.str = .ok s ∧ ContentRange.fromStr s = .ok ⟨none, none, none⟩ := by
  refine ⟨⟨⟨some (-1), some 5, none⟩, [98, 121, 116, 101, 115, 32, 45, 49, 45, 53, 47, 42], rfl, ?_, by decide +kernel⟩,
    ⟨⟨none, some 5, none⟩, [98, 121, 116, 101, 115, 32, 42, 47, 42], rfl, rfl, by decide +kernel⟩⟩
  have h1 : decStr 1 = [49] := by rw [decStr]; simp
  have h5 : decStr 5 = [53] := by rw [decStr]; simp
  show ContentRange.str _ = _
  simp only [ContentRange.str, fmtInt, bind, Except.bind, pure, Except.pure]
  rw [if_pos (by decide), if_neg (by decide)]
  simp [h1, h5]

example : HttpRange ⟨some 0, some 499, some 1234⟩ := ⟨.inr ⟨0, 499, rfl, rfl⟩, .inr ⟨1234, rfl⟩⟩
example : RangeText [48, 48, 45, 53] (some 0) (some 5) :=
  RangeText.span (a := [48, 48]) (b := [53]) (by decide) (by decide) (by decide) (by decide)
example : ContentRange.fromStr [66, 89, 116, 101, 115, 32, 48, 45, 52, 32, 47, 32, 49, 48] = .ok ⟨some 0, some 4, some 10⟩ := by decide +kernel
example : Inside ⟨some 0, some 4, some 5⟩ := ⟨0, 4, rfl, rfl, by decide, by decide, by intro n h; cases h; decide⟩

end Verif.Http

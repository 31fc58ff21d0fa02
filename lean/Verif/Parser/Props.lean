import Verif.Parser.Lemmas
/-! # Property theorems C05, C06 (BasicParser), C35 (error positions) -/
namespace Verif.Parser
open Verif.Text

/-- **C05, parse.**  Success exactly when input is left and it starts with `m`;
then exactly `m` is consumed; otherwise nothing changes. -/
theorem C05_parse (s : P) (m : List Nat) :
    (s.pos < s.src.length ∧ m <+: s.src.drop s.pos →
      (s.parse m).1 = some m ∧ Took s (s.parse m).2 m) ∧
    (¬ (s.pos < s.src.length ∧ m <+: s.src.drop s.pos) → s.parse m = (none, s)) := by
  have key : s.matches m = true ↔ (s.pos < s.src.length ∧ m <+: s.src.drop s.pos) := by
    unfold P.matches
    cases hc : s.char with
    | none => have := char_isSome s; rw [hc] at this; simp at this; simp; omega
    | some c =>
      have := char_isSome s; rw [hc] at this; simp at this
      simp only [beq_iff_eq, slice_eq_iff]
      exact ⟨fun h => ⟨this, h⟩, And.right⟩
  constructor
  · intro h
    have hm := key.2 h
    simp only [P.parse, hm, if_true]
    exact ⟨trivial, took_of_prefix h.2⟩
  · intro h
    have hm : s.matches m = false := by
      cases hmm : s.matches m with
      | false => rfl
      | true => exact absurd (key.1 hmm) h
    simp [P.parse, hm]

/-- **C05, parse_insensitive.**  The text returned is the slice of the source at the
old position, its lower-case form is `m`, and exactly that slice is consumed. -/
theorem C05_parse_insensitive (lower : List Nat → List Nat) (s : P) (m : List Nat) :
    (s.parseInsensitive lower m = (none, s)) ∨
    (∃ t, (s.parseInsensitive lower m).1 = some t ∧ lower t = m ∧
      t = (s.src.drop s.pos).take m.length ∧
      (s.parseInsensitive lower m).2 = s.setpos (s.pos + m.length) ∧
      (s.pos + m.length ≤ s.src.length → Took s (s.parseInsensitive lower m).2 t)) := by
  unfold P.parseInsensitive
  cases hm : s.matchesInsensitive lower m with
  | false => left; simp
  | true =>
    right
    have hsl : slice s.src s.pos (s.pos + m.length) = (s.src.drop s.pos).take m.length := by
      simp [slice]
    refine ⟨(s.src.drop s.pos).take m.length, by simp [hsl], ?_, rfl, by simp, ?_⟩
    · unfold P.matchesInsensitive at hm
      cases hc : s.char with
      | none => rw [hc] at hm; simp at hm
      | some c => rw [hc] at hm; simpa [hsl] using hm
    · intro hle
      simp only [if_true]
      have := took_of_prefix (s := s) (List.take_prefix m.length (s.src.drop s.pos))
      have hl : ((s.src.drop s.pos).take m.length).length = m.length := by simp; omega
      rw [hl] at this; exact this

/-- **C05, parse_one, parse_digit, parse_hex_digit** (`cs` any set of characters). -/
theorem C05_parse_one (s : P) (cs : Nat → Bool) :
    (∀ c, s.src[s.pos]? = some c → cs c = true →
      (s.parseOne cs).1 = some c ∧ Took s (s.parseOne cs).2 [c]) ∧
    ((∀ c, s.src[s.pos]? = some c → cs c = false) → s.parseOne cs = (none, s)) := by
  constructor
  · intro c hc h
    have : s.parseOne cs = (some c, s.next) := by simp [P.parseOne, P.char, hc, h]
    rw [this]
    refine ⟨rfl, rfl, rfl, rfl, ?_⟩
    obtain ⟨hl, he⟩ := List.getElem?_eq_some_iff.1 hc
    rw [List.drop_eq_getElem_cons hl, he]; rfl
  · intro h
    unfold P.parseOne P.char
    cases hc : s.src[s.pos]? with
    | none => rfl
    | some c => simp [h c hc]

/-- **C05, parse_digits and parse_hex_digits.**  Illegal arguments raise and change nothing;
otherwise the longest allowed run `r` is taken if it has at least `min` characters, and
nothing changes if not. -/
theorem C05_parse_digits (cs : Nat → Bool) (s : P) (min : Int) (max : Option Int) :
    let r := run cs (max.map Int.toNat) (s.src.drop s.pos)
    ((min < 0 ∨ ∃ m ∈ max, m < min) → s.parseRun cs min max = (.error .value, s)) ∧
    (¬ (min < 0 ∨ ∃ m ∈ max, m < min) → (r.length : Int) < min → s.parseRun cs min max = (.ok none, s)) ∧
    (¬ (min < 0 ∨ ∃ m ∈ max, m < min) → min ≤ (r.length : Int) →
      (s.parseRun cs min max).1 = .ok (some r) ∧ Took s (s.parseRun cs min max).2 r) := by
  intro r
  rw [parseRun_eq]
  refine ⟨fun h => by rw [if_pos h], fun h1 h2 => ?_, fun h1 h2 => ?_⟩
  · rw [if_neg h1]; dsimp only; rw [if_pos h2]
  · rw [if_neg h1]; dsimp only
    rw [show run cs (max.map Int.toNat) (s.src.drop s.pos) = r from rfl, if_neg (by omega)]
    exact ⟨rfl, took_of_prefix (run_prefix _ _ _)⟩

/-- What "longest run" means: a prefix of allowed characters, within the limit, that
cannot be extended. -/
theorem C05_run_longest (cs : Nat → Bool) (limit : Option Nat) (text : List Nat) :
    run cs limit text <+: text ∧ (∀ c ∈ run cs limit text, cs c = true) ∧
    (∀ n ∈ limit, (run cs limit text).length ≤ n) ∧
    (∀ t, t <+: text → (∀ c ∈ t, cs c = true) → (∀ n ∈ limit, t.length ≤ n) →
      t.length ≤ (run cs limit text).length) := by
  refine ⟨run_prefix _ _ _, run_all _ _ _, ?_, ?_⟩
  · intro n hn; cases hn; exact run_length_le cs n text
  · have gen : ∀ t text : List Nat, t <+: text → (∀ c ∈ t, cs c = true) →
        t.length ≤ (text.takeWhile cs).length := by
      intro t
      induction t with
      | nil => intro _ _ _; simp
      | cons x t ih =>
        rintro text ⟨u, rfl⟩ h
        rw [List.cons_append, List.takeWhile_cons, if_pos (h x (by simp))]
        have := ih (t ++ u) (List.prefix_append _ _) (fun c hc => h c (by simp [hc]))
        simpa using this
    intro t ht hc hl
    cases limit with
    | none => exact gen t text ht hc
    | some n =>
      apply gen t (text.take n) _ hc
      rw [List.prefix_take_iff]
      exact ⟨ht, hl n rfl⟩

/-- **C05, parse_production.**  For an arbitrary method: when it raises, the position
is the one before the call and None is returned; when it returns, its result and state are passed on. -/
theorem C05_parse_production {β : Type} (s : P) (method : P → Out β × P) :
    (∀ e, (method s).1 = .error e →
      (s.parseProduction method).1 = none ∧ (s.parseProduction method).2.pos = s.pos) ∧
    (∀ b, (method s).1 = .ok b → s.parseProduction method = (some b, (method s).2)) := by
  unfold P.parseProduction
  constructor
  · intro e he
    rcases hm : method s with ⟨r, s'⟩
    rw [hm] at he; simp only at he; subst he
    exact ⟨rfl, rfl⟩
  · intro b hb
    rcases hm : method s with ⟨r, s'⟩
    rw [hm] at hb; simp only at hb; subst hb
    rfl

/-- **C05, parse_until.**  The rest of the source is split at the first occurrence of the
string at or after the position, or at the end. -/
theorem C05_parse_until (s : P) (hp : s.pos ≤ s.src.length) (m : List Nat) :
    Took s (s.parseUntil (some m)).2 (s.parseUntil (some m)).1 ∧
    (∀ i, s.pos ≤ i → i < (s.parseUntil (some m)).2.pos → ¬ m <+: s.src.drop i) ∧
    (m <+: s.src.drop (s.parseUntil (some m)).2.pos ∨
      ((s.parseUntil (some m)).2.pos = s.src.length ∧ ¬ m <+: [])) := by
  have hf := findFrom_spec m (s.src.drop s.pos) s.pos
  have hfind : (some m).bind (fun m => find s.src m s.pos) = findFrom (s.src.drop s.pos) m s.pos := by
    simp [find, hp]
  have hd : ∀ i, s.pos ≤ i → (s.src.drop s.pos).drop (i - s.pos) = s.src.drop i := by
    intro i hi; rw [List.drop_drop]; congr 1; omega
  unfold P.parseUntil
  rw [hfind]
  cases hr : findFrom (s.src.drop s.pos) m s.pos with
  | none =>
    rw [hr] at hf
    simp only at hf ⊢
    refine ⟨?_, ?_, ?_⟩
    · have := took_of_prefix (s := s) (List.prefix_refl (s.src.drop s.pos))
      have hl : s.pos + (s.src.drop s.pos).length = s.src.length := by simp; omega
      rw [hl] at this; exact this
    · intro i h1 h2
      rw [← hd i h1]
      simp only [P.setpos] at h2
      exact hf i h1 (by simp; omega)
    · right
      refine ⟨rfl, ?_⟩
      have := hf s.src.length hp (by simp; omega)
      rw [hd _ hp, List.drop_length] at this
      exact this
  | some k =>
    rw [hr] at hf
    simp only at hf ⊢
    obtain ⟨h1, h2, h3, h4⟩ := hf
    have h2' : k ≤ s.src.length := by simp at h2; omega
    refine ⟨?_, ?_, ?_⟩
    · have := took_of_prefix (s := s) (List.take_prefix (k - s.pos) (s.src.drop s.pos))
      have hl : s.pos + ((s.src.drop s.pos).take (k - s.pos)).length = k := by simp; omega
      rw [hl] at this
      exact this
    · intro i hi1 hi2
      rw [← hd i hi1]
      exact h4 i hi1 hi2
    · left
      rw [hd k h1] at h3
      exact h3

/-- **C06, parse_integer is exact.**  With legal arguments it returns `v` exactly when the
longest run of digits at the position (within the field width) is non-empty, has value `v`
and `v` is within bounds; then exactly the run is consumed; otherwise None and nothing changes. -/
theorem C06_parse_integer_exact (s : P) (min max md : Option Int)
    (hmin : 0 ≤ min.getD 0) (hmax : ∀ m ∈ max, min.getD 0 ≤ m) (hmd : ∀ m ∈ md, 1 ≤ m) :
    let r := run isDigit (md.map Int.toNat) (s.src.drop s.pos)
    let good := r ≠ [] ∧ min.getD 0 ≤ (decVal r : Int) ∧ ∀ m ∈ max, (decVal r : Int) ≤ m
    (good → (s.parseInteger min max md).1 = .ok (some (decVal r)) ∧
      Took s (s.parseInteger min max md).2 r) ∧
    (¬ good → s.parseInteger min max md = (.ok none, s)) := by
  intro r good
  rw [parseInteger_eq]
  have e0 : ¬ (min.getD 0 < 0 ∨ (∃ m ∈ max, m < min.getD 0)) := by
    rintro (h | ⟨m, hm, h⟩)
    · omega
    · have := hmax m hm; omega
  have e1 : ¬ (∃ m ∈ md, (1 : Int) > m) := by
    rintro ⟨m, hm, h⟩; have := hmd m hm; omega
  rw [if_neg e0, if_neg e1]
  dsimp only
  rw [show run isDigit (md.map Int.toNat) (s.src.drop s.pos) = r from rfl]
  constructor
  · rintro ⟨h1, h2, h3⟩
    rw [if_neg h1, if_neg]
    · exact ⟨rfl, took_of_prefix (run_prefix _ _ _)⟩
    · rintro (h | ⟨m, hm, h⟩)
      · omega
      · have := h3 m hm; omega
  · intro h
    by_cases h1 : r = []
    · rw [if_pos h1]
    · rw [if_neg h1, if_pos]
      apply Classical.byContradiction
      intro hc
      apply h
      refine ⟨h1, ?_, ?_⟩
      · apply Classical.byContradiction; intro h'; exact hc (Or.inl (by omega))
      · intro m hm; apply Classical.byContradiction; intro h'; exact hc (Or.inr ⟨m, hm, by omega⟩)

/-- C06: bad arguments raise ValueError and leave the parser alone. -/
theorem C06_parse_integer_bad_args (s : P) (min max md : Option Int)
    (h : min.getD 0 < 0 ∨ (∃ m ∈ max, m < min.getD 0) ∨ ∃ m ∈ md, m < 1) :
    s.parseInteger min max md = (.error .value, s) := by
  rw [parseInteger_eq]
  rcases h with h | h | h
  · rw [if_pos (Or.inl h)]
  · rw [if_pos (Or.inr h)]
  · split
    · rfl
    · rfl

/-- **C06, round trip.**  Any natural number printed in decimal (with any number of leading
zeros) is read back, whatever surrounds it, if no digit follows. -/
theorem C06_print_parse (pre post : List Nat) (w n : Nat)
    (hpost : ∀ c, post.head? = some c → isDigit c = false) (last : Option Nat) :
    let s : P := ⟨pre ++ decPad w n ++ post, pre.length, last⟩
    (s.parseInteger none none none).1 = .ok (some n) ∧
      (s.parseInteger none none none).2.pos = pre.length + (decPad w n).length := by
  intro s
  have hr : run isDigit none (s.src.drop s.pos) = decPad w n := by
    have : s.src.drop s.pos = decPad w n ++ post := by simp [s]
    rw [this]
    exact takeWhile_append_stop (decPad_isDigit w n) hpost
  have hne : decPad w n ≠ [] := by
    unfold decPad; intro h; exact decStr_ne_nil n (List.append_eq_nil_iff.1 h).2
  have h := (C06_parse_integer_exact s none none none (by simp) (by simp) (by simp)).1
  simp only [Option.map_none, hr, decVal_decPad] at h
  obtain ⟨h1, h2⟩ := h ⟨hne, by simp, by simp⟩
  exact ⟨h1, h2.pos⟩

/-- Test (non-vacuity): "x042;" at position 1 with bounds 1..100. -/
example : let s : P := ⟨[120, 48, 52, 50, 59], 1, none⟩
    s.parseInteger (some 1) (some 100) (some 3) = (.ok (some 42), ⟨[120, 48, 52, 50, 59], 4, none⟩) ∧
    s.parseInteger (some 1) (some 41) none = (.ok none, s) := ⟨rfl, rfl⟩
example : let s : P := ⟨[97, 98, 97, 98, 99], 0, none⟩
    (s.parseUntil (some [98, 99])) = ([97, 98, 97], ⟨[97, 98, 97, 98, 99], 3, none⟩) := by decide

/-- **C35.** Errors are reported at the furthest point: `parser_error()` without a production raises
at the later of the current position and the last recorded error and moves there; with a production it
raises at the current position; in both cases the recorded error never moves backwards and is the
maximum of the previous record and the raised one. -/
theorem C35_error_position (s : P) (named : Bool) :
    let e := if named then s.pos else max s.pos (s.last.getD 0)
    (s.error named).1 = .parser e ∧ (s.error named).2.pos = e ∧
      (s.error named).2.last = some (max e (s.last.getD 0)) ∧ (s.error named).2.src = s.src := by
  intro e
  rcases s with ⟨src, pos, last⟩
  cases named <;> cases last <;> simp only [e, P.error, Option.getD_some, Option.getD_none,
    Bool.false_eq_true, if_true, if_false, true_and, and_true]
  · simp
  · rename_i l
    by_cases h : pos ≤ l
    · have h1 : max pos l = l := by omega
      simp [h, h1]
    · have h1 : max pos l = pos := by omega
      have h2 : pos > l := by omega
      simp [h, h1, h2]
  · simp
  · rename_i l
    by_cases h : pos > l
    · have h1 : max pos l = pos := by omega
      simp [h, h1]
    · have h1 : max pos l = l := by omega
      simp [h, h1]

example : ({ src := [97, 98], pos := 0, last := some 1 } : P).error false =
    (.parser 1, { src := [97, 98], pos := 1, last := some 1 }) := by decide

end Verif.Parser

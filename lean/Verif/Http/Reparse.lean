import Verif.Http.ParseProps
/-! # C26 from text to text, and C45: the exceptions of the HTTP parsers -/
namespace Verif.Http
open Text (Step run run_eq)

def AllOk (ws : List Word) : Prop := ∀ w ∈ ws, WordOk w

theorem AllOk.tail {w : Word} {ws : List Word} (h : AllOk (w :: ws)) : AllOk ws := fun x hx => h x (by simp [hx])

theorem parseSep_ok {c : Nat} {ws : List Word} (h : AllOk ws) : AllOk (parseSep c ws).2 := by
  unfold parseSep
  split
  · split
    · exact h.tail
    · exact h
  · exact h

theorem parseSp_ok {ws : List Word} (h : AllOk ws) : AllOk (parseSp ws) := parseSep_ok h

theorem optSp_ok {b : Bool} {ws : List Word} (h : AllOk ws) : AllOk (optSp b ws) := by
  unfold optSp; split
  · exact parseSp_ok h
  · exact h

theorem requireSep_ok {c : Nat} {ws ws' : List Word} (h : AllOk ws) (hr : requireSep c ws = .ok ws') : AllOk ws' := by
  unfold requireSep at hr
  have := parseSep_ok (c := c) h
  split at hr
  · next hs => cases hr; rw [hs] at this; exact this
  · cases hr

/-- A token as the parser returns it. -/
def Tok (t : Bytes) : Prop := t ≠ [] ∧ AllBytes t ∧ ∀ b ∈ t, TokByte b

theorem wpToken_ok {ws ws' : List Word} {t : Bytes} (h : AllOk ws) (hr : wpToken ws = (some t, ws')) :
    Tok t ∧ AllOk ws' := by
  unfold wpToken at hr
  split at hr
  · next b t' ws'' =>
    split at hr
    · next hb =>
      simp only [Prod.mk.injEq, Option.some.injEq] at hr
      obtain ⟨rfl, rfl⟩ := hr
      have := h _ (List.mem_cons_self)
      simp only [WordOk, List.head?_cons, Option.some.injEq] at this
      refine ⟨⟨by simp, this.1, ?_⟩, h.tail⟩
      rcases this.2 with h1 | rfl | rfl
      · exact h1.2
      · exact absurd hb (by decide)
      · exact absurd hb (by decide)
    · simp at hr
  · simp at hr

theorem requireToken_ok {ws : List Word} {p : Bytes × List Word} (h : AllOk ws) (hr : requireToken ws = .ok p) :
    Tok p.1 ∧ AllOk p.2 := by
  unfold requireToken at hr
  split at hr
  · next hs => cases hr; exact wpToken_ok h hs
  · cases hr

theorem unescape_bytes : ∀ (q : Bytes) (e : Bool), AllBytes q → AllBytes (unescape e q) := by
  intro q
  induction q with
  | nil => intro e h; cases e <;> exact h
  | cons b r ih =>
    intro e h
    rw [AllBytes.cons] at h
    simp only [unescape]
    split
    · exact ih true h.2
    · exact AllBytes.cons.mpr ⟨h.1, ih false h.2⟩

theorem decode_bytes {q : Bytes} (h : AllBytes q) : AllBytes (decodeQuotedString q) := by
  have h1 : AllBytes q.tail.dropLast := fun b hb =>
    h b (List.mem_of_mem_tail (List.dropLast_subset _ hb))
  unfold decodeQuotedString
  simp only
  split
  · exact unescape_bytes _ _ h1
  · exact h1

theorem wpQuoted_ok {ws ws' : List Word} {t : Bytes} (h : AllOk ws) (hr : wpQuoted ws = (some t, ws')) :
    AllBytes t ∧ AllOk ws' := by
  unfold wpQuoted at hr
  split at hr
  · split at hr
    · simp only [Prod.mk.injEq, Option.some.injEq] at hr
      obtain ⟨rfl, rfl⟩ := hr
      have := h _ (List.mem_cons_self)
      exact ⟨decode_bytes this.1, h.tail⟩
    · simp at hr
  · simp at hr

/-- A parameter as the parser returns it. -/
def Parsed (e : Bytes × Bytes × Bytes) : Prop := Tok e.2.1 ∧ e.1 = lowerText e.2.1 ∧ AllBytes e.2.2

theorem paramStep_ok (ias : Bool) (ws : List Word) (a : Bytes × Bytes × Bytes) (r : List Word) (hws : AllOk ws)
    (h : paramStep ias false none ws = .emit a r) : Parsed a ∧ AllOk r := by
  unfold paramStep at h
  simp only [Bool.false_eq_true, if_false, Option.isSome_none, Bool.false_and] at h
  split at h
  · cases h
  next h1 =>
  have l1 := requireSep_ok (parseSp_ok hws) h1
  split at h
  · cases h
  next ws1 _ name ws2 h2 =>
  obtain ⟨l2, l2'⟩ := requireToken_ok (parseSp_ok l1) h2
  split at h
  · cases h
  next ws3 h3 =>
  have l3 := optSp_ok (b := ias) (requireSep_ok (optSp_ok l2') h3)
  generalize optSp ias ws3 = ws3' at h l3
  split at h
  · split at h
    · next hs =>
      cases h
      obtain ⟨k1, k2⟩ := wpToken_ok l3 hs
      exact ⟨⟨l2, rfl, k1.2.1⟩, k2⟩
    · cases h
  · split at h
    · split at h
      · next hs =>
        cases h
        obtain ⟨k1, k2⟩ := wpQuoted_ok l3 hs
        exact ⟨⟨l2, rfl, k1⟩, k2⟩
      · cases h
    · cases h

theorem paramStep_nolast (ias : Bool) (ws : List Word) (a : Bytes × Bytes × Bytes) (r : List Word) :
    paramStep ias false none ws ≠ .last a r := by
  intro h
  unfold paramStep at h
  simp only [Bool.false_eq_true, if_false, Option.isSome_none, Bool.false_and] at h
  split at h
  · cases h
  split at h
  · cases h
  split at h
  · cases h
  next ws3 h3 =>
  generalize optSp ias ws3 = ws3' at h
  split at h
  · split at h <;> cases h
  · split at h
    · split at h <;> cases h
    · cases h

theorem dictSet_inv (P : Bytes × Bytes × Bytes → Prop) (d : Params) (e : Bytes × Bytes × Bytes) (hd : (d.map (·.1)).Nodup)
    (hp : ∀ x ∈ d, P x) (he : P e) : ((dictSet d e.1 e.2).map (·.1)).Nodup ∧ ∀ x ∈ dictSet d e.1 e.2, P x := by
  unfold dictSet
  split
  · constructor
    · rw [List.map_map]
      have : ((fun x : Bytes × Bytes × Bytes => x.1) ∘ fun x => if (x.1 == e.1) = true then (e.1, e.2) else x) = (·.1) := by
        funext x
        simp only [Function.comp]
        split
        · next h => exact (beq_iff_eq.mp h).symm
        · rfl
      rw [this]; exact hd
    · intro x hx
      obtain ⟨y, hy, rfl⟩ := List.mem_map.mp hx
      split
      · exact he
      · exact hp y hy
  · next hn =>
    constructor
    · rw [List.map_append, List.nodup_append]
      refine ⟨hd, by simp, ?_⟩
      intro a ha b hb
      simp only [List.map_cons, List.map_nil, List.mem_singleton] at hb
      subst hb
      intro hab
      subst hab
      obtain ⟨y, hy, hye⟩ := List.mem_map.mp ha
      apply hn
      rw [List.any_eq_true]
      exact ⟨y, hy, by simp [hye]⟩
    · intro x hx
      rw [List.mem_append, List.mem_singleton] at hx
      rcases hx with hx | rfl
      · exact hp x hx
      · exact he

theorem dictFold_inv (P : Bytes × Bytes × Bytes → Prop) (l : Params) : ∀ d : Params, (d.map (·.1)).Nodup →
    (∀ x ∈ d, P x) → (∀ x ∈ l, P x) →
    ((l.foldl (fun d e => dictSet d e.1 e.2) d).map (·.1)).Nodup ∧ ∀ x ∈ l.foldl (fun d e => dictSet d e.1 e.2) d, P x := by
  induction l with
  | nil => intro d h1 h2 _; exact ⟨h1, h2⟩
  | cons e l ih =>
    intro d h1 h2 h3
    obtain ⟨k1, k2⟩ := dictSet_inv P d e h1 h2 (h3 e (by simp))
    exact ih _ k1 k2 fun x hx => h3 x (by simp [hx])

theorem parseParameters_ok (ias : Bool) (ws : List Word) (h : AllOk ws) (d : Params) (ws' : List Word)
    (hp : parseParameters [] ias false none ws = (d, ws')) :
    (d.map (·.1)).Nodup ∧ (∀ e ∈ d, Parsed e) ∧ AllOk ws' := by
  unfold parseParameters at hp
  split at hp
  · next es r hr =>
    simp only [Prod.mk.injEq] at hp
    obtain ⟨rfl, rfl⟩ := hp
    obtain ⟨i1, i2⟩ := run_inv (paramStep_dec ias false none) AllOk Parsed (fun s a r hs h => paramStep_ok ias s a r hs h)
      (fun s a r _ h => absurd h (paramStep_nolast ias s a r)) _ _ (Nat.le_refl _) (parseSp_ok h) es r hr
    obtain ⟨k1, k2⟩ := dictFold_inv Parsed es [] (by simp) (by simp) i1
    exact ⟨k1, k2, i2⟩
  · simp only [Prod.mk.injEq] at hp
    obtain ⟨rfl, rfl⟩ := hp
    exact ⟨by simp, by simp, h⟩

/-- The parameters that `to_bytes` can write and `from_str` can read: ASCII names and non-empty values. -/
def Writable (d : Params) : Prop := ∀ e ∈ d, (∀ b ∈ e.2.1, b < 128) ∧ e.2.2 ≠ []

theorem valid_of_parsed {d : Params} (h1 : (d.map (·.1)).Nodup) (h2 : ∀ e ∈ d, Parsed e) (h3 : Writable d) : ValidParams d :=
  ⟨h1, fun e he => ⟨⟨(h2 e he).1.1, fun b hb => ⟨(h2 e he).1.2.2 b hb, (h3 e he).1 b hb⟩⟩, (h2 e he).2.1, (h3 e he).2,
    (h2 e he).2.2⟩⟩

theorem openWords_allOk {ig : Bool} {s : Bytes} {ws : List Word} (hs : AllBytes s) (h : openWords ig s = .ok ws) : AllOk ws := by
  unfold openWords at h
  split at h
  · next hw => cases h; exact words_ok ig s hs _ hw
  · cases h

theorem ascii_eq {s t : Bytes} (h : ascii s = .ok t) : t = s ∧ ∀ b ∈ s, b < 128 := by
  unfold ascii at h
  split at h
  · next hh => cases h; exact ⟨rfl, by simpa using hh⟩
  · cases h

/-- Splitting a successful bind. -/
theorem bind_ok {α β : Type} {x : Except Err α} {f : α → Except Err β} {b : β} (h : (x >>= f) = .ok b) :
    ∃ a, x = .ok a ∧ f a = .ok b := by
  cases x with
  | error e => cases h
  | ok a => exact ⟨a, rfl, h⟩

theorem tok_lower {t : Bytes} (h : Tok t) : Tok (lowerBytes t) := by
  refine ⟨by simpa [lowerBytes] using h.1, ?_, ?_⟩
  · intro b hb
    obtain ⟨c, hc, rfl⟩ := List.mem_map.mp hb
    have := h.2.1 c hc
    unfold lowerByte
    split <;> omega
  · intro b hb
    obtain ⟨c, hc, rfl⟩ := List.mem_map.mp hb
    unfold lowerByte
    split
    · next hr =>
      refine ⟨by simp only [isCtl, Bool.or_eq_false_iff, decide_eq_false_iff_not, beq_eq_false_iff_ne]; omega, ?_⟩
      simp only [isSeparator, separators, List.contains_cons, List.contains_nil, Bool.or_false, Bool.or_eq_false_iff,
        beq_eq_false_iff_ne]
      omega
    · exact h.2.2 c hc

/-- **C26** (from text): whatever text a media type was read from, it can be written again and reading that gives
an equal media type, unless a parameter has an empty value or a name with a byte above 127. -/
theorem C26_media_type_reparse (s : Bytes) (hs : AllBytes s) (m : MediaType) (h : MediaType.fromStr s = .ok m)
    (hw : Writable m.params) : ∃ s' m', m.toBytes = .ok s' ∧ MediaType.fromStr s' = .ok m' ∧ m'.sortkey = m.sortkey := by
  unfold MediaType.fromStr at h
  obtain ⟨ws, h1, h⟩ := bind_ok h
  obtain ⟨⟨m', ws1⟩, h2, h⟩ := bind_ok h
  obtain ⟨_, _, h⟩ := bind_ok h
  cases h
  have ok0 := openWords_allOk hs h1
  unfold requireMediaType at h2
  obtain ⟨⟨t, ws2⟩, h3, h2⟩ := bind_ok h2
  obtain ⟨ok1, ok2⟩ := requireToken_ok (parseSp_ok ok0) h3
  obtain ⟨t', h4, h2⟩ := bind_ok h2
  obtain ⟨rfl, as1⟩ := ascii_eq h4
  obtain ⟨ws3, h5, h2⟩ := bind_ok h2
  have ok3 := requireSep_ok ok2 h5
  obtain ⟨⟨st, ws4⟩, h6, h2⟩ := bind_ok h2
  obtain ⟨ok4, ok5⟩ := requireToken_ok ok3 h6
  obtain ⟨st', h7, h2⟩ := bind_ok h2
  obtain ⟨rfl, as2⟩ := ascii_eq h7
  cases hp : parseParameters [] false false none (parseSp ws4) with
  | mk d ws5 =>
    simp only [hp] at h2
    cases h2
    obtain ⟨k1, k2, _⟩ := parseParameters_ok false _ (parseSp_ok ok5) d _ hp
    have v := valid_of_parsed k1 k2 hw
    have at1 : AsciiToken (lowerBytes t) := ⟨(tok_lower ok1).1, fun b hb => ⟨(tok_lower ok1).2.2 b hb, as1 b hb⟩⟩
    have at2 : AsciiToken (lowerBytes st) := ⟨(tok_lower ok4).1, fun b hb => ⟨(tok_lower ok4).2.2 b hb, as2 b hb⟩⟩
    obtain ⟨s', m', g1, g2, g3, _⟩ := C26_media_type ⟨lowerBytes t, lowerBytes st, d⟩ at1 at2 v
    exact ⟨s', m', g1, g2, g3⟩

/-- `text/html ; Charset="utf-8" ;q=1` is accepted. -/
example : MediaType.fromStr [116, 47, 104, 32, 59, 32, 67, 61, 34, 117, 34, 32, 59, 113, 61, 49] =
    .ok ⟨[116], [104], [([99], [67], [117]), ([113], [113], [49])]⟩ := by decide +kernel

/-- **C26** (from text): the same for chunk headers. -/
theorem C26_chunk_reparse (s : Bytes) (hs : AllBytes s) (c : Chunk) (h : Chunk.fromStr s = .ok c)
    (hw : Writable c.extensions) : ∃ s' c', c.toBytes = .ok s' ∧ Chunk.fromStr s' = .ok c' ∧ c'.sortkey = c.sortkey := by
  unfold Chunk.fromStr at h
  obtain ⟨ws, h1, h⟩ := bind_ok h
  obtain ⟨⟨c', ws1⟩, h2, h⟩ := bind_ok h
  obtain ⟨_, _, h⟩ := bind_ok h
  cases h
  have ok0 := openWords_allOk hs h1
  unfold requireChunk at h2
  obtain ⟨⟨n, ws2⟩, h3, h2⟩ := bind_ok h2
  have ok2 : AllOk ws2 := by
    have h0 := parseSp_ok ok0
    unfold requireHexInteger at h3
    split at h3
    · next hh =>
      cases h3
      unfold wpHexInteger at hh
      split at hh
      · simp at hh
      · cases hh
      · next heq =>
        rw [heq] at h0
        split at hh
        · simp only [Except.ok.injEq, Prod.mk.injEq] at hh
          rw [← hh.2]; exact h0.tail
        · simp at hh
    · cases h3
    · cases h3
  cases hp : parseParameters [] true false none ws2 with
  | mk d ws5 =>
    simp only [hp] at h2
    cases h2
    obtain ⟨k1, k2, _⟩ := parseParameters_ok true _ ok2 d _ hp
    obtain ⟨s', c', g1, g2, g3, _⟩ := C26_chunk ⟨n, d⟩ (valid_of_parsed k1 k2 hw)
    exact ⟨s', c', g1, g2, g3⟩

/-- **C26** (from text): the same for entity tags, without exception. -/
theorem C26_entity_tag_reparse (s : Bytes) (hs : AllBytes s) (e : EntityTag) (h : EntityTag.fromStr s = .ok e) :
    EntityTag.fromStr e.toBytes = .ok e := by
  apply C26_entity_tag
  unfold EntityTag.fromStr at h
  obtain ⟨ws, h1, h⟩ := bind_ok h
  obtain ⟨⟨e', ws1⟩, h2, h⟩ := bind_ok h
  obtain ⟨_, _, h⟩ := bind_ok h
  cases h
  have ok0 := parseSp_ok (openWords_allOk hs h1)
  unfold requireEntityTag at h2
  cases hw : wpToken (parseSp ws) with
  | mk w ws2 =>
    have ok2 : AllOk ws2 := by
      cases w with
      | none =>
        unfold wpToken at hw
        split at hw
        · split at hw
          · simp at hw
          · simp only [Prod.mk.injEq, true_and] at hw
            next heq _ => rw [← hw, ← heq]; exact ok0
        · simp only [Prod.mk.injEq, true_and] at hw
          rw [← hw]; exact ok0
      | some t => exact (wpToken_ok ok0 hw).2
    simp only [hw] at h2
    obtain ⟨⟨weak, ws3⟩, h3, h2⟩ := bind_ok h2
    have ok3 : AllOk ws3 := by
      unfold entityWeak at h3
      split at h3
      · split at h3
        · cases h3
        · split at h3
          · next h4 => cases h3; exact parseSp_ok (requireSep_ok (parseSp_ok ok2) h4)
          · cases h3
      · cases h3; exact parseSp_ok ok2
    simp only at h2
    split at h2
    · next hq => cases h2; exact (wpQuoted_ok ok3 hq).1
    · cases h2

/-! ### C45: the kinds of exceptions -/

/-- The parser returns or raises a `ValueError` (`BadSyntax` and `UnicodeError` are `ValueError`s), never a `TypeError`
or a `DateTimeError`. -/
def OnlyValueError {α : Type} (r : Except Err α) : Prop := r ≠ .error .type ∧ r ≠ .error .dateTime

theorem ove_ok {α : Type} (a : α) : OnlyValueError (.ok a : Except Err α) := by simp [OnlyValueError]
theorem ove_pure {α : Type} (a : α) : OnlyValueError (pure a : Except Err α) := by simp [OnlyValueError, pure, Except.pure]
theorem ove_bind {α β : Type} {x : Except Err α} {f : α → Except Err β} (h1 : OnlyValueError x)
    (h2 : ∀ a, OnlyValueError (f a)) : OnlyValueError (x >>= f) := by
  cases x with
  | error e => exact ⟨fun h => h1.1 (by cases h; rfl), fun h => h1.2 (by cases h; rfl)⟩
  | ok a => exact h2 a
theorem ove_throw {α : Type} : OnlyValueError (throw .badSyntax : Except Err α) := by simp [OnlyValueError, throw, throwThe, MonadExceptOf.throw]
theorem ove_words (ig : Bool) (s : Bytes) : OnlyValueError (openWords ig s) := by
  unfold openWords OnlyValueError; split <;> simp
theorem ove_token (ws : List Word) : OnlyValueError (requireToken ws) := by
  unfold requireToken OnlyValueError; split <;> simp
theorem ove_sep (c : Nat) (ws : List Word) : OnlyValueError (requireSep c ws) := by
  unfold requireSep OnlyValueError; split <;> simp
theorem ove_end (ws : List Word) : OnlyValueError (requireEnd ws) := by
  unfold requireEnd OnlyValueError; split <;> simp
theorem ove_ascii (s : Bytes) : OnlyValueError (ascii s) := by
  unfold ascii OnlyValueError; split <;> simp
theorem ove_mapM (l : List Bytes) : OnlyValueError (l.mapM ascii) := by
  induction l with
  | nil => exact ove_pure _
  | cons s l ih =>
    rw [List.mapM_cons]
    exact ove_bind (ove_ascii s) fun _ => ove_bind ih fun _ => ove_pure _

/-- **C45**: whatever the input, reading a media type, transfer encoding, entity tag, protocol version, product token
or language tag fails only with a `ValueError`. -/
theorem C45_only_value_errors (s : Bytes) :
    OnlyValueError (MediaType.fromStr s) ∧ OnlyValueError (TransferEncoding.fromStr s) ∧
    OnlyValueError (EntityTag.fromStr s) ∧ OnlyValueError (HTTPVersion.fromStr s) ∧
    OnlyValueError (ProductToken.fromStr s) ∧ OnlyValueError (LanguageTag.fromStr s) := by
  refine ⟨?_, ?_, ?_, ?_, ?_, ?_⟩
  · refine ove_bind (ove_words _ s) fun ws => ove_bind ?_ fun _ => ove_bind (ove_end _) fun _ => ove_pure _
    refine ove_bind (ove_token _) fun _ => ove_bind (ove_ascii _) fun _ => ove_bind (ove_sep _ _) fun _ =>
      ove_bind (ove_token _) fun _ => ove_bind (ove_ascii _) fun _ => ove_pure _
  · refine ove_bind (ove_words _ s) fun ws => ove_bind ?_ fun _ => ove_bind (ove_end _) fun _ => ove_pure _
    refine ove_bind (ove_token _) fun _ => ?_
    dsimp only
    split
    · exact ove_pure _
    · exact ove_pure _
  · refine ove_bind (ove_words _ s) fun ws => ove_bind ?_ fun _ => ove_bind (ove_end _) fun _ => ove_pure _
    unfold requireEntityTag
    dsimp only
    refine ove_bind ?_ fun _ => ?_
    · unfold entityWeak
      split
      · split
        · simp [OnlyValueError]
        · split
          · exact ove_ok _
          · next h =>
            have hs := ove_sep 47 (parseSp (wpToken (parseSp ws)).snd)
            rw [h] at hs
            exact ⟨fun e => hs.1 (by cases e; rfl), fun e => hs.2 (by cases e; rfl)⟩
      · exact ove_ok _
    · split
      · exact ove_pure _
      · exact ove_throw
  · refine ove_bind (ove_words _ s) fun ws => ove_bind ?_ fun _ => ove_bind (ove_end _) fun _ => ove_pure _
    refine ove_bind (ove_token _) fun _ => ?_
    dsimp only
    have h : ∀ ws : List Word, OnlyValueError (do
        let ws ← requireSep 47 (parseSp ws)
        let (t, ws) ← requireToken (parseSp ws)
        match splitByte 46 t with
        | [a, b] => if isDigits a && isDigits b then return (⟨Text.decVal a, Text.decVal b⟩, ws) else throw .badSyntax
        | _ => throw .badSyntax : Except Err (HTTPVersion × List Word)) := by
      intro ws
      refine ove_bind (ove_sep _ _) fun _ => ove_bind (ove_token _) fun _ => ?_
      dsimp only
      split
      · split
        · exact ove_pure _
        · exact ove_throw
      · exact ove_throw
    split
    · exact ove_bind ove_throw fun _ => h _
    · exact h _
  · refine ove_bind (ove_words _ s) fun ws => ove_bind ?_ fun _ => ove_bind (ove_end _) fun _ => ove_pure _
    refine ove_bind (ove_token _) fun _ => ove_bind (ove_ascii _) fun _ => ?_
    dsimp only
    split
    · exact ove_bind (ove_token _) fun _ => ove_bind (ove_ascii _) fun _ => ove_pure _
    · exact ove_pure _
  · refine ove_bind (ove_words _ s) fun ws => ove_bind ?_ fun _ => ove_bind (ove_end _) fun _ => ove_pure _
    refine ove_bind (ove_token _) fun _ => ?_
    dsimp only
    split
    · exact ove_bind (ove_ascii _) fun _ => ove_bind (ove_mapM _) fun _ => ove_pure _
    · exact ⟨fun h => (by cases h), fun h => (by cases h)⟩

/-- Some inputs are rejected: `/` is no media type. -/
example : MediaType.fromStr [47] = .error .badSyntax := by decide +kernel

/-- **C45** is violated by chunk headers: `;a=b` raises `TypeError`, because `is_digits` is given a number. -/
theorem C45_chunk_violation : Chunk.fromStr [59, 97, 61, 98] = .error .type := by decide +kernel

end Verif.Http

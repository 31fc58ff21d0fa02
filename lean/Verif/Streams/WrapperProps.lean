import Verif.Streams.Wrapper
/-!
# C30: `BufferedStreamWrapper` is transparent
-/
namespace Verif.Streams

/-- All bytes of a source. -/
def Source.content (s : Source) : Bytes := (s.map fun a => a.getD []).flatten

/-- A source that returns `b''` only at its end. -/
def Source.Proper (s : Source) : Prop := some [] ∉ s

theorem read_content (n : Nat) (s : Source) : s.content = (Source.read n s).1.getD [] ++ (Source.read n s).2.content := by
  unfold Source.read
  split
  · rfl
  · simp [Source.content]
  · split
    · simp [Source.content]
    · simp only [Source.content, List.map_cons, Option.getD_some, List.flatten_cons]
      rw [← List.append_assoc, List.take_append_drop]

theorem read_proper (n : Nat) (s : Source) (h : s.Proper) : (Source.read n s).2.Proper ∧
    (0 < n → (Source.read n s).1 = some [] → s = []) ∧ (∀ d, (Source.read n s).1 = some d → d.length ≤ n) := by
  unfold Source.Proper at *
  unfold Source.read
  split
  · exact ⟨by simp, by simp, by simp⟩
  · next rest => simp only [List.mem_cons, reduceCtorEq, false_or] at h; exact ⟨h, by simp, by simp⟩
  · next b rest =>
    simp only [List.mem_cons, Option.some.injEq, not_or] at h
    split
    · next hl =>
      refine ⟨h.2, ?_, ?_⟩
      · intro _ e; exact absurd (by simpa using e.symm) h.1
      · intro d hd; cases hd; exact hl
    · next hl =>
      refine ⟨?_, ?_, ?_⟩
      · simp only [List.mem_cons, Option.some.injEq, not_or]
        refine ⟨?_, h.2⟩
        intro e
        have := congrArg List.length e
        rw [List.length_drop, List.length_nil] at this
        omega
      · intro hn e
        exfalso
        simp only [Option.some.injEq] at e
        have := congrArg List.length e
        rw [List.length_take, List.length_nil] at this
        omega
      · intro d hd; cases hd; rw [List.length_take]; omega

theorem fill_spec (buffsize : Nat) : ∀ (k : Nat) (src : Source) (buff : Bytes), src.Proper → buffsize - buff.length < k →
    (fill buffsize k src buff).1.Proper ∧
    (fill buffsize k src buff).2.1 ++ (fill buffsize k src buff).1.content = buff ++ src.content ∧
    ((fill buffsize k src buff).2.2 = false → (fill buffsize k src buff).1 = []) := by
  intro k
  induction k with
  | zero => intro src buff _ h; omega
  | succ k ih =>
    intro src buff hp hk
    unfold fill
    split
    · exact ⟨hp, rfl, by simp⟩
    · next hne =>
      obtain ⟨p1, p2, p3⟩ := read_proper (buffsize - buff.length) src hp
      have hc := read_content (buffsize - buff.length) src
      generalize hr : Source.read (buffsize - buff.length) src = r at *
      obtain ⟨a, src'⟩ := r
      simp only at p1 p2 hc
      cases a with
      | none => exact ⟨p1, by simp [hc], by simp⟩
      | some d =>
        cases d with
        | nil =>
          have e := p2 (by omega) rfl
          subst e
          simp only [Source.read, Prod.mk.injEq] at hr
          obtain ⟨_, rfl⟩ := hr
          exact ⟨p1, rfl, fun _ => rfl⟩
        | cons b d =>
          obtain ⟨i1, i2, i3⟩ := ih src' (buff ++ b :: d) p1 (by simp; omega)
          refine ⟨i1, ?_, i3⟩
          rw [i2, hc]
          simp

/-- The bytes not yet read. -/
def Wrapper.rest (w : Wrapper) : Bytes := w.buff.drop w.pos.toNat ++ w.src.content

/-- Invariant of wrappers that were only read and peeked. -/
def Wrapper.Inv (w : Wrapper) : Prop :=
  w.src.Proper ∧ w.bsize = w.buff.length ∧ 0 ≤ w.pos ∧ (w.pos < w.bsize → (w.bpos : Int) = w.pos) ∧
    (w.overflow = false → w.src = [])

theorem new_winv (src : Source) (h : src.Proper) (buffsize : Nat) : (Wrapper.new src buffsize).Inv ∧
    (Wrapper.new src buffsize).rest = src.content ∧ (Wrapper.new src buffsize).bpos = 0 ∧ (Wrapper.new src buffsize).pos = 0 := by
  obtain ⟨h1, h2, h3⟩ := fill_spec buffsize (buffsize + 1) src [] h (by simp)
  refine ⟨⟨h1, rfl, by simp [Wrapper.new], by simp [Wrapper.new], h3⟩, ?_, rfl, rfl⟩
  simpa [Wrapper.rest, Wrapper.new] using h2

theorem readinto_w (w : Wrapper) (h : w.Inv) (n : Nat) : (w.readinto n).1.Inv ∧
    w.rest = ((w.readinto n).2).getD [] ++ (w.readinto n).1.rest ∧
    (∀ d, (w.readinto n).2 = some d → d.length ≤ n) ∧
    (0 < n → (w.readinto n).2 = some [] → w.rest = []) := by
  obtain ⟨h1, h2, h3, h4, h5⟩ := h
  unfold Wrapper.readinto
  split
  · next hlt =>
    have hb := h4 hlt
    have hb' : w.pos.toNat = w.bpos := by omega
    refine ⟨⟨h1, h2, ?_, ?_, h5⟩, ?_, ?_, ?_⟩
    · simp only; omega
    · intro _; simp only; omega
    · simp only [Wrapper.rest, Option.getD_some, hb', List.length_take, List.length_drop]
      rw [show (w.pos + (min n (w.buff.length - w.bpos) : Nat)).toNat = w.bpos + min n (w.buff.length - w.bpos) by omega,
        ← List.append_assoc]
      congr 1
      rw [← List.drop_drop]
      rw [show (w.buff.drop w.bpos).take n = (w.buff.drop w.bpos).take (min n (w.buff.length - w.bpos)) by
        rw [← List.length_drop, List.take_eq_take_iff]; simp]
      rw [List.take_append_drop]
    · intro d hd; cases hd; rw [List.length_take]; omega
    · intro hn he
      exfalso
      simp only [Option.some.injEq] at he
      have := congrArg List.length he
      rw [List.length_take, List.length_drop, List.length_nil] at this
      omega
  · next hge =>
    have hd : w.buff.drop w.pos.toNat = [] := by apply List.drop_eq_nil_of_le; omega
    split
    · next ho =>
      obtain ⟨p1, p2, p3⟩ := read_proper n w.src h1
      have hc := read_content n w.src
      generalize hr : Source.read n w.src = r at *
      obtain ⟨a, src'⟩ := r
      simp only at p1 p2 p3 hc
      cases a with
      | none =>
        refine ⟨⟨p1, h2, h3, h4, by simp [ho]⟩, ?_, by simp, by simp⟩
        simp only [Wrapper.rest, hd, hc, Option.getD_none]
      | some d =>
        refine ⟨⟨p1, h2, by simp only; omega, by simp only; omega, by simp [ho]⟩, ?_, ?_, ?_⟩
        · have : w.buff.drop (w.pos + d.length).toNat = [] := by apply List.drop_eq_nil_of_le; omega
          simp only [Wrapper.rest, hd, this, hc]
          simp
        · intro d' hd'; cases hd'; exact p3 d rfl
        · intro hn he
          have := p2 hn he
          simp only [Wrapper.rest, hd, this]
          rfl
    · next ho =>
      have hs := h5 (by simpa using ho)
      refine ⟨⟨h1, h2, h3, h4, h5⟩, by simp, by simp, ?_⟩
      intro _ _
      simp only [Wrapper.rest, hd, hs]
      rfl

theorem peek_w (w : Wrapper) (h : w.Inv) (n : Nat) : (w.peek n).1 = w ∧ ∃ d, (w.peek n).2 = some d ∧ d <+: w.rest ∧ d.length ≤ n := by
  obtain ⟨h1, h2, h3, h4, h5⟩ := h
  unfold Wrapper.peek
  split
  · next hlt =>
    have hb := h4 hlt
    rw [if_neg (by omega)]
    have : w.pos.toNat = w.bpos := by omega
    refine ⟨by rw [this], _, rfl, ?_, by rw [List.length_take]; omega⟩
    rw [Wrapper.rest, this]
    exact (List.take_prefix _ _).trans (List.prefix_append _ _)
  · exact ⟨rfl, [], rfl, by simp, by simp⟩

theorem run_w (ops : List WOp) (hs : ∀ o wh, WOp.seek o wh ∉ ops) : ∀ w : Wrapper, w.Inv → (w.run ops).1.Inv ∧
    w.rest = (w.run ops).2 ++ (w.run ops).1.rest := by
  induction ops with
  | nil => intro w h; exact ⟨h, rfl⟩
  | cons o os ih =>
    intro w h
    have hs' : ∀ o wh, WOp.seek o wh ∉ os := fun o' wh hm => hs o' wh (by simp [hm])
    cases o with
    | read n =>
      obtain ⟨a, b, _, _⟩ := readinto_w w h n
      obtain ⟨c, d⟩ := ih hs' _ a
      refine ⟨c, ?_⟩
      simp only [Wrapper.run, Wrapper.step, Wrapper.out]
      rw [b, d, List.append_assoc]
    | peek n =>
      obtain ⟨a, _⟩ := peek_w w h n
      obtain ⟨c, d⟩ := ih hs' w h
      simp only [Wrapper.run, Wrapper.step, Wrapper.out, a, List.nil_append]
      exact ⟨c, d⟩
    | seek o wh => exact absurd (by simp) (hs o wh)

/-- **C30**: for every source, buffer size and sequence of reads and peeks, the bytes read so far are an initial part
of the source's bytes; a further read of `n` bytes returns the next bytes, at most `n`, and `b''` only when all bytes
were delivered (None when the source would block); a peek returns bytes that are next in order. -/
theorem C30_transparent (src : Source) (hp : src.Proper) (buffsize : Nat) (ops : List WOp) (hs : ∀ o wh, WOp.seek o wh ∉ ops)
    (w : Wrapper) (out : Bytes) (hr : (Wrapper.new src buffsize).run ops = (w, out)) :
    ∃ rest, src.content = out ++ rest ∧
      (∀ n d, (w.readinto n).2 = some d → d <+: rest ∧ d.length ≤ n ∧ (0 < n → d = [] → rest = [])) ∧
      (∀ n, ∃ d, (w.peek n).2 = some d ∧ d <+: rest ∧ d.length ≤ n) := by
  obtain ⟨h0, h1, _⟩ := new_winv src hp buffsize
  obtain ⟨h2, h3⟩ := run_w ops hs _ h0
  rw [hr] at h2 h3
  simp only at h2 h3
  refine ⟨w.rest, by rw [← h1, h3], fun n d hd => ?_, fun n => (peek_w w h2 n).2⟩
  obtain ⟨_, b, c, e⟩ := readinto_w w h2 n
  rw [hd] at b c e
  refine ⟨⟨_, b.symm⟩, c d rfl, fun hn hd0 => e hn (by rw [hd0])⟩

/-- **C30**: peeking does not change what later reads return, whatever follows. -/
theorem C30_peek (src : Source) (hp : src.Proper) (buffsize n : Nat) (ops : List WOp) (hs : ∀ o wh, WOp.seek o wh ∉ ops)
    (more : List WOp) :
    ((Wrapper.new src buffsize).run (ops ++ .peek n :: more)).2 = ((Wrapper.new src buffsize).run (ops ++ more)).2 := by
  have key : ∀ (ops : List WOp) (w : Wrapper), w.Inv → (∀ o wh, WOp.seek o wh ∉ ops) →
      (w.run (ops ++ .peek n :: more)).2 = (w.run (ops ++ more)).2 := by
    intro ops
    induction ops with
    | nil =>
      intro w h _
      simp only [List.nil_append, Wrapper.run, Wrapper.step, Wrapper.out, (peek_w w h n).1]
    | cons o os ih =>
      intro w h hs
      have hs' : ∀ o wh, WOp.seek o wh ∉ os := fun o' wh hm => hs o' wh (by simp [hm])
      simp only [List.cons_append, Wrapper.run]
      rw [ih _ _ hs']
      cases o with
      | read n => exact (readinto_w w h n).1
      | peek n => rw [Wrapper.step, (peek_w w h n).1]; exact h
      | seek o wh => exact absurd (by simp) (hs o wh)
  exact key ops _ (new_winv src hp buffsize).1 hs

/-! ### Random access -/

/-- The state of a wrapper that holds the whole source and reports position `pos`. -/
def Wrapper.At (w : Wrapper) (content : Bytes) (pos : Nat) : Prop :=
  w.overflow = false ∧ w.buff = content ∧ w.bsize = content.length ∧ w.pos = pos ∧ (w.pos < w.bsize → w.bpos = pos)

/-- The position a seek asks for. -/
def target (pos : Nat) (size : Nat) (offset : Int) : Nat → Option Int
  | 0 => some offset
  | 1 => some (pos + offset)
  | 2 => some (size + offset)
  | _ => none

/-- **C30** (source within the buffer): the wrapper is a random access file: after any calls of which no seek failed,
`tell` gives the position, a read returns the bytes from there and advances, and a seek to a position that is not
negative goes there.  (`At` holds for the new wrapper and is kept by each call.) -/
theorem C30_random_access (content : Bytes) (pos : Nat) (w : Wrapper) (h : w.At content pos) :
    w.tell = some pos ∧
    (∀ n, (w.readinto n).2 = some ((content.drop pos).take n) ∧
      (w.readinto n).1.At content (pos + ((content.drop pos).take n).length)) ∧
    (∀ n, (w.peek n).2 = some ((content.drop pos).take n) ∧ (w.peek n).1.At content pos) ∧
    (∀ off wh p, target pos content.length off wh = some p → 0 ≤ p →
      (w.seek off wh).2 = true ∧ (w.seek off wh).1.At content p.toNat) := by
  obtain ⟨h1, h2, h3, h4, h5⟩ := h
  refine ⟨by simp [Wrapper.tell, h1, h4], fun n => ?_, fun n => ?_, fun off wh p hp h0 => ?_⟩
  · unfold Wrapper.readinto
    split
    · next hlt =>
      have hb := h5 hlt
      refine ⟨by simp [h2, hb], h1, h2, h3, ?_, ?_⟩
      · simp only [h2, h4, hb]; omega
      · intro _; simp only [h2, hb]
    · next hge =>
      have hd : content.drop pos = [] := by apply List.drop_eq_nil_of_le; omega
      rw [if_neg (by simp [h1])]
      refine ⟨by simp [hd], ?_⟩
      simp only [hd, List.take_nil, List.length_nil, Nat.add_zero]
      exact ⟨h1, h2, h3, h4, h5⟩
  · unfold Wrapper.peek
    split
    · next hlt =>
      have hb := h5 hlt
      rw [if_neg (by omega)]
      refine ⟨by simp [h2, hb], h1, h2, h3, h4, ?_⟩
      intro _; simp only [h4]; omega
    · next hge =>
      have hd : content.drop pos = [] := by apply List.drop_eq_nil_of_le; omega
      exact ⟨by simp [hd], h1, h2, h3, h4, h5⟩
  · have e : (if wh = 0 then some off else if wh = 1 then some (w.pos + off)
        else if wh = 2 then some (w.bsize + off) else none) = some p := by
      rw [h3, h4]
      unfold target at hp
      split at hp
      · simpa using hp
      · simpa using hp
      · simpa using hp
      · cases hp
    unfold Wrapper.seek
    rw [if_neg (by simp [h1]), e]
    simp only
    rw [if_neg (by omega)]
    refine ⟨rfl, h1, h2, h3, ?_, ?_⟩
    · simp only; omega
    · intro _; rfl

/-- The new wrapper of a source that fits is at position 0 with the source's bytes. -/
theorem C30_new (src : Source) (hp : src.Proper) (buffsize : Nat) (ho : (Wrapper.new src buffsize).overflow = false) :
    (Wrapper.new src buffsize).At src.content 0 := by
  obtain ⟨⟨h1, h2, h3, h4, h5⟩, h6, h7, h8⟩ := new_winv src hp buffsize
  have hs := h5 ho
  have hc : (Wrapper.new src buffsize).buff = src.content := by
    rw [← h6, Wrapper.rest, hs, h8]; simp [Source.content]
  exact ⟨ho, hc, by rw [h2, hc], by rw [h8]; rfl, fun _ => h7⟩

/-- A source without None answers that is smaller than the buffer fits. -/
theorem C30_fits (src : Source) (hp : src.Proper) (hn : none ∉ src) (buffsize : Nat) (h : src.content.length < buffsize) :
    (Wrapper.new src buffsize).overflow = false := by
  have key : ∀ (k : Nat) (src : Source) (buff : Bytes), src.Proper → none ∉ src → buffsize - buff.length < k →
      buff.length + src.content.length < buffsize → (fill buffsize k src buff).2.2 = false := by
    intro k
    induction k with
    | zero => intro _ _ _ _ h; omega
    | succ k ih =>
      intro src buff hp hn hk hl
      unfold fill
      rw [if_neg (by omega)]
      cases src with
      | nil => rfl
      | cons a rest =>
        cases a with
        | none => exact absurd (by simp) hn
        | some b =>
          have hbl : b.length ≤ buffsize - buff.length := by
            simp [Source.content] at hl; omega
          simp only [Source.read, if_pos hbl]
          cases b with
          | nil => exact absurd (by simp) hp
          | cons c d =>
            simp only
            apply ih
            · intro hm; exact hp (by simp [hm])
            · intro hm; exact hn (by simp [hm])
            · simp; omega
            · simp [Source.content] at hl ⊢; omega
  exact key _ src [] hp hn (by simp) (by simpa using h)

theorem step_overflow (w : Wrapper) (o : WOp) : (w.step o).overflow = w.overflow := by
  cases o with
  | read n =>
    simp only [Wrapper.step, Wrapper.readinto]
    repeat (first | split | rfl)
  | peek n =>
    simp only [Wrapper.step, Wrapper.peek]
    repeat (first | split | rfl)
  | seek off wh =>
    simp only [Wrapper.step, Wrapper.seek]
    repeat (first | split | rfl)

/-- **C30** (source larger than the buffer): `tell` and `seek` always raise, and a seek changes nothing. -/
theorem C30_overflow (src : Source) (buffsize : Nat) (ho : (Wrapper.new src buffsize).overflow = true) (ops : List WOp) :
    ((Wrapper.new src buffsize).run ops).1.tell = none ∧
    ∀ off wh, ((Wrapper.new src buffsize).run ops).1.seek off wh = (((Wrapper.new src buffsize).run ops).1, false) := by
  have key : ∀ (ops : List WOp) (w : Wrapper), (w.run ops).1.overflow = w.overflow := by
    intro ops
    induction ops with
    | nil => intro w; rfl
    | cons o os ih => intro w; simp only [Wrapper.run]; rw [ih, step_overflow]
  have h := (key ops _).trans ho
  exact ⟨by simp [Wrapper.tell, h], fun off wh => by simp [Wrapper.seek, h]⟩

example : (Wrapper.new [some [1, 2, 3], none, some [4, 5], some [6]] 4).overflow = true := by decide

/-- C30 is violated by a failed seek: seeking before the start raises, but `tell` then gives the negative position and
the next read does not continue where the last one ended. -/
theorem C30_failed_seek_violation :
    let w := (Wrapper.new [some [1, 2, 3]] 10).step (.read 1)
    (w.seek (-5) 0).2 = false ∧ (w.seek (-5) 0).1.tell = some (-5) ∧
    (((w.seek (-5) 0).1.step (.read 2)).step (.read 2)).readinto 2 = ((((w.seek (-5) 0).1.step (.read 2)).step (.read 2)), some []) ∧
    (((w.seek (-5) 0).1.step (.read 2)).step (.read 2)).tell = some (-3) := by decide

example : ((Wrapper.new [some [1, 2, 3], none, some [4, 5], some [6]] 4).run [.read 2, .peek 5, .read 9, .read 9, .read 1, .read 9]).2 =
    [1, 2, 3, 4, 5, 6] := by decide
example : Source.Proper [some [1, 2, 3], none, some [4, 5], some [6]] := by unfold Source.Proper; decide
example : (Wrapper.new [some [1, 2, 3], some [4]] 10).overflow = false := by decide

end Verif.Streams

import Verif.Streams.PipeProps
/-!
# Property theorems about pipes
-/
namespace Verif.Streams

/-- The bytes accepted and not yet delivered in a schedule. -/
def undelivered (ops : List Op) (rs : List Res) : Bytes := (accepted ops rs).drop (delivered rs).length

theorem pending_run (max : Int) (rb wb : Bool) (ops : List Op) (hc : Op.close ∉ ops) :
    delivered ((Pipe.new max rb wb).run ops).2 <+: accepted ops ((Pipe.new max rb wb).run ops).2 ∧
    ((Pipe.new max rb wb).run ops).1.pending = undelivered ops ((Pipe.new max rb wb).run ops).2 := by
  obtain ⟨_, _, h⟩ := run_good (new_inv max rb wb) ops hc
  have e : (Pipe.new max rb wb).pending = [] := rfl
  rw [e, List.nil_append] at h
  rw [undelivered, h]
  exact ⟨List.prefix_append _ _, by simp⟩

theorem readinto_eof (p : Pipe) (n : Nat) : (p.readinto n).1.eof = p.eof := by
  unfold Pipe.readinto
  split
  · rfl
  · dsimp only; split <;> rfl

theorem step_eof (p : Pipe) (o : Op) : (p.step o).1.eof = (p.eof || decide (o = .writeEof) || decide (o = .close)) := by
  cases o with
  | write b =>
    simp only [Pipe.step, Pipe.write]
    split
    · simp
    · split <;> simp
  | writeArray b =>
    simp only [Pipe.step, Pipe.writeArray]
    split
    · simp
    · split <;> simp
  | writeEof => simp [Pipe.step, Pipe.writeEof]
  | close => simp [Pipe.step, Pipe.close]
  | read n =>
    simp only [Pipe.step, Pipe.read]
    split
    · simp [readinto_eof]
    · split
      · simp
      · simp [readinto_eof]
  | readinto n => simp [Pipe.step, readinto_eof]
  | readmatch m =>
    have hc : p.consolidate.eof = p.eof := by
      unfold Pipe.consolidate
      split
      · rfl
      · split <;> rfl
    have ht : ∀ (q : Pipe) (i : Nat), (q.takeMatch m i).1.eof = q.eof := by
      intro q i
      unfold Pipe.takeMatch
      split
      · rfl
      · dsimp only; split <;> rfl
    have hg : (p.readmatch m).1.eof = p.eof := by
      unfold Pipe.readmatch
      split
      · rfl
      · split
        · exact ht _ _
        · dsimp only
          split
          · rw [ht, hc]
          · exact hc
    simp [Pipe.step, hg]
  | setRead b => simp [Pipe.step]
  | setWrite b => simp [Pipe.step]

theorem run_eof (p : Pipe) (ops : List Op) : (p.run ops).1.eof = (p.eof || decide (Op.writeEof ∈ ops) || decide (Op.close ∈ ops)) := by
  induction ops generalizing p with
  | nil => simp [Pipe.run]
  | cons o os ih =>
    simp only [Pipe.run, ih, step_eof, List.mem_cons]
    rw [Bool.eq_iff_iff]
    simp only [Bool.or_eq_true, decide_eq_true_eq, eq_comm (a := o)]
    grind

theorem eof_accepts_nothing (p : Pipe) (h : p.eof = true) (ops : List Op) : accepted ops (p.run ops).2 = [] := by
  induction ops generalizing p with
  | nil => rfl
  | cons o os ih =>
    have h' : (p.step o).1.eof = true := by rw [step_eof, h]; simp
    have := ih _ h'
    simp only [accepted] at this
    simp only [Pipe.run, accepted, List.zipWith_cons_cons, List.flatten_cons, this, List.append_nil]
    cases o <;> simp [Pipe.step, Pipe.write, Pipe.writeArray, Pipe.writeBlocked, h, acceptedBy]

theorem close_inv (p : Pipe) : p.close.Inv ∧ p.close.pending = [] := by
  refine ⟨⟨by simp [Pipe.close], by simp [Pipe.close], by simp [Pipe.close]⟩, by simp [Pipe.close, Pipe.pending]⟩

theorem run_prefix {p : Pipe} (h : p.Inv) (ops : List Op) :
    ∃ x, p.pending ++ accepted ops (p.run ops).2 = delivered (p.run ops).2 ++ x := by
  induction ops generalizing p with
  | nil => exact ⟨p.pending, by simp [accepted, delivered, Pipe.run]⟩
  | cons o os ih =>
    by_cases hc : o = .close
    · subst hc
      obtain ⟨x, hx⟩ := ih (close_inv p).1
      rw [(close_inv p).2, eof_accepts_nothing p.close (by rfl)] at hx
      have hd : delivered (p.close.run os).2 = [] := by
        have := congrArg List.length hx
        simp only [List.append_nil, List.length_nil, List.length_append] at this
        exact List.eq_nil_of_length_eq_zero (by omega)
      refine ⟨p.pending, ?_⟩
      have ha := eof_accepts_nothing p.close (by rfl) os
      simp only [accepted] at ha
      simp only [delivered] at hd
      simp [Pipe.run, Pipe.step, accepted, delivered, acceptedBy, deliveredBy, ha, hd]
    · obtain ⟨a, _, c⟩ := step_good h o hc
      obtain ⟨x, hx⟩ := ih a
      refine ⟨x, ?_⟩
      simp only [Pipe.run, accepted, delivered, List.zipWith_cons_cons, List.flatten_cons, List.map_cons]
      rw [← List.append_assoc, c, List.append_assoc, List.append_assoc]
      congr 1

/-- **C28**: in every schedule of attempts of any number of threads, including any number of `close` calls, the bytes
delivered by all reads, in order, are an initial part of the bytes accepted by all writes, in order. -/
theorem C28_in_order (max : Int) (rb wb : Bool) (ops : List Op) :
    delivered ((Pipe.new max rb wb).run ops).2 <+: accepted ops ((Pipe.new max rb wb).run ops).2 := by
  obtain ⟨x, hx⟩ := run_prefix (new_inv max rb wb) ops
  exact ⟨x, by rw [← hx]; rfl⟩

/-! ### Nothing is lost -/

/-- No buffer is empty and `rpos` is before the end of the first. -/
def Pipe.Full (p : Pipe) : Prop := p.Inv ∧ (∀ c ∈ p.buffer, c ≠ []) ∧ (∀ src rest, p.buffer = src :: rest → p.rpos < src.length)

theorem append_full {p : Pipe} (h : p.Full) (b : Bytes) (k : Int) (hk : k = b.length) (hb : b ≠ []) :
    Pipe.Full { p with buffer := p.buffer ++ [b], bsize := p.bsize + k } := by
  refine ⟨(append_good h.1 b k hk).1, ?_, ?_⟩
  · intro c hc
    simp only [List.mem_append, List.mem_singleton] at hc
    rcases hc with hc | rfl
    · exact h.2.1 c hc
    · exact hb
  · intro src rest hs
    simp only at hs ⊢
    cases hp : p.buffer with
    | nil =>
      rw [hp] at hs
      cases hs
      have := h.1.1 hp
      have := List.length_pos_iff.mpr hb
      omega
    | cons s r => rw [hp, List.cons_append] at hs; cases hs; exact h.2.2 _ _ hp

theorem full_tail {p : Pipe} (h : p.Full) {src : Bytes} {rest : List Bytes} (hb : p.buffer = src :: rest) :
    Pipe.Full { p with buffer := rest, bsize := p.bsize - src.length, rpos := 0 } := by
  have hI := ((front_good h.1 hb (src.length - p.rpos) (by have := h.2.2 _ _ hb; omega)).1 (by omega)).1
  refine ⟨hI, ?_, ?_⟩
  · intro c hc; exact h.2.1 c (by rw [hb]; simp only at hc; simp [hc])
  · intro s r hs
    simp only at hs ⊢
    exact List.length_pos_iff.mpr (h.2.1 s (by rw [hb, hs]; simp))

theorem full_rpos {p : Pipe} (h : p.Full) {src : Bytes} {rest : List Bytes} (hb : p.buffer = src :: rest) (k : Nat)
    (hk : p.rpos + k < src.length) : Pipe.Full { p with rpos := p.rpos + k } := by
  have hI := ((front_good h.1 hb k (by omega)).2 (by omega)).1
  refine ⟨hI, h.2.1, ?_⟩
  intro s r hs
  simp only at hs ⊢
  rw [hb] at hs; cases hs; exact hk

theorem readinto_full {p : Pipe} (h : p.Full) (n : Nat) : (p.readinto n).1.Full := by
  unfold Pipe.readinto
  cases hb : p.buffer with
  | nil => exact h
  | cons src rest =>
    dsimp only
    generalize readLen src p.rpos n = k
    split
    · exact full_tail h hb
    · rw [← hb]; exact full_rpos h hb k (by omega)

theorem takeMatch_full {p : Pipe} (h : p.Full) (m : Bytes) (i : Nat) : (p.takeMatch m i).1.Full := by
  unfold Pipe.takeMatch
  cases hb : p.buffer with
  | nil => exact h
  | cons src rest =>
    dsimp only
    split
    · exact full_tail h hb
    · rw [← hb]; exact full_rpos h hb _ (by omega)

theorem consolidate_full {p : Pipe} (h : p.Full) : p.consolidate.Full := by
  by_cases hb : p.buffer = []
  · unfold Pipe.consolidate; rw [hb]; exact h
  · obtain ⟨a, _, _, _, _, f⟩ := consolidate_good h.1
    obtain ⟨f1, f2⟩ := f hb
    have hn : p.pending ≠ [] := by
      cases hp : p.buffer with
      | nil => exact absurd hp hb
      | cons src rest =>
        have := h.2.2 _ _ hp
        intro he
        have := congrArg List.length he
        simp [Pipe.pending, hp] at this
        omega
    refine ⟨a, ?_, ?_⟩
    · rw [f1]; simpa using hn
    · intro s r hs
      rw [f1] at hs; cases hs
      rw [f2]; exact List.length_pos_iff.mpr hn

theorem step_full {p : Pipe} (h : p.Full) (o : Op) (ho : o ≠ .writeArray []) : (p.step o).1.Full := by
  cases o with
  | write b =>
    simp only [Pipe.step, Pipe.write]
    split
    · exact h
    · split
      · next hl => exact append_full h b _ rfl (by intro e; subst e; simp at hl)
      · exact h
  | writeArray b =>
    simp only [Pipe.step, Pipe.writeArray]
    split
    · exact h
    · next hw =>
      have hpos : 0 < p.wlen := by
        unfold Pipe.writeBlocked at hw
        split at hw
        · cases hw
        · split at hw
          · cases hw
          · omega
      have hne : b ≠ [] := fun e => ho (by rw [e])
      have hl := List.length_pos_iff.mpr hne
      split
      · refine append_full h _ _ (by rw [List.length_take]; omega) ?_
        intro e
        have := congrArg List.length e
        rw [List.length_take, List.length_nil] at this
        omega
      · exact append_full h b _ rfl hne
  | writeEof => exact h
  | close => exact ⟨(close_inv p).1, by simp [Pipe.step, Pipe.close], by simp [Pipe.step, Pipe.close]⟩
  | read n =>
    simp only [Pipe.step, Pipe.read]
    split
    · exact readinto_full h n
    · next src rest hb =>
      split
      · next hc =>
        have e : ({ p with buffer := rest, bsize := p.bsize - src.length } : Pipe) =
          { p with buffer := rest, bsize := p.bsize - src.length, rpos := 0 } := by cases p; simp at hc ⊢; exact hc.1
        rw [e]; exact full_tail h hb
      · exact readinto_full h n
  | readinto n => exact readinto_full h n
  | readmatch m =>
    simp only [Pipe.step, Pipe.readmatch]
    split
    · exact h
    · split
      · exact takeMatch_full h m _
      · split
        · exact takeMatch_full (consolidate_full h) m _
        · exact consolidate_full h
  | setRead b => exact h
  | setWrite b => exact h

theorem run_full {p : Pipe} (h : p.Full) (ops : List Op) (ho : Op.writeArray [] ∉ ops) : (p.run ops).1.Full := by
  induction ops generalizing p with
  | nil => exact h
  | cons o os ih =>
    simp only [List.mem_cons, not_or] at ho
    exact ih (step_full h o (fun e => ho.1 e.symm)) ho.2

theorem new_full (max : Int) (rb wb : Bool) : (Pipe.new max rb wb).Full :=
  ⟨new_inv max rb wb, by simp [Pipe.new], by simp [Pipe.new]⟩

/-- What a read of up to `n` bytes may return when `u` remains to be delivered: some of it, at least one byte. -/
def NextBytes (u : Bytes) (n : Nat) (r : Res) : Prop := ∃ d, r = .data d ∧ d ≠ [] ∧ d.length ≤ n ∧ d <+: u

theorem readinto_next {p : Pipe} (h : p.Full) (n : Nat) (hn : 0 < n) :
    (p.pending ≠ [] → NextBytes p.pending n (p.readinto n).2) ∧
    (p.pending = [] → (p.readinto n).2 = if p.eof then .data [] else if p.rblocking then .wait else .none) := by
  cases hb : p.buffer with
  | nil =>
    refine ⟨fun hne => absurd (by simp [Pipe.pending, hb]) hne, fun _ => ?_⟩
    unfold Pipe.readinto; rw [hb]
  | cons src rest =>
    have hr := h.2.2 _ _ hb
    have hp : p.pending = src.drop p.rpos ++ rest.flatten := by
      simp only [Pipe.pending, hb, List.flatten_cons]
      rw [List.drop_append_of_le_length (by omega)]
    refine ⟨fun _ => ?_, fun he => ?_⟩
    · unfold Pipe.readinto
      rw [hb]
      dsimp only
      refine ⟨(src.drop p.rpos).take (readLen src p.rpos n), ?_, ?_, ?_, ?_⟩
      · split <;> rfl
      · intro e
        have := congrArg List.length e
        rw [List.length_take, List.length_drop, List.length_nil] at this
        revert this; unfold readLen; split <;> omega
      · rw [List.length_take]; unfold readLen; split <;> omega
      · rw [hp]; exact (List.take_prefix _ _).trans (List.prefix_append _ _)
    · rw [hp] at he
      have := congrArg List.length he
      simp at this
      omega

theorem read_next {p : Pipe} (h : p.Full) (n : Nat) (hn : 0 < n) :
    (p.pending ≠ [] → NextBytes p.pending n (p.read n).2) ∧
    (p.pending = [] → (p.read n).2 = if p.eof then .data [] else if p.rblocking then .wait else .none) := by
  unfold Pipe.read
  split
  · exact readinto_next h n hn
  · next src rest hb =>
    split
    · next hc =>
      refine ⟨fun _ => ⟨src, rfl, h.2.1 src (by rw [hb]; simp), hc.2, ?_⟩, fun he => ?_⟩
      · simp only [Pipe.pending, hb, hc.1, List.flatten_cons, List.drop_zero]; exact List.prefix_append _ _
      · exfalso
        have := h.2.1 src (by rw [hb]; simp)
        simp only [Pipe.pending, hb, hc.1, List.flatten_cons, List.drop_zero, List.append_eq_nil_iff] at he
        exact this he.1
    · exact readinto_next h n hn

theorem run_read {p : Pipe} (ops : List Op) : ∀ o, (p.run (ops ++ [o])).2 = (p.run ops).2 ++ [((p.run ops).1.step o).2] := by
  induction ops generalizing p with
  | nil => intro o; simp [Pipe.run]
  | cons a os ih => intro o; simp [Pipe.run, ih]

/-- **C28**: after every schedule without `close` (and without writing an empty bytearray), as long as accepted bytes
remain undelivered every further read of a positive size delivers at least one of them, the next ones in order; when
all were delivered it reports EOF (`b''`) exactly when `write_eof` was called, and otherwise waits or, in non-blocking
mode, returns None. -/
theorem C28_nothing_lost (max : Int) (rb wb : Bool) (ops : List Op) (hc : Op.close ∉ ops) (ha : Op.writeArray [] ∉ ops)
    (n : Nat) (hn : 0 < n) (p : Pipe) (rs : List Res) (hr : (Pipe.new max rb wb).run ops = (p, rs)) :
    ∀ r, r = (p.step (.read n)).2 ∨ r = (p.step (.readinto n)).2 →
      (undelivered ops rs ≠ [] → NextBytes (undelivered ops rs) n r) ∧
      (undelivered ops rs = [] →
        (Op.writeEof ∈ ops → r = .data []) ∧ (Op.writeEof ∉ ops → r = .wait ∨ r = .none)) := by
  obtain ⟨_, hp⟩ := pending_run max rb wb ops hc
  have hf := run_full (new_full max rb wb) ops ha
  have he := run_eof (Pipe.new max rb wb) ops
  rw [hr] at hp hf he
  simp only at hp hf he
  have he' : p.eof = decide (Op.writeEof ∈ ops) := by rw [he]; simp [Pipe.new, hc]
  intro r hrr
  rw [← hp]
  have key : (p.pending ≠ [] → NextBytes p.pending n r) ∧
      (p.pending = [] → r = if p.eof then .data [] else if p.rblocking then .wait else .none) := by
    rcases hrr with rfl | rfl
    · exact read_next hf n hn
    · exact readinto_next hf n hn
  refine ⟨key.1, fun e => ?_⟩
  have := key.2 e
  rw [he'] at this
  refine ⟨fun h => by simpa [h] using this, fun h => ?_⟩
  rw [this]
  simp only [h, decide_false, Bool.false_eq_true, if_false]
  split
  · exact .inl rfl
  · exact .inr rfl

/-- C28 is violated when an empty bytearray is written: the next read reports EOF although the pipe is open. -/
theorem C28_empty_violation :
    ((Pipe.new 10 true true).run [.writeArray [], .read 5]).2 = [.count 0, .data []] ∧
    ((Pipe.new 10 true true).run [.writeArray [], .write [1, 2], .read 5, .read 5]).2 =
      [.count 0, .count 2, .data [], .data [1, 2]] := by decide

/-- The conditions of C28 hold for a schedule that crosses buffers. -/
example : ((Pipe.new 4 true true).run [.write [1, 2, 3], .writeArray [4, 5, 6], .readinto 2, .read 9, .readmatch [4],
    .writeEof, .read 1, .read 1]).2 =
    [.count 3, .count 1, .data [1, 2], .data [3], .data [4], .unit, .data [], .data []] := by decide

/-! ### readall -/

theorem readallLoop_all (k : Nat) : ∀ (p : Pipe), p.Full → p.eof = true → p.pending.length < k →
    (Pipe.readallLoop k p).2 = p.pending := by
  induction k with
  | zero => intro p _ _ h; omega
  | succ k ih =>
    intro p hf he hl
    have hg := read_good hf.1 8192
    obtain ⟨n1, n2⟩ := read_next hf 8192 (by decide)
    have hf' : (p.read 8192).1.Full := step_full hf (.read 8192) (by simp)
    have he' : (p.read 8192).1.eof = true := by
      have := step_eof p (.read 8192); simpa [Pipe.step, he] using this
    unfold Pipe.readallLoop
    by_cases hp : p.pending = []
    · have := n2 hp
      rw [he, if_pos rfl] at this
      generalize hq : p.read 8192 = q at this hg
      obtain ⟨p', r⟩ := q
      simp only at this
      subst this
      simp [hp]
    · obtain ⟨d, hd, hd0, _, _⟩ := n1 hp
      generalize hq : p.read 8192 = q at hd hg hf' he'
      obtain ⟨p', r⟩ := q
      simp only at hd hf' he'
      subst hd
      obtain ⟨_, _, e⟩ := hg
      simp only [acceptedBy, List.append_nil, deliveredBy] at e
      cases d with
      | nil => exact absurd rfl hd0
      | cons b d =>
        simp only
        rw [ih p' hf' he' (by rw [e] at hl; simp at hl; omega), e]

/-- **C28**: after `write_eof`, `readall` returns all bytes that were not delivered. -/
theorem C28_readall (max : Int) (rb wb : Bool) (ops : List Op) (hc : Op.close ∉ ops) (ha : Op.writeArray [] ∉ ops)
    (he : Op.writeEof ∈ ops) (p : Pipe) (rs : List Res) (hr : (Pipe.new max rb wb).run ops = (p, rs)) :
    p.readall.2 = undelivered ops rs := by
  obtain ⟨_, hp⟩ := pending_run max rb wb ops hc
  have hf := run_full (new_full max rb wb) ops ha
  have hee := run_eof (Pipe.new max rb wb) ops
  rw [hr] at hp hf hee
  simp only at hp hf hee
  rw [← hp]
  have := readallLoop_all ((p.buffer.map List.length).sum + 1) { p with rblocking := true } hf
    (by simp only; rw [hee]; simp [he]) (by
      simp only [Pipe.pending, List.length_drop, List.length_flatten]; omega)
  exact this

/-! ### C29: flow control -/

theorem step_exact {p : Pipe} (h : p.Inv) (hx : p.Exact) (o : Op) (ho : ∀ m, o ≠ .readmatch m) : (p.step o).1.Exact := by
  have tail : ∀ src rest, p.buffer = src :: rest → Pipe.Exact { p with buffer := rest, bsize := p.bsize - src.length, rpos := 0 } := by
    intro src rest hb
    unfold Pipe.Exact at hx ⊢
    rw [hb] at hx
    simp only [List.flatten_cons, List.length_append] at hx ⊢
    omega
  have ri : ∀ n, (p.readinto n).1.Exact := by
    intro n
    unfold Pipe.readinto
    cases hb : p.buffer with
    | nil => exact hx
    | cons src rest =>
      dsimp only
      split
      · exact tail _ _ hb
      · unfold Pipe.Exact at hx ⊢; rw [hb] at hx; exact hx
  cases o with
  | write b =>
    simp only [Pipe.step, Pipe.write]
    split
    · exact hx
    · split
      · unfold Pipe.Exact at hx ⊢; simp only [List.flatten_append, List.flatten_cons, List.flatten_nil, List.append_nil,
          List.length_append]; omega
      · exact hx
  | writeArray b =>
    simp only [Pipe.step, Pipe.writeArray]
    split
    · exact hx
    · next hw =>
      have hpos : 0 < p.wlen := by
        unfold Pipe.writeBlocked at hw
        split at hw
        · cases hw
        · split at hw
          · cases hw
          · omega
      split
      · unfold Pipe.Exact at hx ⊢
        simp only [List.flatten_append, List.flatten_cons, List.flatten_nil, List.append_nil, List.length_append, List.length_take]
        omega
      · unfold Pipe.Exact at hx ⊢; simp only [List.flatten_append, List.flatten_cons, List.flatten_nil, List.append_nil,
          List.length_append]; omega
  | writeEof => exact hx
  | close => simp [Pipe.step, Pipe.close, Pipe.Exact]
  | read n =>
    simp only [Pipe.step, Pipe.read]
    split
    · exact ri n
    · next src rest hb =>
      split
      · exact tail _ _ hb
      · exact ri n
  | readinto n => exact ri n
  | readmatch m => exact absurd rfl (ho m)
  | setRead b => exact hx
  | setWrite b => exact hx

theorem run_exact {p : Pipe} (h : p.Inv) (hx : p.Exact) (ops : List Op) (hc : Op.close ∉ ops) (ho : ∀ m, Op.readmatch m ∉ ops) :
    (p.run ops).1.Exact := by
  induction ops generalizing p with
  | nil => exact hx
  | cons o os ih =>
    simp only [List.mem_cons, not_or] at hc ho
    exact ih (step_good h o (fun e => hc.1 e.symm)).1 (step_exact h hx o fun m e => (ho m).1 e.symm) hc.2 fun m => (ho m).2

/-- **C29** (without `readmatch`): after every schedule, `buffered()` is the number of undelivered bytes, `canwrite()`
the room that is left (EPIPE after `write_eof`), and a write is held up exactly when there is no room. -/
theorem C29_exact (max : Int) (rb wb : Bool) (ops : List Op) (hc : Op.close ∉ ops) (ho : ∀ m, Op.readmatch m ∉ ops)
    (p : Pipe) (rs : List Res) (hr : (Pipe.new max rb wb).run ops = (p, rs)) :
    p.buffered = (undelivered ops rs).length ∧
    (Op.writeEof ∉ ops → p.canwrite = some (if max - (undelivered ops rs).length ≤ 0 then 0
      else max - (undelivered ops rs).length)) ∧
    (Op.writeEof ∈ ops → p.canwrite = none) ∧
    (Op.writeEof ∉ ops → ∀ b, ((p.step (.write b)).2 = .wait ∨ (p.step (.write b)).2 = .none) ↔
      max ≤ (undelivered ops rs).length) := by
  obtain ⟨_, hp⟩ := pending_run max rb wb ops hc
  have hx := run_exact (new_inv max rb wb) (by simp [Pipe.Exact, Pipe.new]) ops hc ho
  obtain ⟨hi, hm, _⟩ := run_good (new_inv max rb wb) ops hc
  have he := run_eof (Pipe.new max rb wb) ops
  rw [hr] at hp hx hi hm he
  simp only at hp hx hi hm he
  have hm : p.max = max := hm
  have hl : ((undelivered ops rs).length : Int) = p.bsize - p.rpos := by
    rw [← hp, ← hx, Pipe.pending, List.length_drop]
    have := hi.rpos_le
    omega
  have he' : p.eof = decide (Op.writeEof ∈ ops) := by rw [he]; simp [Pipe.new, hc]
  rw [hl]
  refine ⟨rfl, fun h => ?_, fun h => ?_, fun h b => ?_⟩
  · simp only [Pipe.canwrite, he', h, decide_false, Bool.false_eq_true, if_false, Pipe.wlen, hm]
    congr 1
    split <;> split <;> omega
  · simp [Pipe.canwrite, he', h]
  · simp only [Pipe.step, Pipe.write, Pipe.writeBlocked, he', h, decide_false, Bool.false_eq_true, if_false, Pipe.wlen, hm]
    by_cases hw : max - p.bsize + p.rpos ≤ 0
    · rw [if_pos hw]
      simp only
      constructor
      · intro _; omega
      · intro _; split
        · exact .inl rfl
        · exact .inr rfl
    · rw [if_neg hw]
      simp only
      constructor
      · intro h; split at h <;> simp at h
      · intro h; omega

/-- **C29** (every schedule without `close`): `buffered()` is never less than the number of undelivered bytes and
`canwrite()` never more than the room that is left; a bytearray is never accepted beyond the size of the buffer. -/
theorem C29_safe (max : Int) (rb wb : Bool) (ops : List Op) (hc : Op.close ∉ ops)
    (p : Pipe) (rs : List Res) (hr : (Pipe.new max rb wb).run ops = (p, rs)) :
    ((undelivered ops rs).length : Int) ≤ p.buffered ∧
    (∀ n, p.canwrite = some n → 0 < n → n ≤ max - (undelivered ops rs).length) ∧
    (∀ b n, (p.step (.writeArray b)).2 = .count n → n ≤ b.length ∧ (0 < n → (undelivered ops rs).length + n ≤ max)) := by
  obtain ⟨_, hp⟩ := pending_run max rb wb ops hc
  obtain ⟨hi, hm, _⟩ := run_good (new_inv max rb wb) ops hc
  rw [hr] at hp hi hm
  simp only at hp hi hm
  have hm : p.max = max := hm
  have hl : ((undelivered ops rs).length : Int) ≤ p.bsize - p.rpos := by
    have h3 := hi.2.2
    rw [← hp, Pipe.pending, List.length_drop]
    have := hi.rpos_le
    omega
  refine ⟨hl, fun n hn h0 => ?_, fun b n hn => ?_⟩
  · simp only [Pipe.canwrite] at hn
    split at hn
    · cases hn
    · simp only [Pipe.wlen, hm, Option.some.injEq] at hn
      split at hn <;> omega
  · simp only [Pipe.step, Pipe.writeArray] at hn
    split at hn
    · next hw =>
      have := writeBlocked_not_count hw (.write [0])
      simp only at hn
      subst hn
      simp only [acceptedBy] at this
      unfold Pipe.writeBlocked at hw
      split at hw
      · cases hw
      · split at hw
        · split at hw <;> cases hw
        · cases hw
    · next hw =>
      have hpos : 0 < p.wlen := by
        unfold Pipe.writeBlocked at hw
        split at hw
        · cases hw
        · split at hw
          · cases hw
          · omega
      split at hn
      · simp only [Res.count.injEq] at hn
        subst hn
        simp only [Pipe.wlen, hm] at *
        omega
      · simp only [Res.count.injEq] at hn
        subst hn
        simp only [Pipe.wlen, hm] at *
        omega

/-- C29 is violated by `readmatch`: `_consolidate_buffer` drops the bytes already read without reducing `bsize`.  All
bytes were delivered, but `buffered()` is 1, `canwrite()` is 0, and writers are held up for ever. -/
theorem C29_readmatch_violation :
    ∃ p rs, (Pipe.new 1 false false).run [.write [1, 2], .readinto 1, .readmatch [9], .readinto 1] = (p, rs) ∧
      rs = [.count 2, .data [1], .err .enobufs, .data [2]] ∧
      p.empty = true ∧ p.buffered = 1 ∧ p.canwrite = some 0 ∧ (p.step (.write [3])) = (p, .none) :=
  ⟨_, _, rfl, by decide, by decide, by decide, by decide, by decide⟩

example : ((Pipe.new 4 true false).run [.write [1, 2, 3, 4, 5], .write [6], .readinto 2, .writeArray [6, 7]]).2 =
    [.count 5, .none, .data [1, 2], .count 1] := by decide

/-! ### C46: readmatch -/

/-- `d` is the shortest initial part of `u` that ends with `m`. -/
def UpToMatch (m u d : Bytes) : Prop := d <+: u ∧ m <:+ d ∧ ∀ d', d' <+: u → m <:+ d' → d.length ≤ d'.length

theorem upTo_find {m u : Bytes} {i : Nat} (h : find m u = some i) : UpToMatch m u (u.take (i + m.length)) := by
  obtain ⟨h1, h2, h3⟩ := find_some h
  refine ⟨List.take_prefix _ _, ?_, ?_⟩
  · obtain ⟨t, ht⟩ := h2
    refine ⟨u.take i, ?_⟩
    rw [List.take_add, ← ht]
    simp
  · rintro d' ⟨t, rfl⟩ ⟨s, rfl⟩
    rw [List.length_take]
    rcases Nat.lt_or_ge s.length i with hlt | hge
    · exfalso
      apply h3 _ hlt
      simp
    · simp; omega

/-- **C46**: after every schedule without `close`, `readmatch(m)` returns the shortest part of the undelivered bytes
that ends with `m`, if there is one; otherwise it delivers nothing: it returns `b''` after `write_eof`, and else raises
ENOBUFS, waits, or returns None. -/
theorem C46_readmatch (max : Int) (rb wb : Bool) (ops : List Op) (hc : Op.close ∉ ops)
    (p : Pipe) (rs : List Res) (hr : (Pipe.new max rb wb).run ops = (p, rs)) (m : Bytes) (hm : m ≠ []) :
    (m <:+: undelivered ops rs → ∃ d, (p.step (.readmatch m)).2 = .data d ∧ UpToMatch m (undelivered ops rs) d) ∧
    (¬ m <:+: undelivered ops rs →
      (Op.writeEof ∈ ops → (p.step (.readmatch m)).2 = .data []) ∧
      (Op.writeEof ∉ ops → (p.step (.readmatch m)).2 = .err .enobufs ∨ (p.step (.readmatch m)).2 = .wait ∨
        (p.step (.readmatch m)).2 = .none)) := by
  obtain ⟨_, hp⟩ := pending_run max rb wb ops hc
  obtain ⟨hi, _, _⟩ := run_good (new_inv max rb wb) ops hc
  have he := run_eof (Pipe.new max rb wb) ops
  rw [hr] at hp hi he
  simp only at hp hi he
  have he' : p.eof = decide (Op.writeEof ∈ ops) := by rw [he]; simp [Pipe.new, hc]
  obtain ⟨_, _, _, h4, h5⟩ := readmatch_spec hi m
  rw [← hp]
  simp only [Pipe.step]
  refine ⟨fun hin => ?_, fun hout => ?_⟩
  · cases hf : find m p.pending with
    | some i => exact ⟨_, h4 i hm hf, upTo_find hf⟩
    | none =>
      exfalso
      obtain ⟨s, t, hst⟩ := hin
      apply find_none hf s.length
      rw [← hst]
      simp
  · cases hf : find m p.pending with
    | some i =>
      exfalso
      apply hout
      obtain ⟨_, ⟨t, ht⟩, _⟩ := find_some hf
      exact ⟨p.pending.take i, t, by rw [List.append_assoc, ht, List.take_append_drop]⟩
    | none =>
      obtain ⟨_, h⟩ := h5 hm hf
      rw [h, he']
      refine ⟨fun hw => by simp [hw], fun hw => ?_⟩
      simp only [hw, decide_false, Bool.false_eq_true, if_false]
      split
      · exact .inl rfl
      · split
        · exact .inr (.inl rfl)
        · exact .inr (.inr rfl)

example : ((Pipe.new 100 true true).run [.write [1, 13], .readinto 1, .write [10, 2, 13, 10], .readmatch [13, 10],
    .readmatch [13, 10], .readmatch [13, 10]]).2 =
    [.count 2, .data [1], .count 4, .data [13, 10], .data [2, 13, 10], .wait] := by decide

/-! ### C47: blocking mode -/

/-- The mode set last for reading. -/
def readMode (b : Bool) : List Op → Bool
  | [] => b
  | .setRead b' :: os => readMode b' os
  | _ :: os => readMode b os
/-- The mode set last for writing. -/
def writeMode (b : Bool) : List Op → Bool
  | [] => b
  | .setWrite b' :: os => writeMode b' os
  | _ :: os => writeMode b os

theorem consolidate_modes (p : Pipe) : p.consolidate.rblocking = p.rblocking ∧ p.consolidate.wblocking = p.wblocking := by
  unfold Pipe.consolidate
  split
  · exact ⟨rfl, rfl⟩
  · split <;> exact ⟨rfl, rfl⟩

theorem takeMatch_modes (p : Pipe) (m : Bytes) (i : Nat) : (p.takeMatch m i).1.rblocking = p.rblocking ∧
    (p.takeMatch m i).1.wblocking = p.wblocking := by
  unfold Pipe.takeMatch
  split
  · exact ⟨rfl, rfl⟩
  · dsimp only; split <;> exact ⟨rfl, rfl⟩

theorem readinto_modes (p : Pipe) (n : Nat) : (p.readinto n).1.rblocking = p.rblocking ∧
    (p.readinto n).1.wblocking = p.wblocking := by
  unfold Pipe.readinto
  split
  · exact ⟨rfl, rfl⟩
  · dsimp only; split <;> exact ⟨rfl, rfl⟩

/-- **C47**: whatever is done with a pipe, it is in the blocking modes that were set last (`readblocking()` and
`writeblocking()`); except for `readall`, see below. -/
theorem C47_modes (max : Int) (rb wb : Bool) (ops : List Op) :
    ((Pipe.new max rb wb).run ops).1.rblocking = readMode rb ops ∧ ((Pipe.new max rb wb).run ops).1.wblocking = writeMode wb ops := by
  have key : ∀ (ops : List Op) (p : Pipe), (p.run ops).1.rblocking = readMode p.rblocking ops ∧
      (p.run ops).1.wblocking = writeMode p.wblocking ops := by
    intro ops
    induction ops with
    | nil => intro p; exact ⟨rfl, rfl⟩
    | cons o os ih =>
      intro p
      have hs := ih (p.step o).1
      simp only [Pipe.run]
      rw [hs.1, hs.2]
      cases o with
      | write b =>
        simp only [Pipe.step, Pipe.write, readMode, writeMode]
        split
        · exact ⟨rfl, rfl⟩
        · split <;> exact ⟨rfl, rfl⟩
      | writeArray b =>
        simp only [Pipe.step, Pipe.writeArray, readMode, writeMode]
        split
        · exact ⟨rfl, rfl⟩
        · split <;> exact ⟨rfl, rfl⟩
      | writeEof => exact ⟨rfl, rfl⟩
      | close => exact ⟨rfl, rfl⟩
      | read n =>
        simp only [Pipe.step, Pipe.read, readMode, writeMode]
        split
        · obtain ⟨a, b⟩ := readinto_modes p n; rw [a, b]; exact ⟨rfl, rfl⟩
        · split
          · exact ⟨rfl, rfl⟩
          · obtain ⟨a, b⟩ := readinto_modes p n; rw [a, b]; exact ⟨rfl, rfl⟩
      | readinto n =>
        simp only [Pipe.step, readMode, writeMode]
        obtain ⟨a, b⟩ := readinto_modes p n; rw [a, b]; exact ⟨rfl, rfl⟩
      | readmatch m =>
        have hg : (p.readmatch m).1.rblocking = p.rblocking ∧ (p.readmatch m).1.wblocking = p.wblocking := by
          unfold Pipe.readmatch
          split
          · exact ⟨rfl, rfl⟩
          · split
            · exact takeMatch_modes _ _ _
            · dsimp only
              split
              · obtain ⟨a, b⟩ := takeMatch_modes p.consolidate m
                  (by assumption)
                obtain ⟨c, d⟩ := consolidate_modes p
                exact ⟨a.trans c, b.trans d⟩
              · exact consolidate_modes p
        simp only [Pipe.step, readMode, writeMode]
        rw [hg.1, hg.2]; exact ⟨rfl, rfl⟩
      | setRead b => exact ⟨rfl, rfl⟩
      | setWrite b => exact ⟨rfl, rfl⟩
  exact key ops _

/-- C47 is violated by `readall`: a pipe in non-blocking mode is in blocking mode afterwards. -/
theorem C47_readall_violation : ((Pipe.new 4 false true).run [.write [1], .writeEof]).1.readall =
    ({ max := 4, eof := true, rblocking := true, wblocking := true }, [1]) := by decide +kernel

end Verif.Streams

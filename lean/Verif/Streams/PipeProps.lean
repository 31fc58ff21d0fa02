import Verif.Streams.Pipe
/-!
# Pipes: C28, C29, C46, C47
-/
namespace Verif.Streams

/-! ### Specification: what went in, what came out -/

/-- The bytes accepted by one attempt: the first `n` bytes of the argument when the write returned `n`. -/
def acceptedBy : Op → Res → Bytes
  | .write b, .count n => b.take n
  | .writeArray b, .count n => b.take n
  | _, _ => []

/-- The bytes delivered by one attempt. -/
def deliveredBy : Res → Bytes
  | .data b => b
  | _ => []

/-- All bytes accepted in a schedule with these results. -/
def accepted (ops : List Op) (rs : List Res) : Bytes := (ops.zipWith acceptedBy rs).flatten
/-- All bytes delivered, in the order of the schedule. -/
def delivered (rs : List Res) : Bytes := (rs.map deliveredBy).flatten

/-! ### Invariant -/

/-- The bytes that are still in the pipe. -/
def Pipe.pending (p : Pipe) : Bytes := p.buffer.flatten.drop p.rpos

/-- `rpos` lies in the first buffer, and `bsize` counts at least the bytes in the buffers. -/
def Pipe.Inv (p : Pipe) : Prop :=
  (p.buffer = [] → p.rpos = 0) ∧ (∀ src rest, p.buffer = src :: rest → p.rpos ≤ src.length) ∧
    (p.buffer.flatten.length : Int) ≤ p.bsize

/-- `bsize` is exact. -/
def Pipe.Exact (p : Pipe) : Prop := (p.buffer.flatten.length : Int) = p.bsize

/-- What an attempt must do with the bytes. -/
def Good (p p' : Pipe) (o : Op) (r : Res) : Prop :=
  p'.Inv ∧ p'.max = p.max ∧ p.pending ++ acceptedBy o r = deliveredBy r ++ p'.pending

theorem Pipe.Inv.rpos_le {p : Pipe} (h : p.Inv) : p.rpos ≤ p.buffer.flatten.length := by
  obtain ⟨h1, h2, _⟩ := h
  cases hb : p.buffer with
  | nil => simp [h1 hb]
  | cons src rest => have := h2 src rest hb; simp; omega

theorem append_good {p : Pipe} (h : p.Inv) (b : Bytes) (k : Int) (hk : k = b.length) :
    Pipe.Inv { p with buffer := p.buffer ++ [b], bsize := p.bsize + k } ∧
    Pipe.pending { p with buffer := p.buffer ++ [b], bsize := p.bsize + k } = p.pending ++ b := by
  have hr := h.rpos_le
  obtain ⟨h1, h2, h3⟩ := h
  subst hk
  refine ⟨⟨by simp, ?_, ?_⟩, ?_⟩
  · intro src rest hs
    simp only at hs ⊢
    cases hb : p.buffer with
    | nil => rw [h1 hb]; omega
    | cons s r => rw [hb, List.cons_append] at hs; cases hs; exact h2 _ _ hb
  · simp only [List.flatten_append, List.flatten_cons, List.flatten_nil, List.append_nil, List.length_append]; omega
  · simp only [Pipe.pending, List.flatten_append, List.flatten_cons, List.flatten_nil, List.append_nil]
    rw [List.drop_append_of_le_length hr]

theorem writeBlocked_not_count {p : Pipe} {r : Res} (h : p.writeBlocked = some r) (o : Op) :
    acceptedBy o r = [] ∧ deliveredBy r = [] := by
  unfold Pipe.writeBlocked at h
  split at h
  · cases h; cases o <;> simp [acceptedBy, deliveredBy]
  · split at h
    · cases h; split <;> cases o <;> simp [acceptedBy, deliveredBy]
    · cases h

theorem write_good {p : Pipe} (h : p.Inv) (b : Bytes) : Good p (p.write b).1 (.write b) (p.write b).2 := by
  unfold Pipe.write
  split
  · next r hr =>
    obtain ⟨e1, e2⟩ := writeBlocked_not_count hr (.write b)
    exact ⟨h, rfl, by simp [e1, e2]⟩
  · split
    · obtain ⟨a, c⟩ := append_good h b b.length rfl
      exact ⟨a, rfl, by simp [acceptedBy, deliveredBy, c]⟩
    · exact ⟨h, rfl, by simp [acceptedBy, deliveredBy]⟩

theorem writeArray_good {p : Pipe} (h : p.Inv) (b : Bytes) :
    Good p (p.writeArray b).1 (.writeArray b) (p.writeArray b).2 := by
  unfold Pipe.writeArray
  split
  · next r hr =>
    obtain ⟨e1, e2⟩ := writeBlocked_not_count hr (.writeArray b)
    exact ⟨h, rfl, by simp [e1, e2]⟩
  · next hw =>
    have hpos : 0 < p.wlen := by
      unfold Pipe.writeBlocked at hw
      split at hw
      · cases hw
      · split at hw
        · cases hw
        · omega
    split
    · obtain ⟨a, c⟩ := append_good h (b.take p.wlen.toNat) p.wlen (by rw [List.length_take]; omega)
      exact ⟨a, rfl, by simp [acceptedBy, deliveredBy, c]⟩
    · obtain ⟨a, c⟩ := append_good h b b.length rfl
      exact ⟨a, rfl, by simp [acceptedBy, deliveredBy, c]⟩

theorem not_write {o : Op} {r : Res} (h1 : ∀ b, o ≠ .write b) (h2 : ∀ b, o ≠ .writeArray b) : acceptedBy o r = [] := by
  cases o <;> cases r <;> simp_all [acceptedBy]

/-- Removing `k` bytes from the front, keeping the rest of the first buffer. -/
theorem front_good {p : Pipe} (h : p.Inv) {src : Bytes} {rest : List Bytes} (hb : p.buffer = src :: rest) (k : Nat)
    (hk : p.rpos + k ≤ src.length) :
    (p.rpos + k ≥ src.length →
      Pipe.Inv { p with buffer := rest, bsize := p.bsize - src.length, rpos := 0 } ∧
      p.pending = (src.drop p.rpos).take k ++ Pipe.pending { p with buffer := rest, bsize := p.bsize - src.length, rpos := 0 }) ∧
    (¬ p.rpos + k ≥ src.length → Pipe.Inv { p with rpos := p.rpos + k } ∧
      p.pending = (src.drop p.rpos).take k ++ Pipe.pending { p with rpos := p.rpos + k }) := by
  obtain ⟨h1, h2, h3⟩ := h
  rw [hb] at h3
  simp only [List.flatten_cons, List.length_append] at h3
  have hp : p.pending = src.drop p.rpos ++ rest.flatten := by
    simp only [Pipe.pending, hb, List.flatten_cons]
    rw [List.drop_append_of_le_length (by omega)]
  refine ⟨fun hge => ⟨⟨by simp, by simp, by simp only; omega⟩, ?_⟩, fun hlt => ⟨⟨?_, ?_, ?_⟩, ?_⟩⟩
  · rw [hp, List.take_of_length_le (by rw [List.length_drop]; omega)]
    simp [Pipe.pending]
  · intro hb'; simp only at hb'; rw [hb] at hb'; cases hb'
  · intro s r hs; simp only at hs; rw [hb] at hs; cases hs; simp only; omega
  · simp only [hb, List.flatten_cons, List.length_append]; omega
  · rw [hp]
    simp only [Pipe.pending, hb, List.flatten_cons]
    rw [List.drop_append_of_le_length (by omega), ← List.append_assoc, ← List.drop_drop, List.take_append_drop]

theorem readinto_good {p : Pipe} (h : p.Inv) (n : Nat) (o : Op) (h1 : ∀ b, o ≠ .write b) (h2 : ∀ b, o ≠ .writeArray b) :
    Good p (p.readinto n).1 o (p.readinto n).2 := by
  unfold Good
  rw [not_write h1 h2, List.append_nil]
  unfold Pipe.readinto
  cases hb : p.buffer with
  | nil =>
    refine ⟨h, rfl, ?_⟩
    simp only
    split
    · simp [deliveredBy]
    · split <;> simp [deliveredBy]
  | cons src rest =>
    have hr := h.2.1 _ _ hb
    have hk : p.rpos + readLen src p.rpos n ≤ src.length := by unfold readLen; split <;> omega
    obtain ⟨f1, f2⟩ := front_good h hb _ hk
    dsimp only
    generalize readLen src p.rpos n = k at *
    split
    · next hge => obtain ⟨a, b⟩ := f1 hge; exact ⟨a, rfl, b⟩
    · next hlt => obtain ⟨a, b⟩ := f2 hlt; rw [hb] at a b; exact ⟨a, rfl, b⟩

theorem read_good {p : Pipe} (h : p.Inv) (n : Nat) : Good p (p.read n).1 (.read n) (p.read n).2 := by
  unfold Pipe.read
  cases hb : p.buffer with
  | nil => exact readinto_good h n _ (by simp) (by simp)
  | cons src rest =>
    simp only
    split
    · next hc =>
      obtain ⟨f1, _⟩ := front_good h hb src.length (by omega)
      obtain ⟨a, b⟩ := f1 (by omega)
      have e : ({ p with buffer := rest, bsize := p.bsize - src.length } : Pipe) =
        { p with buffer := rest, bsize := p.bsize - src.length, rpos := 0 } := by cases p; simp at hc ⊢; exact hc.1
      rw [e]
      refine ⟨a, rfl, ?_⟩
      rw [b]
      simp [acceptedBy, deliveredBy, hc.1]
    · exact readinto_good h n _ (by simp) (by simp)

/-! ### `find` -/

theorem find_some {m s : Bytes} {i : Nat} (h : find m s = some i) : i + m.length ≤ s.length ∧ m <+: s.drop i ∧
    ∀ j < i, ¬ m <+: s.drop j := by
  induction s generalizing i with
  | nil =>
    unfold find at h
    split at h
    · next hm => cases h; subst hm; simp
    · cases h
  | cons b s ih =>
    unfold find at h
    split at h
    · next hp =>
      cases h
      rw [List.isPrefixOf_iff_prefix] at hp
      refine ⟨by simpa using hp.length_le, hp, by omega⟩
    · next hp =>
      rw [List.isPrefixOf_iff_prefix] at hp
      cases hf : find m s with
      | none => rw [hf] at h; cases h
      | some k =>
        rw [hf] at h
        simp only [Option.map_some, Option.some.injEq] at h
        subst h
        obtain ⟨a, b', c⟩ := ih hf
        refine ⟨by simp; omega, by simpa using b', ?_⟩
        intro j hj
        cases j with
        | zero => simpa using hp
        | succ j => simpa using c j (by omega)

theorem find_none {m s : Bytes} (h : find m s = none) (j : Nat) : ¬ m <+: s.drop j := by
  induction s generalizing j with
  | nil =>
    unfold find at h
    split at h
    · cases h
    · next hm => simpa using hm
  | cons b s ih =>
    unfold find at h
    split at h
    · cases h
    · next hp =>
      rw [List.isPrefixOf_iff_prefix] at hp
      cases j with
      | zero => simpa using hp
      | succ j =>
        simp only [Option.map_eq_none_iff] at h
        simpa using ih h j

theorem consolidate_good {p : Pipe} (h : p.Inv) : p.consolidate.Inv ∧ p.consolidate.pending = p.pending ∧
    p.consolidate.max = p.max ∧ p.consolidate.eof = p.eof ∧ p.consolidate.rblocking = p.rblocking ∧
    (p.buffer ≠ [] → p.consolidate.buffer = [p.pending] ∧ p.consolidate.rpos = 0) := by
  have hrp := h.rpos_le
  obtain ⟨h1, h2, h3⟩ := h
  unfold Pipe.consolidate
  cases hb : p.buffer with
  | nil => exact ⟨⟨h1, h2, h3⟩, rfl, rfl, rfl, rfl, by simp⟩
  | cons src rest =>
    rw [hb] at h3 hrp
    have hr := h2 _ _ hb
    have hd : (src :: rest).flatten.drop p.rpos = (src.drop p.rpos :: rest).flatten := by
      simp only [List.flatten_cons]; rw [List.drop_append_of_le_length hr]
    simp only
    split
    · refine ⟨⟨by simp, by simp, ?_⟩, ?_, rfl, rfl, rfl, ?_⟩
      · simp only [List.flatten_cons, List.flatten_nil, List.append_nil, List.length_append, List.length_drop] at h3 ⊢; omega
      · simp only [Pipe.pending, hb, hd]; simp
      · intro _; simp only [Pipe.pending, hb, hd]; simp
    · next h0 =>
      have h0 : p.rpos = 0 := by omega
      refine ⟨⟨by simp, by simp [h0], ?_⟩, ?_, rfl, rfl, rfl, ?_⟩
      · simpa using h3
      · simp only [Pipe.pending, hb]; simp
      · intro _; simp only [Pipe.pending, hb, h0]; simp

theorem takeMatch_good {p : Pipe} (h : p.Inv) {src : Bytes} {rest : List Bytes} (hb : p.buffer = src :: rest) (m : Bytes)
    (i : Nat) (hi : p.rpos + i + m.length ≤ src.length) :
    (p.takeMatch m (i + p.rpos)).1.Inv ∧ (p.takeMatch m (i + p.rpos)).1.max = p.max ∧
    (p.takeMatch m (i + p.rpos)).2 = .data (p.pending.take (i + m.length)) ∧
    p.pending = p.pending.take (i + m.length) ++ (p.takeMatch m (i + p.rpos)).1.pending := by
  have e : (src.take (i + p.rpos + m.length)).drop p.rpos = (src.drop p.rpos).take (i + m.length) := by
    rw [List.drop_take]; congr 1; omega
  have el : ((src.drop p.rpos).take (i + m.length)).length = i + m.length := by simp; omega
  have hp : p.pending = src.drop p.rpos ++ rest.flatten := by
    simp only [Pipe.pending, hb, List.flatten_cons]
    rw [List.drop_append_of_le_length (by omega)]
  have et : p.pending.take (i + m.length) = (src.drop p.rpos).take (i + m.length) := by
    rw [hp, List.take_append_of_le_length (by rw [List.length_drop]; omega)]
  obtain ⟨f1, f2⟩ := front_good h hb (i + m.length) (by omega)
  unfold Pipe.takeMatch
  rw [et]
  simp only [hb, e, el]
  split
  · next hge => obtain ⟨a, b⟩ := f1 hge; exact ⟨a, rfl, rfl, b⟩
  · next hlt => obtain ⟨a, b⟩ := f2 hlt; rw [hb] at a b; exact ⟨a, rfl, rfl, b⟩

/-- What `readmatch` returns. -/
theorem readmatch_spec {p : Pipe} (h : p.Inv) (m : Bytes) :
    (p.readmatch m).1.Inv ∧ (p.readmatch m).1.max = p.max ∧ p.pending = deliveredBy (p.readmatch m).2 ++ (p.readmatch m).1.pending ∧
    (∀ i, m ≠ [] → find m p.pending = some i → (p.readmatch m).2 = .data (p.pending.take (i + m.length))) ∧
    (m ≠ [] → find m p.pending = none → (p.readmatch m).1.pending = p.pending ∧
      ((p.readmatch m).2 = if p.eof then .data [] else if (p.readmatch m).1.wlen ≤ 0 then .err .enobufs else
        if p.rblocking then .wait else .none)) := by
  have dn : ∀ q : Pipe, deliveredBy q.noMatch = [] := by
    intro q; unfold Pipe.noMatch
    split
    · rfl
    · split
      · rfl
      · split <;> rfl
  cases hb : p.buffer with
  | nil =>
    have hp : p.pending = [] := by simp [Pipe.pending, hb]
    have e0 : p.readmatch m = (p, p.noMatch) := by simp [Pipe.readmatch, hb]
    rw [e0]
    refine ⟨h, rfl, by simp [dn], ?_, ?_⟩
    · intro i hm hi
      rw [hp] at hi
      unfold find at hi; rw [if_neg hm] at hi; cases hi
    · intro _ _; exact ⟨rfl, rfl⟩
  | cons src rest =>
    have hr := h.2.1 _ _ hb
    have hp : p.pending = src.drop p.rpos ++ rest.flatten := by
      simp only [Pipe.pending, hb, List.flatten_cons]
      rw [List.drop_append_of_le_length hr]
    cases hf : find m (src.drop p.rpos) with
    | some i =>
      have e0 : p.readmatch m = p.takeMatch m (i + p.rpos) := by simp [Pipe.readmatch, hb, findFrom, hf]
      rw [e0]
      obtain ⟨k1, k2, k3⟩ := find_some hf
      rw [List.length_drop] at k1
      obtain ⟨a, b, c, d⟩ := takeMatch_good h hb m i (by omega)
      have hfull : m ≠ [] → find m p.pending = some i := by
        intro hm
        cases hq : find m p.pending with
        | none =>
          exfalso
          apply find_none hq i
          rw [hp, List.drop_append_of_le_length (by rw [List.length_drop]; omega)]
          exact k2.trans (List.prefix_append _ _)
        | some j =>
          obtain ⟨q1, q2, q3⟩ := find_some hq
          congr 1
          rcases Nat.lt_trichotomy j i with hlt | heq | hgt
          · exfalso
            apply k3 j hlt
            rw [hp, List.drop_append_of_le_length (by rw [List.length_drop]; omega)] at q2
            exact List.prefix_of_prefix_length_le q2 (List.prefix_append _ _) (by rw [List.length_drop, List.length_drop]; omega)
          · exact heq
          · exfalso
            apply q3 i hgt
            rw [hp, List.drop_append_of_le_length (by rw [List.length_drop]; omega)]
            exact k2.trans (List.prefix_append _ _)
      refine ⟨a, b, ?_, ?_, ?_⟩
      · rw [c]; exact d
      · intro j hm hj; rw [hfull hm] at hj; cases hj; exact c
      · intro hm hn; rw [hfull hm] at hn; cases hn
    | none =>
      obtain ⟨ci, cp, cm, ce, cr, cb⟩ := consolidate_good h
      obtain ⟨cb1, cb2⟩ := cb (by rw [hb]; simp)
      have cfl : p.consolidate.buffer.flatten = p.pending := by rw [cb1]; simp
      cases hf2 : find m p.pending with
      | some i =>
        have e0 : p.readmatch m = p.consolidate.takeMatch m i := by simp [Pipe.readmatch, hb, findFrom, hf, cfl, hf2]
        rw [e0]
        obtain ⟨k1, k2, k3⟩ := find_some hf2
        obtain ⟨a, b, c, d⟩ := takeMatch_good ci cb1 m i (by rw [cb2]; omega)
        rw [cb2, Nat.add_zero] at a b c d
        rw [cp] at c d
        refine ⟨a, b.trans cm, by rw [c]; exact d, ?_, ?_⟩
        · intro j _ hj; cases hj; exact c
        · intro _ hn; cases hn
      | none =>
        have e0 : p.readmatch m = (p.consolidate, p.consolidate.noMatch) := by simp [Pipe.readmatch, hb, findFrom, hf, cfl, hf2]
        rw [e0]
        refine ⟨ci, cm, by simp [dn, cp], ?_, ?_⟩
        · intro j _ hj; cases hj
        · intro _ _
          refine ⟨cp, ?_⟩
          unfold Pipe.noMatch
          rw [ce, cr]

theorem step_good {p : Pipe} (h : p.Inv) (o : Op) (hc : o ≠ .close) : Good p (p.step o).1 o (p.step o).2 := by
  cases o with
  | write b => exact write_good h b
  | writeArray b => exact writeArray_good h b
  | writeEof => exact ⟨h, rfl, by simp [Pipe.step, acceptedBy, deliveredBy, Pipe.writeEof, Pipe.pending]⟩
  | close => exact absurd rfl hc
  | read n => exact read_good h n
  | readinto n => exact readinto_good h n _ (by simp) (by simp)
  | readmatch m =>
    obtain ⟨a, b, c, _, _⟩ := readmatch_spec h m
    refine ⟨a, b, ?_⟩
    rw [not_write (by simp) (by simp), List.append_nil]
    exact c
  | setRead b => exact ⟨h, rfl, by simp [Pipe.step, acceptedBy, deliveredBy, Pipe.pending]⟩
  | setWrite b => exact ⟨h, rfl, by simp [Pipe.step, acceptedBy, deliveredBy, Pipe.pending]⟩

theorem new_inv (max : Int) (rb wb : Bool) : (Pipe.new max rb wb).Inv := by
  refine ⟨by simp [Pipe.new], by simp [Pipe.new], by simp [Pipe.new]⟩

theorem run_good {p : Pipe} (h : p.Inv) (ops : List Op) (hc : Op.close ∉ ops) : (p.run ops).1.Inv ∧
    (p.run ops).1.max = p.max ∧
    p.pending ++ accepted ops (p.run ops).2 = delivered (p.run ops).2 ++ (p.run ops).1.pending := by
  induction ops generalizing p with
  | nil => exact ⟨h, rfl, by simp [Pipe.run, accepted, delivered]⟩
  | cons o os ih =>
    simp only [List.mem_cons, not_or] at hc
    obtain ⟨a, b, c⟩ := step_good h o (fun e => hc.1 e.symm)
    obtain ⟨d, e, f⟩ := ih a hc.2
    refine ⟨d, e.trans b, ?_⟩
    simp only [Pipe.run, accepted, delivered, List.zipWith_cons_cons, List.flatten_cons, List.map_cons]
    rw [← List.append_assoc, c, List.append_assoc, List.append_assoc]
    congr 1

end Verif.Streams

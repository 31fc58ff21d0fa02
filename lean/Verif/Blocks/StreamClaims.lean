import Verif.Blocks.StreamProps
/-! # C31 and C48: claims about stored streams -/
namespace Verif.Blocks

/-- `blocks` is `content` cut in blocks of `bs` bytes; only the last may be shorter, and none is empty. -/
def IsBlocksOf (bs : Nat) (content : Bytes) (blocks : List Bytes) : Prop :=
  blocks.flatten = content ∧ (∀ b ∈ blocks.dropLast, b.length = bs) ∧ (∀ b ∈ blocks.getLast?, 0 < b.length ∧ b.length ≤ bs)

theorem chunk_zero_append {bs : Nat} {b c : Bytes} (h : b.length = bs) : chunk bs (b ++ c) 0 = b := by
  simp [chunk, ← h]

theorem chunk_succ_append {bs : Nat} {b c : Bytes} (h : b.length = bs) (k : Nat) : chunk bs (b ++ c) (k + 1) = chunk bs c k := by
  unfold chunk
  rw [List.drop_append, List.drop_eq_nil_of_le (by rw [h, Nat.add_mul]; omega), List.nil_append, h, Nat.add_mul]
  congr 2
  omega

theorem blocksOf_get {bs : Nat} (h0 : 0 < bs) : ∀ {blocks : List Bytes} {c : Bytes}, IsBlocksOf bs c blocks →
    (∀ k, k * bs < c.length → blocks[k]? = some (chunk bs c k)) ∧ (∀ k, c.length ≤ k * bs → blocks[k]? = none) := by
  intro blocks
  induction blocks with
  | nil =>
    intro c h
    have : c = [] := by simpa using h.1.symm
    subst this
    simp
  | cons b rest ih =>
    intro c ⟨h1, h2, h3⟩
    cases rest with
    | nil =>
      simp only [List.flatten_cons, List.flatten_nil, List.append_nil] at h1
      subst h1
      have ⟨h4, h5⟩ := h3 b (by simp)
      constructor
      · intro k hk
        have : k = 0 := by
          rcases Nat.eq_zero_or_pos k with h | h
          · exact h
          · have := Nat.mul_le_mul_right bs h; omega
        subst this
        simp [chunk, List.take_of_length_le h5]
      · intro k hk
        cases k with
        | zero => omega
        | succ k => simp
    | cons b2 rest =>
      have hb : b.length = bs := h2 b (by simp)
      have hi := ih (c := (b2 :: rest).flatten) ⟨rfl, fun x hx => h2 x (by simp only [List.dropLast_cons₂, List.mem_cons]; exact .inr hx),
        fun x hx => h3 x (by simpa using hx)⟩
      rw [List.flatten_cons] at h1
      rw [← h1]
      constructor
      · intro k hk
        cases k with
        | zero => rw [chunk_zero_append hb]; rfl
        | succ k =>
          rw [chunk_succ_append hb, List.getElem?_cons_succ]
          apply hi.1
          rw [List.length_append, Nat.add_mul] at hk
          omega
      · intro k hk
        cases k with
        | zero => rw [List.length_append] at hk; omega
        | succ k =>
          rw [List.getElem?_cons_succ]
          apply hi.2
          rw [List.length_append, Nat.add_mul] at hk
          omega

theorem blocksOf_nil {bs : Nat} {l : List Bytes} (h : IsBlocksOf bs [] l) : l = [] := by
  rcases List.eq_nil_or_concat l with e | ⟨l', b, e⟩
  · exact e
  · subst e
    have := h.2.2 b (by simp)
    have h1 := h.1
    simp at h1
    obtain ⟨_, h1⟩ := h1
    subst h1
    simp at this

theorem isBlocksOf {bs : Nat} (h0 : 0 < bs) : ∀ (l : List (Option Bytes)) (c : Bytes),
    (∀ k, k * bs < c.length → l[k]? = some (some (chunk bs c k))) → (∀ k d, c.length ≤ k * bs → l[k]? ≠ some (some d)) →
    IsBlocksOf bs c (l.filterMap id) := by
  intro l
  induction l with
  | nil =>
    intro c h1 h2
    cases c with
    | nil => exact ⟨rfl, by simp, by simp⟩
    | cons x c => have := h1 0 (by simp); simp at this
  | cons o l ih =>
    intro c h1 h2
    by_cases hc : c = []
    · subst hc
      have ho : o = none := by
        cases o with
        | none => rfl
        | some d => exact absurd rfl (h2 0 d (by simp))
      subst ho
      simp only [List.filterMap_cons, id]
      exact ih [] (by simp) (fun k d hk => by have := h2 (k + 1) d (by simp); simpa using this)
    · have hlen : 0 < c.length := List.length_pos_iff.mpr hc
      have h3 := h1 0 (by omega)
      simp only [List.getElem?_cons_zero, Option.some.injEq] at h3
      subst h3
      simp only [List.filterMap_cons, id]
      have hch : chunk bs c 0 = c.take bs := by simp [chunk]
      rw [hch]
      have hk : ∀ k, chunk bs (c.drop bs) k = chunk bs c (k + 1) := by
        intro k
        simp only [chunk, List.drop_drop]
        rw [Nat.add_mul, Nat.one_mul, Nat.add_comm bs]
      have hi := ih (c.drop bs) (by
          intro k hk'
          rw [List.length_drop] at hk'
          have := h1 (k + 1) (by rw [Nat.add_mul]; omega)
          rw [List.getElem?_cons_succ] at this
          rw [this, hk]) (by
          intro k d hk'
          rw [List.length_drop] at hk'
          have := h2 (k + 1) d (by rw [Nat.add_mul]; omega)
          rwa [List.getElem?_cons_succ] at this)
      obtain ⟨i1, i2, i3⟩ := hi
      refine ⟨by rw [List.flatten_cons, i1, List.take_append_drop], ?_, ?_⟩
      · intro b hb
        cases hl : l.filterMap id with
        | nil => rw [hl] at hb; simp at hb
        | cons x xs =>
          rw [hl, List.dropLast_cons₂] at hb
          rcases List.mem_cons.mp hb with e | e
          · subst e
            have : c.drop bs ≠ [] := by
              intro e
              rw [e] at i1
              have := blocksOf_nil (bs := bs) ⟨i1, i2, i3⟩
              rw [hl] at this; simp at this
            have : bs < c.length := by
              rcases Nat.lt_or_ge bs c.length with h | h
              · exact h
              · exact absurd (List.drop_eq_nil_of_le h) this
            simp; omega
          · exact i2 b (by rw [hl]; exact e)
      · intro b hb
        cases hl : l.filterMap id with
        | nil =>
          rw [hl] at hb
          simp at hb
          subst hb
          rw [List.length_take]
          omega
        | cons x xs =>
          exact i3 b (by rw [hl]; rw [hl] at hb; simpa using hb)

/-! ### Histories -/

theorem step_inv {s : BStream} {f f' : File} {o : BOp} {res : BRes} (h : Inv s f.content) (hp : s.pos = f.pos)
    (hf : f.step s.bs s.r s.w o = some (f', res)) :
    ∃ s', s.step o = .ok (s', res) ∧ Inv s' f'.content ∧ s'.pos = f'.pos ∧ s'.bs = s.bs ∧ s'.r = s.r ∧ s'.w = s.w := by
  cases o with
  | write b =>
    simp only [File.step] at hf
    split at hf
    next hc =>
      simp only [Option.some.injEq, Prod.mk.injEq] at hf
      obtain ⟨e1, e2⟩ := hf
      subst e1; subst e2
      rw [← hp] at hc
      obtain ⟨s', e, hi, q⟩ := write_inv h b hc.1 hc.2
      simp only [BStream.step, e, Except.map, ← hp]
      exact ⟨s', rfl, hi, q⟩
    · simp at hf
  | read n =>
    simp only [File.step] at hf
    split at hf
    next hc =>
      simp only [Option.some.injEq, Prod.mk.injEq] at hf
      obtain ⟨e1, e2⟩ := hf
      subst e1; subst e2
      rw [← hp] at hc
      obtain ⟨s', e, hi, q⟩ := readinto_inv h n hc.1 hc.2
      simp only [BStream.step, e, Except.map, ← hp]
      exact ⟨s', rfl, hi, q⟩
    · simp at hf
  | seek off wh =>
    simp only [File.step, File.target, Option.map_eq_some_iff] at hf
    obtain ⟨p, hf, e⟩ := hf
    simp only [Prod.mk.injEq] at e
    obtain ⟨e1, e2⟩ := e
    subst e1; subst e2
    simp only [BStream.step, BStream.seek]
    rw [← hp, ← h.size] at hf
    generalize (if wh = 0 then off else if wh = 1 then (s.pos : Int) + off else (s.size : Int) + off) = q at hf ⊢
    by_cases hc : wh > 2 ∨ q < 0
    · rw [if_pos hc] at hf; simp at hf
    · rw [if_neg hc] at hf
      rw [if_neg hc]
      simp only [Option.some.injEq] at hf
      subst hf
      obtain ⟨s', e, hi, q⟩ := seekTo_inv h _
      rw [e]
      exact ⟨s', rfl, hi, q⟩
  | flush =>
    simp only [File.step, Option.some.injEq, Prod.mk.injEq] at hf
    obtain ⟨e1, e2⟩ := hf
    subst e1; subst e2
    obtain ⟨s', e, hi, _, q1, q2, q3, q4, q5, _⟩ := flush_inv h
    simp only [BStream.step, e, Except.map]
    exact ⟨s', rfl, hi, by rw [q5, hp], q1, q2, q3⟩

theorem run_inv : ∀ (ops : List BOp) (s : BStream) (f f' : File) (rs : List BRes), Inv s f.content → s.pos = f.pos →
    f.run s.bs s.r s.w ops = some (f', rs) →
    ∃ s', s.run ops = .ok (s', rs) ∧ Inv s' f'.content ∧ s'.pos = f'.pos ∧ s'.bs = s.bs ∧ s'.r = s.r ∧ s'.w = s.w := by
  intro ops
  induction ops with
  | nil =>
    intro s f f' rs h hp hf
    simp only [File.run, Option.some.injEq, Prod.mk.injEq] at hf
    obtain ⟨e1, e2⟩ := hf
    subst e1; subst e2
    exact ⟨s, rfl, h, hp, rfl, rfl, rfl⟩
  | cons o os ih =>
    intro s f f' rs h hp hf
    simp only [File.run, Option.bind_eq_some_iff, Option.map_eq_some_iff] at hf
    obtain ⟨⟨f1, r1⟩, hf1, ⟨⟨f2, r2⟩, hf2, e⟩⟩ := hf
    simp only [Prod.mk.injEq] at e hf2
    obtain ⟨e1, e2⟩ := e
    subst e1; subst e2
    obtain ⟨s1, a1, a2, a3, a4, a5, a6⟩ := step_inv h hp hf1
    rw [← a4, ← a5, ← a6] at hf2
    obtain ⟨s2, b1, b2, b3, b4, b5, b6⟩ := ih s1 f1 f2 r2 a2 a3 hf2
    simp only [BStream.run, a1, b1]
    exact ⟨s2, rfl, b2, b3, by rw [b4, a4], by rw [b5, a5], by rw [b6, a6]⟩

/-- The file an open stream stands for: at the end for mode `a`, else at the start. -/
def File.open (content : Bytes) (m : Mode) : File := ⟨content, if m.a then content.length else 0⟩

theorem open_inv {bs : Nat} (h0 : 0 < bs) {content : Bytes} {blocks : List Bytes} (hb : IsBlocksOf bs content blocks)
    (smd5 : Option Bytes) (m : Mode) (hm : m.w = true → m.a = false → content = []) :
    Inv (BStream.open bs content.length smd5 blocks m) content ∧
    (BStream.open bs content.length smd5 blocks m).pos = (File.open content m).pos ∧
    (BStream.open bs content.length smd5 blocks m).bs = bs ∧
    (BStream.open bs content.length smd5 blocks m).r = (m.r || m.plus) ∧
    (BStream.open bs content.length smd5 blocks m).w = (m.w || m.plus) := by
  obtain ⟨g1, g2⟩ := blocksOf_get h0 hb
  have st : ∀ k, k * bs < content.length → (blocks.map some)[k]? = some (some (chunk bs content k)) := by
    intro k hk; rw [List.getElem?_map, g1 k hk]; rfl
  have un : ∀ k d, content.length ≤ k * bs → (blocks.map some)[k]? ≠ some (some d) := by
    intro k d hk; rw [List.getElem?_map, g2 k hk]; simp
  unfold BStream.open File.open
  dsimp only
  by_cases ha : m.a = true
  · rw [if_pos ha, if_pos ha]
    refine ⟨{ bs0 := h0, size := rfl, num := rfl, off := rfl, top := rfl, stored := fun k hk _ => st k hk, unstored := un, data := ?_, dirty := ?_, commit := fun _ => rfl }, rfl, rfl, rfl, rfl⟩
    · simp [BStream.setTop]
    · simp [BStream.setTop]
  · rw [if_neg ha, if_neg ha]
    by_cases hw : m.w = true
    · rw [if_pos hw]
      have hc := hm hw (by simpa using ha)
      subst hc
      refine ⟨{ bs0 := h0, size := rfl, num := by simp [BStream.setTop], off := by simp [BStream.setTop], top := rfl, stored := ?_, unstored := ?_, data := ?_, dirty := ?_, commit := fun _ => rfl }, rfl, rfl, rfl, rfl⟩
      · intro k hk; simp at hk
      · intro k d _; simp
      · simp [BStream.setTop]
      · simp [BStream.setTop]
    · rw [if_neg hw]
      refine ⟨{ bs0 := h0, size := rfl, num := by simp [BStream.setTop], off := by simp [BStream.setTop], top := rfl, stored := fun k hk _ => st k hk, unstored := un, data := ?_, dirty := ?_, commit := fun _ => rfl }, rfl, rfl, rfl, rfl⟩
      · simp [BStream.setTop]
      · simp [BStream.setTop]

/-- **C31**: open any stream whose stored blocks are those of `content`, in any mode (`w` on an empty stream only), and
make any calls the file of the specification allows: every call returns what the file returns, and a flush then leaves in
the store the size and exactly the blocks of the file's content. -/
theorem C31_file (bs : Nat) (h0 : 0 < bs) (content : Bytes) (blocks : List Bytes) (hb : IsBlocksOf bs content blocks)
    (smd5 : Option Bytes) (m : Mode) (hm : m.w = true → m.a = false → content = []) (ops : List BOp) (f : File) (rs : List BRes)
    (hf : (File.open content m).run bs (m.r || m.plus) (m.w || m.plus) ops = some (f, rs)) :
    ∃ s s', (BStream.open bs content.length smd5 blocks m).run ops = .ok (s, rs) ∧ s.pos = f.pos ∧ s.flush = .ok s' ∧
      s'.ssize = f.content.length ∧ IsBlocksOf bs f.content (s'.blocks.filterMap id) := by
  obtain ⟨hi, hp, q1, q2, q3⟩ := open_inv h0 hb smd5 m hm
  obtain ⟨s, e, hi2, hp2, r1, _⟩ := run_inv ops _ _ f rs hi hp (by rw [q1, q2, q3]; exact hf)
  obtain ⟨s', e2, hi3, hd, v⟩ := flush_inv hi2
  refine ⟨s, s', e, hp2, e2, hi3.commit hd, ?_⟩
  have hbs : s'.bs = bs := by rw [v.1, r1, q1]
  have := isBlocksOf h0 s'.blocks f.content (fun k hk => ?_) fun k d hk => ?_
  · exact this
  · have := hi3.stored k (by rw [hbs]; exact hk) (by simp [hd])
    rwa [hbs] at this
  · exact hi3.unstored k d (by rw [hbs]; exact hk)

/-- C31 is violated after a seek to a later block than the one the end of the file is in: whatever was done before, the
next read or write raises. -/
theorem C31_beyond_violation (bs : Nat) (h0 : 0 < bs) (content : Bytes) (blocks : List Bytes) (hb : IsBlocksOf bs content blocks)
    (smd5 : Option Bytes) (m : Mode) (hm : m.w = true → m.a = false → content = []) (ops : List BOp) (f : File) (rs : List BRes)
    (hf : (File.open content m).run bs (m.r || m.plus) (m.w || m.plus) ops = some (f, rs))
    (hgt : f.content.length / bs < f.pos / bs) :
    ∃ s, (BStream.open bs content.length smd5 blocks m).run ops = .ok (s, rs) ∧ (∀ n, ∃ e, s.readinto n = .error e) ∧
      ∀ b, ∃ e, s.write b = .error e := by
  obtain ⟨hi, hp, q1, q2, q3⟩ := open_inv h0 hb smd5 m hm
  obtain ⟨s, e, hi2, hp2, r1, _⟩ := run_inv ops _ _ f rs hi hp (by rw [q1, q2, q3]; exact hf)
  have hbs : s.bs = bs := by rw [r1, q1]
  have hnum : f.content.length / bs < s.bnum := by rw [hi2.num, hp2, hbs]; exact hgt
  have hlt : f.content.length < s.bnum * s.bs := by
    rw [hbs]
    rcases Nat.lt_or_ge f.content.length (s.bnum * bs) with h | h
    · exact h
    · have := (Nat.le_div_iff_mul_le h0).mpr h; omega
  have hbd : s.bdata = none := by
    cases hd : s.bdata with
    | none => rfl
    | some d => have := (hi2.data d hd).2.1; omega
  have htop : s.btop = bs := by
    rw [hi2.top, topOf, hbs, if_neg (by omega)]
  have hbpos : s.bpos < bs := by rw [hi2.off, hbs]; exact Nat.mod_lt _ h0
  have hret : ∃ er, s.retrieve = .error er := by
    unfold BStream.retrieve
    split
    · exact ⟨_, rfl⟩
    · exact ⟨_, rfl⟩
    next d hd => exact absurd hd (hi2.unstored _ _ (by omega))
  obtain ⟨er, her⟩ := hret
  refine ⟨s, e, fun n => ?_, fun b => ?_⟩
  · unfold BStream.readinto BStream.load
    split
    · exact ⟨_, rfl⟩
    · rw [if_neg (by omega), hbd]
      simp [her]
  · unfold BStream.write BStream.prepare
    split
    · exact ⟨_, rfl⟩
    · rw [hbd]
      simp only
      rw [if_neg (by omega)]
      simp [her]

/-- C31 is violated by mode `w` on a stream that is not empty: every write raises IndexError, after the blocks were
deleted. -/
theorem C31_truncate_violation (bs : Nat) (h0 : 0 < bs) (content : Bytes) (hc : content ≠ []) (blocks : List Bytes)
    (smd5 : Option Bytes) (m : Mode) (hw : m.w = true) (ha : m.a = false) (b : Bytes) :
    (BStream.open bs content.length smd5 blocks m).write b = .error .index ∧
    (BStream.open bs content.length smd5 blocks m).blocks = [] := by
  have hl : 0 < content.length := List.length_pos_iff.mpr hc
  have htop : topOf bs content.length 0 ≠ 0 := by
    unfold topOf
    split
    next h =>
      have := Nat.div_add_mod content.length bs
      rw [h] at this
      omega
    · omega
  simp only [BStream.open, ha, hw, BStream.setTop]
  refine ⟨?_, rfl⟩
  simp only [BStream.write, BStream.prepare, BStream.retrieve]
  simp [htop]

example : IsBlocksOf 3 [1, 2, 3, 4] [[1, 2, 3], [4]] := by unfold IsBlocksOf; decide
example : (File.open [1, 2, 3, 4] { r := true, plus := true }).run 3 true true
    [.read 9, .write [7, 8, 9], .write [10], .seek (-2) 1, .read 5, .flush, .seek 1 2, .write [5], .seek 0 0, .read 2] =
    some (⟨[1, 2, 3, 7, 8, 9, 10, 0, 5], 2⟩,
      [.data [1, 2, 3], .count 3, .count 1, .unit, .data [9], .unit, .unit, .count 1, .unit, .data [1, 2]]) := by
  decide +kernel

end Verif.Blocks

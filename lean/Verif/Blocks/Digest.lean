import Verif.Blocks.StreamClaims
/-! # C48: the digest stored with a stream -/
namespace Verif.Blocks

/-- What the running digest stands for. -/
structure MInv (s : BStream) (c : Bytes) : Prop where
  run : ∀ m, s.md5 = some m → (s.md5num = 0 ∨ (s.md5num - 1) * s.bs < c.length) ∧
    ((s.dirty = true ∧ s.bnum < s.md5num ∧ c.length ≤ s.md5num * s.bs) ∨
      (m = c.take (s.md5num * s.bs) ∧ (s.dirty = true → s.bnum = s.md5num ∧ c.length ≤ (s.md5num + 1) * s.bs) ∧
        (s.dirty = false → c.length ≤ s.md5num * s.bs)))
  saved : s.dirty = false → s.smd5 = none ∨ s.smd5 = some c

theorem take_chunk (bs : Nat) (c : Bytes) (k : Nat) : c.take (k * bs) ++ chunk bs c k = c.take ((k + 1) * bs) := by
  rw [Nat.add_mul, Nat.one_mul, List.take_add]
  rfl

theorem pred_lt {a b bs : Nat} (h : a = 0 ∨ (a - 1) * bs < b * bs) : a ≤ b := by
  rcases h with h | h
  · omega
  · have := Nat.lt_of_mul_lt_mul_right h
    omega

theorem flush_m {s s' : BStream} {c : Bytes} (h : Inv s c) (hm : MInv s c) (he : s.flush = .ok s') : MInv s' c := by
  unfold BStream.flush at he
  by_cases hd : s.dirty = true
  · rw [if_pos hd] at he
    dsimp only at he
    obtain ⟨h1, h2⟩ := h.dirty hd
    obtain ⟨d, hb⟩ := Option.ne_none_iff_exists'.mp h1
    obtain ⟨hn, hle, hde⟩ := h.data d hb
    rw [h2, if_pos rfl] at hde
    have hl : (chunk s.bs c s.bnum).length = s.btop := by rw [chunk_length h.bs0 hle, h.top]
    have ht : (s.bdata.getD []).take s.btop = chunk s.bs c s.bnum := by
      rw [hb, Option.getD_some, hde, padded_take _ _ hl.symm]
    rw [ht] at he
    by_cases hne : chunk s.bs c s.bnum = []
    · rw [if_neg (by simp [hne])] at he
      simp only [Except.ok.injEq] at he
      subst he
      have hk : c.length ≤ s.bnum * s.bs := by
        simp only [chunk, List.take_eq_nil_iff, List.drop_eq_nil_iff] at hne
        have := h.bs0
        omega
      have key : ∀ m, s.md5 = some m → s.bnum = s.md5num ∧ c.length ≤ s.md5num * s.bs ∧ m = c := by
        intro m hmd
        obtain ⟨k1, k2⟩ := hm.run m hmd
        have hnum : s.md5num ≤ s.bnum := by
          apply pred_lt (bs := s.bs)
          rcases k1 with k1 | k1
          · exact .inl k1
          · exact .inr (by omega)
        rcases k2 with ⟨_, k2, _⟩ | ⟨k2, k3, _⟩
        · omega
        · obtain ⟨k4, _⟩ := k3 hd
          rw [k4] at hk
          refine ⟨k4, hk, ?_⟩
          rw [k2, List.take_of_length_le hk]
      exact {
        run := fun m hmd => ⟨(hm.run m hmd).1, .inr ⟨by
            obtain ⟨_, b, e⟩ := key m hmd
            rw [e, List.take_of_length_le b], by simp, fun _ => (key m hmd).2.1⟩⟩
        saved := fun _ => by
          dsimp only
          cases hmd : s.md5 with
          | none => exact .inl rfl
          | some m => rw [(key m hmd).2.2]; exact .inr rfl }
    · rw [if_pos hne, if_pos hn] at he
      simp only [Except.ok.injEq] at he
      subst he
      have hk : s.bnum * s.bs < c.length := by
        rcases Nat.lt_or_ge (s.bnum * s.bs) c.length with h' | h'
        · exact h'
        · exact absurd (chunk_nil h') hne
      have key : ∀ m, s.md5After (chunk s.bs c s.bnum) = some m → m = c ∧ s.md5.isSome ∧ s.bnum = s.md5num ∧
          c.length ≤ (s.md5num + 1) * s.bs := by
        intro m hmd
        unfold BStream.md5After at hmd
        cases hm0 : s.md5 with
        | none => rw [hm0] at hmd; simp at hmd
        | some m0 =>
          rw [hm0] at hmd
          simp only at hmd
          split at hmd
          next hnm =>
            simp only [Option.some.injEq] at hmd
            obtain ⟨_, k2⟩ := hm.run m0 hm0
            rcases k2 with ⟨_, k2, _⟩ | ⟨k2, k3, _⟩
            · omega
            · obtain ⟨_, k5⟩ := k3 hd
              refine ⟨?_, rfl, hnm, k5⟩
              rw [← hmd, k2, ← hnm, take_chunk, List.take_of_length_le (by rw [hnm]; exact k5)]
          · simp at hmd
      refine { run := ?_, saved := ?_ }
      · intro m hmd
        dsimp only at hmd ⊢
        obtain ⟨k1, k2, k3, k4⟩ := key m hmd
        rw [if_pos ⟨k2, k3⟩]
        refine ⟨.inr (by rw [Nat.add_sub_cancel, ← k3]; exact hk), .inr ⟨by rw [k1, List.take_of_length_le k4], by simp, fun _ => k4⟩⟩
      · intro _
        dsimp only
        cases hmd : s.md5After (chunk s.bs c s.bnum) with
        | none => exact .inl rfl
        | some m => rw [(key m hmd).1]; exact .inr rfl
  · rw [if_neg hd] at he
    simp only [Except.ok.injEq] at he
    subst he
    exact hm

theorem seekTo_m {s s' : BStream} {c : Bytes} (h : Inv s c) (hm : MInv s c) (p : Nat) (he : s.seekTo p = .ok s') : MInv s' c := by
  unfold BStream.seekTo at he
  by_cases hp : p / s.bs ≠ s.bnum
  · rw [if_pos hp] at he
    obtain ⟨s1, e, hi, hd, v⟩ := flush_inv h
    have h1 := flush_m h hm e
    rw [e] at he
    simp only [Except.ok.injEq] at he
    subst he
    refine { run := ?_, saved := ?_ }
    · intro m hmd
      obtain ⟨k1, k2⟩ := h1.run m hmd
      refine ⟨k1, .inr ?_⟩
      rcases k2 with ⟨k2, _⟩ | ⟨k2, _, k4⟩
      · rw [hd] at k2; simp at k2
      · exact ⟨k2, by simp [BStream.setTop, hd], k4⟩
    · exact h1.saved
  · rw [if_neg hp] at he
    simp only [Except.ok.injEq] at he
    subst he
    exact { run := hm.run, saved := hm.saved }

theorem load_m {s s' : BStream} {c : Bytes} (hm : MInv s c) (he : s.load = .ok s') : MInv s' c := by
  unfold BStream.load at he
  split at he
  · simp only [Except.ok.injEq] at he; subst he; exact hm
  · split at he
    · simp at he
    · simp only [Except.ok.injEq] at he; subst he; exact { run := hm.run, saved := hm.saved }

theorem readinto_m {s s' : BStream} {c d : Bytes} (h : Inv s c) (hm : MInv s c) (hr : s.pos / s.bs ≤ c.length / s.bs) (n : Nat)
    (he : s.readinto n = .ok (s', d)) : MInv s' c := by
  unfold BStream.readinto at he
  split at he
  · simp at he
  · split at he
    · simp only [Except.ok.injEq, Prod.mk.injEq] at he; rw [← he.1]; exact hm
    next ht =>
      obtain ⟨s1, e1, hi, _⟩ := load_inv h hr (by omega)
      have h1 := load_m hm e1
      rw [e1] at he
      dsimp only at he
      split at he
      · simp at he
      next s2 e2 =>
        simp only [Except.ok.injEq, Prod.mk.injEq] at he
        rw [← he.1]
        exact seekTo_m hi h1 _ e2

/-- What `prepare` does to the file: the end of `prepare_inv`, with the digest. -/
theorem prepare_m {s s' : BStream} {c : Bytes} (h : Inv s c) (hm : MInv s c) (hr : s.pos / s.bs ≤ c.length / s.bs)
    (he : s.prepare = .ok s') {c' : Bytes} (hi' : Inv s' c') (hc : c' = c ∨ c' = c ++ List.replicate (s.pos - c.length) 0) :
    MInv s' c' := by
  unfold BStream.prepare at he
  split at he
  next d hb =>
    simp only [Except.ok.injEq] at he
    subst he
    have : c' = c := by
      rcases hc with e | e
      · exact e
      · have h1 := h.size
        have h2 := hi'.size
        rw [h1] at h2
        rw [e] at h2 ⊢
        simp at h2
        simp [h2]
    rw [this]
    exact hm
  next hb =>
    have hdirty : s.dirty = false := by
      cases hd : s.dirty with
      | false => rfl
      | true => exact absurd hb (h.dirty hd).1
    have hle : s.bnum * s.bs ≤ c.length := by
      rw [h.num]; exact (Nat.le_div_iff_mul_le h.bs0).mp hr
    have hp : s.pos = s.bnum * s.bs + s.bpos := by
      rw [h.num, h.off, Nat.mul_comm]; exact (Nat.div_add_mod ..).symm
    have hbl : s.bpos < s.bs := by rw [h.off]; exact Nat.mod_lt _ h.bs0
    by_cases ht : s.btop ≤ 0
    · rw [if_pos ht] at he
      have hl : (chunk s.bs c s.bnum).length = s.btop := by rw [chunk_length h.bs0 hle, h.top]
      have hlen : c.length = s.bnum * s.bs := by
        simp only [chunk, List.length_take, List.length_drop] at hl
        have := h.bs0
        omega
      have hbk : s.bnum ≤ s.blocks.length := by
        rcases Nat.eq_zero_or_pos s.bnum with h0 | h0
        · omega
        · have hk : (s.bnum - 1) * s.bs < c.length := by
            rw [hlen]; exact Nat.mul_lt_mul_of_pos_right (by omega) h.bs0
          have := h.stored (s.bnum - 1) hk (by simp [hdirty])
          have := (List.getElem?_eq_some_iff.mp this).1
          omega
      have hf : BStream.fillBlocks s.bnum s = s := by
        cases hn : s.bnum with
        | zero => rfl
        | succ m => simp only [BStream.fillBlocks]; rw [if_neg (by omega)]
      unfold BStream.newBlock at he
      rw [hf] at he
      have hfl : ({ s with bdata := some (List.replicate s.bs 0), dirty := true } : BStream).flush =
          .ok { s with bdata := some (List.replicate s.bs 0), dirty := false, ssize := s.size, smd5 := s.md5 } := by
        unfold BStream.flush
        simp [show s.btop = 0 by omega]
      dsimp only at he
      rw [hfl] at he
      simp only [Except.ok.injEq] at he
      have hcl : c'.length = s.pos := by
        rw [← hi'.size, ← he]; rfl
      have hcc : c' = c ++ List.replicate s.bpos 0 := by
        rcases hc with e | e
        · subst e
          have : s.bpos = 0 := by omega
          simp [this]
        · rw [e, show s.pos - c.length = s.bpos by omega]
      have key : ∀ m, s.md5 = some m → s.bnum = s.md5num ∧ m = c ∧ (s.md5num = 0 ∨ (s.md5num - 1) * s.bs < c.length) := by
        intro m hmd
        obtain ⟨k1, k2⟩ := hm.run m hmd
        rcases k2 with ⟨k2, _⟩ | ⟨k2, _, k4⟩
        · rw [hdirty] at k2; simp at k2
        · have k4 := k4 hdirty
          have hle1 : s.bnum ≤ s.md5num := by
            rw [hlen] at k4
            exact Nat.le_of_mul_le_mul_right k4 h.bs0
          have hle2 : s.md5num ≤ s.bnum := pred_lt (bs := s.bs) (by rw [← hlen]; exact k1)
          refine ⟨by omega, by rw [k2, List.take_of_length_le k4], k1⟩
      rw [← he, hcc]
      refine { run := ?_, saved := ?_ }
      · intro m hmd
        simp only [BStream.setTop] at hmd ⊢
        obtain ⟨k1, k2, k3⟩ := key m hmd
        refine ⟨by rcases k3 with k3 | k3; · exact .inl k3
                   · exact .inr (by simp; omega), .inr ⟨?_, ?_, ?_⟩⟩
        · rw [← k1, ← hlen, List.take_append_of_le_length (by omega), List.take_length, k2]
        · intro _
          refine ⟨k1, ?_⟩
          rw [← k1, Nat.add_mul]
          simp; omega
        · intro hd
          simp only [Bool.false_or, bne_eq_false_iff_eq] at hd
          rw [← k1]
          simp; omega
      · intro hd
        simp only [BStream.setTop, Bool.false_or, bne_eq_false_iff_eq] at hd ⊢
        rw [hd]
        cases hmd : s.md5 with
        | none => exact .inl rfl
        | some m => rw [(key m hmd).2.1]; exact .inr (by simp)
    · rw [if_neg ht] at he
      have hlt := lt_of_top h hr (by omega)
      rw [retrieve_inv h hb hlt] at he
      simp only [Except.ok.injEq] at he
      have : c' = c := by
        rcases hc with e | e
        · exact e
        · have h1 := h.size
          have h2 := hi'.size
          rw [← he] at h2
          dsimp only at h2
          rw [h1] at h2
          rw [e] at h2 ⊢
          simp at h2
          simp [h2]
      rw [this, ← he]
      exact { run := hm.run, saved := hm.saved }

theorem put_take {c : Bytes} {p n : Nat} {b : Bytes} (h1 : n ≤ p) (h2 : n ≤ c.length) : (put c p b).take n = c.take n := by
  unfold put
  rw [List.append_assoc, List.take_append_of_le_length (by simp; omega), List.take_take, Nat.min_eq_left h1,
    List.take_append_of_le_length h2]

theorem put_m {s : BStream} {c : Bytes} (h : Inv s c) (hm : MInv s c) (d : Bytes) (hb : s.bdata = some d) (b : Bytes)
    (hn : b.length ≤ s.bs - s.bpos) : MInv (s.put b) (put c s.pos b) := by
  obtain ⟨hbn, hle, _⟩ := h.data d hb
  have hbl : s.bpos < s.bs := by rw [h.off]; exact Nat.mod_lt _ h.bs0
  have hp : s.pos = s.bnum * s.bs + s.bpos := by
    rw [h.num, h.off, Nat.mul_comm]; exact (Nat.div_add_mod ..).symm
  have hpl := put_length c s.pos b
  have hs : (s.bnum + 1) * s.bs = s.bnum * s.bs + s.bs := by rw [Nat.add_mul]; omega
  have f1 : (s.put b).md5 = s.md5 ∧ (s.put b).md5num = s.md5num ∧ (s.put b).bs = s.bs ∧ (s.put b).dirty = true ∧
      (s.put b).bnum = s.bnum := by
    unfold BStream.put
    dsimp only
    split <;> exact ⟨rfl, rfl, rfl, rfl, rfl⟩
  obtain ⟨f1, f2, f3, f4, f5⟩ := f1
  refine { run := ?_, saved := by simp [f4] }
  intro m hmd
  rw [f1] at hmd
  rw [f2, f3, f4, f5]
  obtain ⟨k1, k2⟩ := hm.run m hmd
  refine ⟨by rcases k1 with k1 | k1; · exact .inl k1
             · exact .inr (by omega), ?_⟩
  have hnl : s.bnum < s.md5num → (s.bnum + 1) * s.bs ≤ s.md5num * s.bs := fun h => Nat.mul_le_mul_right _ h
  rcases k2 with ⟨_, k2, k3⟩ | ⟨k2, k3, k4⟩
  · exact .inl ⟨rfl, k2, by have := hnl k2; omega⟩
  · have hnm : s.bnum ≤ s.md5num := by
      by_cases hd : s.dirty = true
      · have := (k3 hd).1; omega
      · have := k4 (by simpa using hd)
        exact Nat.le_of_mul_le_mul_right (Nat.le_trans hle this) h.bs0
    rcases Nat.lt_or_ge s.bnum s.md5num with hlt | hge
    · have hd : s.dirty = false := by
        by_cases hd : s.dirty = true
        · have := (k3 hd).1; omega
        · simpa using hd
      exact .inl ⟨rfl, hlt, by have := hnl hlt; have := k4 hd; omega⟩
    · have he : s.bnum = s.md5num := by omega
      refine .inr ⟨?_, fun _ => ⟨he, ?_⟩, by simp⟩
      · rw [k2, ← he, put_take (by omega) hle]
      · rw [← he]
        by_cases hd : s.dirty = true
        · have := (k3 hd).2
          rw [← he] at this
          omega
        · have := k4 (by simpa using hd)
          rw [← he] at this
          omega

/-- `write` through its parts. -/
theorem write_parts {s : BStream} {c : Bytes} (h : Inv s c) (b : Bytes) (hw : s.w = true)
    (hr : s.pos / s.bs ≤ c.length / s.bs) :
    ∃ s1 c1 d s2, s.prepare = .ok s1 ∧ Inv s1 c1 ∧ (c1 = c ∨ c1 = c ++ List.replicate (s.pos - c.length) 0) ∧
      s1.bdata = some d ∧ s1.pos = s.pos ∧ s1.bs = s.bs ∧ s1.bpos = s.bpos ∧ s1.w = true ∧ s1.bnum = s.bnum ∧
      (b.take (s.bs - s.pos % s.bs)).length ≤ s1.bs - s1.bpos ∧
      (s1.put (b.take (s.bs - s.pos % s.bs))).seekTo (s1.pos + (b.take (s.bs - s.pos % s.bs)).length) = .ok s2 ∧
      put c1 s1.pos (b.take (s.bs - s.pos % s.bs)) = put c s.pos (b.take (s.bs - s.pos % s.bs)) ∧
      s.write b = .ok (s2, (b.take (s.bs - s.pos % s.bs)).length) := by
  obtain ⟨s1, c1, e1, hi, hc, ⟨d, hd⟩, q1, q2, q3, q4, q5, q6⟩ := prepare_inv h hw hr
  have hb : b.take (min (s.bs - s.bpos) b.length) = b.take (s.bs - s.pos % s.bs) := by
    rw [← h.off, ← List.take_take, List.take_length]
  have hbl : (b.take (s.bs - s.pos % s.bs)).length = min (s.bs - s.bpos) b.length := by
    rw [List.length_take, h.off]
  have hbn : (b.take (s.bs - s.pos % s.bs)).length ≤ s1.bs - s1.bpos := by rw [hbl, q2, q5]; omega
  obtain ⟨hp, r1, r2, r3, r4⟩ := put_inv hi (by rw [q4, hw]) d hd (b.take (s.bs - s.pos % s.bs)) hbn
  obtain ⟨s2, e2, hi2, p1, p2, p3, p4⟩ := seekTo_inv hp (s1.pos + (b.take (s.bs - s.pos % s.bs)).length)
  refine ⟨s1, c1, d, s2, e1, hi, hc, hd, q1, q2, q5, by rw [q4, hw], q6, hbn, e2, ?_, ?_⟩
  · rcases hc with e | e
    · rw [e, q1]
    · rw [e, q1, put_ext]
  · unfold BStream.write
    rw [if_neg (by simp [hw])]
    dsimp only
    rw [e1]
    dsimp only
    have : (if s1.pos + min (s.bs - s.bpos) b.length > s1.size then
        ({ bs := s1.bs, r := s1.r, w := s1.w, size := s1.pos + min (s.bs - s.bpos) b.length, pos := s1.pos, bdata := some (overwrite (s1.bdata.getD []) s1.bpos (b.take (min (s.bs - s.bpos) b.length))), bnum := s1.bnum, bpos := s1.bpos, btop := s1.btop, dirty := true, md5 := s1.md5, md5num := s1.md5num, blocks := s1.blocks, ssize := s1.ssize, smd5 := s1.smd5 } : BStream).setTop
        else { s1 with bdata := some (overwrite (s1.bdata.getD []) s1.bpos (b.take (min (s.bs - s.bpos) b.length))), dirty := true }) =
        s1.put (b.take (s.bs - s.pos % s.bs)) := by
      unfold BStream.put
      dsimp only
      rw [hb, hbl]
    rw [this, r1, ← hbl, e2]

theorem step_m {s s' : BStream} {f f' : File} {o : BOp} {res : BRes} (h : Inv s f.content) (hm : MInv s f.content) (hp : s.pos = f.pos)
    (hf : f.step s.bs s.r s.w o = some (f', res)) (he : s.step o = .ok (s', res)) : MInv s' f'.content := by
  cases o with
  | write b =>
    simp only [File.step] at hf
    split at hf
    next hc =>
      simp only [Option.some.injEq, Prod.mk.injEq] at hf
      obtain ⟨e1, e2⟩ := hf
      subst e1; subst e2
      rw [← hp] at hc
      obtain ⟨s1, c1, d, s2, a1, a2, a3, a4, a5, a6, a7, a8, _, a9, a10, a11, a12⟩ := write_parts h b hc.1 hc.2
      simp only [BStream.step, a12, Except.map, Except.ok.injEq, Prod.mk.injEq] at he
      rw [← he.1, ← hp]
      rw [← a11]
      have h1 := prepare_m h hm hc.2 a1 a2 a3
      exact seekTo_m (put_inv a2 a8 d a4 _ a9).1 (put_m a2 h1 d a4 _ a9) _ a10
    · simp at hf
  | read n =>
    simp only [File.step] at hf
    split at hf
    next hc =>
      simp only [Option.some.injEq, Prod.mk.injEq] at hf
      obtain ⟨e1, e2⟩ := hf
      subst e1; subst e2
      rw [← hp] at hc
      simp only [BStream.step] at he
      cases e : s.readinto n with
      | error _ => rw [e] at he; simp [Except.map] at he
      | ok p =>
        rw [e] at he
        simp only [Except.map, Except.ok.injEq, Prod.mk.injEq] at he
        rw [← he.1]
        exact readinto_m h hm hc.2 n e
    · simp at hf
  | seek off wh =>
    simp only [File.step, Option.map_eq_some_iff, Prod.mk.injEq] at hf
    obtain ⟨p, _, e, _⟩ := hf
    subst e
    simp only [BStream.step, BStream.seek] at he
    generalize (if wh = 0 then off else if wh = 1 then (s.pos : Int) + off else (s.size : Int) + off) = q at he
    by_cases hc : wh > 2 ∨ q < 0
    · rw [if_pos hc] at he; simp [Except.map] at he
    · rw [if_neg hc] at he
      cases e : s.seekTo q.toNat with
      | error _ => rw [e] at he; simp [Except.map] at he
      | ok s1 =>
        rw [e] at he
        simp only [Except.map, Except.ok.injEq, Prod.mk.injEq] at he
        rw [← he.1]
        exact seekTo_m h hm _ e
  | flush =>
    simp only [File.step, Option.some.injEq, Prod.mk.injEq] at hf
    obtain ⟨e1, e2⟩ := hf
    subst e1
    simp only [BStream.step] at he
    cases e : s.flush with
    | error _ => rw [e] at he; simp [Except.map] at he
    | ok s1 =>
      rw [e] at he
      simp only [Except.map, Except.ok.injEq, Prod.mk.injEq] at he
      rw [← he.1]
      exact flush_m h hm e

theorem run_m : ∀ (ops : List BOp) (s : BStream) (f f' : File) (rs : List BRes), Inv s f.content → MInv s f.content → s.pos = f.pos →
    f.run s.bs s.r s.w ops = some (f', rs) →
    ∃ s', s.run ops = .ok (s', rs) ∧ Inv s' f'.content ∧ MInv s' f'.content := by
  intro ops
  induction ops with
  | nil =>
    intro s f f' rs h hm hp hf
    simp only [File.run, Option.some.injEq, Prod.mk.injEq] at hf
    obtain ⟨e1, e2⟩ := hf
    subst e1; subst e2
    exact ⟨s, rfl, h, hm⟩
  | cons o os ih =>
    intro s f f' rs h hm hp hf
    simp only [File.run, Option.bind_eq_some_iff, Option.map_eq_some_iff] at hf
    obtain ⟨⟨f1, r1⟩, hf1, ⟨⟨f2, r2⟩, hf2, e⟩⟩ := hf
    simp only [Prod.mk.injEq] at e hf2
    obtain ⟨e1, e2⟩ := e
    subst e1; subst e2
    obtain ⟨s1, a1, a2, a3, a4, a5, a6⟩ := step_inv h hp hf1
    have hm1 := step_m h hm hp hf1 a1
    rw [← a4, ← a5, ← a6] at hf2
    obtain ⟨s2, b1, b2, b3⟩ := ih s1 f1 f2 r2 a2 hm1 a3 hf2
    simp only [BStream.run, a1, b1]
    exact ⟨s2, rfl, b2, b3⟩

theorem open_m {bs : Nat} {content : Bytes} (blocks : List Bytes) (smd5 : Option Bytes) (m : Mode)
    (hm : m.w = true → m.a = false → content = []) (hs : smd5 = none ∨ smd5 = some content) :
    MInv (BStream.open bs content.length smd5 blocks m) content := by
  unfold BStream.open
  dsimp only
  by_cases ha : m.a = true
  · rw [if_pos ha]
    exact { run := by simp [BStream.setTop], saved := fun _ => hs }
  · rw [if_neg ha]
    by_cases hw : m.w = true
    · rw [if_pos hw]
      have hc := hm hw (by simpa using ha)
      subst hc
      refine { run := ?_, saved := fun _ => hs }
      intro m hmd
      simp only [BStream.setTop, Option.some.injEq] at hmd ⊢
      subst hmd
      exact ⟨.inl trivial, .inr ⟨by simp, by simp, by simp⟩⟩
    · rw [if_neg hw]
      exact { run := by simp [BStream.setTop], saved := fun _ => hs }

/-- **C48**: the digest stored with a stream is null or that of its content: if it was when the stream was opened, it is
after any calls and a flush. -/
theorem C48_digest (bs : Nat) (h0 : 0 < bs) (content : Bytes) (blocks : List Bytes) (hb : IsBlocksOf bs content blocks)
    (smd5 : Option Bytes) (hs : smd5 = none ∨ smd5 = some content) (m : Mode) (hm : m.w = true → m.a = false → content = [])
    (ops : List BOp) (f : File) (rs : List BRes)
    (hf : (File.open content m).run bs (m.r || m.plus) (m.w || m.plus) ops = some (f, rs)) :
    ∃ s s', (BStream.open bs content.length smd5 blocks m).run ops = .ok (s, rs) ∧ s.flush = .ok s' ∧
      (s'.smd5 = none ∨ s'.smd5 = some f.content) := by
  obtain ⟨hi, hp, q1, q2, q3⟩ := open_inv h0 hb smd5 m hm
  obtain ⟨s, e, hi2, hm2⟩ := run_m ops _ (File.open content m) f rs hi (open_m blocks smd5 m hm hs) hp (by rw [q1, q2, q3]; exact hf)
  obtain ⟨s', e2, hi3, hd, v⟩ := flush_inv hi2
  exact ⟨s, s', e, e2, (flush_m hi2 hm2 e2).saved hd⟩

/-! ### Sequential writes -/

/-- The state of a stream that was written sequentially. -/
structure SInv (s : BStream) (c : Bytes) : Prop where
  some : s.md5 ≠ none
  pos : s.pos = c.length
  dirty : s.dirty = true → s.bnum = s.md5num
  data : s.dirty = false → s.bdata = none ∧ s.bpos = 0

theorem flush_s {s s' : BStream} (h : s.md5 ≠ none) (hd : s.dirty = true → s.bnum = s.md5num)
    (he : s.flush = .ok s') : s'.md5 ≠ none ∧ (s.dirty = true → s'.smd5 = s'.md5) := by
  unfold BStream.flush at he
  split at he
  next hdd =>
    dsimp only at he
    split at he
    · split at he
      · simp only [Except.ok.injEq] at he
        subst he
        refine ⟨?_, fun _ => rfl⟩
        simp only [BStream.md5After]
        cases hm : s.md5 with
        | none => exact absurd hm h
        | some m => simp [hd hdd]
      · simp at he
    · simp only [Except.ok.injEq] at he
      subst he
      exact ⟨h, fun _ => rfl⟩
  next hdd =>
    simp only [Except.ok.injEq] at he
    subst he
    exact ⟨h, fun e => absurd e hdd⟩

theorem write_s {s : BStream} {c : Bytes} (h : Inv s c) (hm : MInv s c) (hs : SInv s c) (hw : s.w = true) (b : Bytes) :
    ∃ s' b', s.write b = .ok (s', b'.length) ∧ b' <+: b ∧ Inv s' (c ++ b') ∧ MInv s' (c ++ b') ∧ SInv s' (c ++ b') ∧ s'.w = true := by
  have hr : s.pos / s.bs ≤ c.length / s.bs := by rw [hs.pos]; exact Nat.le_refl _
  obtain ⟨s1, c1, d, s2, a1, a2, a3, a4, a5, a6, a7, a8, a13, a9, a10, a11, a12⟩ := write_parts h b hw hr
  obtain ⟨s2', w1, w2, w3, w4, w5, w6⟩ := write_inv h b hw hr
  have e22 : s2' = s2 := by rw [a12] at w1; simp only [Except.ok.injEq, Prod.mk.injEq] at w1; exact w1.1.symm
  subst e22
  have hput : put c s.pos (b.take (s.bs - s.pos % s.bs)) = c ++ b.take (s.bs - s.pos % s.bs) := by
    rw [hs.pos, put]
    simp [List.drop_eq_nil_of_le]
  have h1 := prepare_m h hm hr a1 a2 a3
  have h2 := put_m a2 h1 d a4 _ a9
  have h3 := (put_inv a2 a8 d a4 _ a9)
  have h4 := seekTo_m h3.1 h2 _ a10
  rw [a11] at h4
  rw [hput] at w2 h4
  refine ⟨s2', _, a12, List.take_prefix _ _, w2, h4, ?_, by rw [w6, hw]⟩
  -- the digest of the prepared stream
  have hmd1 : s1.md5 = s.md5 := by
    unfold BStream.prepare at a1
    split at a1
    · simp only [Except.ok.injEq] at a1; rw [a1]
    · split at a1
      · unfold BStream.newBlock at a1
        have hfm : ∀ k (s : BStream), (BStream.fillBlocks k s).md5 = s.md5 ∧ (BStream.fillBlocks k s).btop = s.btop := by
          intro k
          induction k with
          | zero => intro s; exact ⟨rfl, rfl⟩
          | succ k ih => intro s; simp only [BStream.fillBlocks]; split
                         · exact ⟨(ih _).1, (ih _).2⟩
                         · exact ⟨rfl, rfl⟩
        have hf := hfm s.bnum s
        generalize BStream.fillBlocks s.bnum s = t at a1 hf
        next ht =>
        have hfl : ({ t with bdata := some (List.replicate t.bs 0), dirty := true } : BStream).flush =
            .ok { t with bdata := some (List.replicate t.bs 0), dirty := false, ssize := t.size, smd5 := t.md5 } := by
          unfold BStream.flush
          simp [show t.btop = 0 by omega]
        dsimp only at a1
        rw [hfl] at a1
        simp only [Except.ok.injEq] at a1
        rw [← a1, ← hf.1]
        rfl
      · split at a1
        · simp at a1
        · simp only [Except.ok.injEq] at a1; rw [← a1]
  have hpm : (s1.put (b.take (s.bs - s.pos % s.bs))).md5 = s.md5 ∧ (s1.put (b.take (s.bs - s.pos % s.bs))).dirty = true ∧
      (s1.put (b.take (s.bs - s.pos % s.bs))).bnum = s1.bnum ∧
      (s1.put (b.take (s.bs - s.pos % s.bs))).md5num = s1.md5num := by
    unfold BStream.put
    dsimp only
    split <;> exact ⟨hmd1, rfl, rfl, rfl⟩
  -- the block written is the next one
  have hnum : s1.bnum = s1.md5num := by
    by_cases hd : s.dirty = true
    · have : s1 = s := by
        have := (h.dirty hd).1
        unfold BStream.prepare at a1
        split at a1
        · simp only [Except.ok.injEq] at a1; exact a1.symm
        · contradiction
      rw [this]
      exact hs.dirty hd
    · have hd : s.dirty = false := by simpa using hd
      obtain ⟨_, hb0⟩ := hs.data hd
      obtain ⟨m, hmm⟩ := Option.ne_none_iff_exists'.mp hs.some
      have hposn : s.pos = s.bnum * s.bs := by
        have : s.pos = s.bnum * s.bs + s.bpos := by
          rw [h.num, h.off, Nat.mul_comm]; exact (Nat.div_add_mod ..).symm
        omega
      have hc1 : c1 = c := by
        rcases a3 with e | e
        · exact e
        · rw [e, hs.pos]; simp
      have hle := (a2.data d a4).2.1
      have hlen : c1.length = s1.bnum * s1.bs := by rw [hc1, ← hs.pos, hposn, a13, a6]
      obtain ⟨k1, k2⟩ := h1.run m (by rw [hmd1, hmm])
      have hle2 : s1.md5num ≤ s1.bnum := pred_lt (bs := s1.bs) (by rw [← hlen]; exact k1)
      rcases k2 with ⟨_, k2, _⟩ | ⟨k2, k3, k4⟩
      · omega
      · by_cases hd1 : s1.dirty = true
        · exact (k3 hd1).1
        · have := k4 (by simpa using hd1)
          have := Nat.le_of_mul_le_mul_right (Nat.le_trans hle this) a2.bs0
          omega
  unfold BStream.seekTo at a10
  by_cases hne : (s1.pos + (b.take (s.bs - s.pos % s.bs)).length) / (s1.put (b.take (s.bs - s.pos % s.bs))).bs ≠
      (s1.put (b.take (s.bs - s.pos % s.bs))).bnum
  · rw [if_pos hne] at a10
    obtain ⟨s3, e3, hi3, hd3, v⟩ := flush_inv h3.1
    have hf := flush_s (by rw [hpm.1]; exact hs.some) (fun _ => by rw [hpm.2.2.1, hpm.2.2.2]; exact hnum) e3
    rw [e3] at a10
    simp only [Except.ok.injEq] at a10
    have hpos := w3
    refine { some := ?_, pos := by rw [w3, hs.pos, List.length_append], dirty := ?_, data := ?_ }
    · rw [← a10]; exact hf.1
    · rw [← a10]; simp [BStream.setTop, hd3]
    · intro _
      have hd2 : s2'.bdata = none := by rw [← a10]; rfl
      refine ⟨hd2, ?_⟩
      rw [w2.off, w3, w4]
      -- the block is full
      rw [h3.2.2.1, a6, hpm.2.2.1, a5] at hne
      have hpp : s.pos = s1.bnum * s.bs + s.bpos := by
        rw [a13, h.num, h.off, Nat.mul_comm]; exact (Nat.div_add_mod ..).symm
      have hbl : s.bpos < s.bs := by rw [h.off]; exact Nat.mod_lt _ h.bs0
      rw [a6, a7] at a9
      have hfull : (b.take (s.bs - s.pos % s.bs)).length = s.bs - s.bpos := by
        rcases Nat.lt_or_ge (b.take (s.bs - s.pos % s.bs)).length (s.bs - s.bpos) with hlt | hge
        · exfalso
          apply hne
          generalize (b.take (s.bs - s.pos % s.bs)).length = l at hlt ⊢
          rw [hpp, Nat.add_assoc, Nat.mul_comm, Nat.mul_add_div h.bs0, Nat.div_eq_of_lt (by omega)]
          omega
        · omega
      rw [hfull, show s.pos + (s.bs - s.bpos) = (s1.bnum + 1) * s.bs by rw [Nat.add_mul]; omega, Nat.mul_mod_left]
  · rw [if_neg hne] at a10
    simp only [Except.ok.injEq] at a10
    refine { some := ?_, pos := by rw [w3, hs.pos, List.length_append], dirty := ?_, data := ?_ }
    · rw [← a10]; simp only [BStream.setTop]; rw [hpm.1]; exact hs.some
    · intro _
      rw [← a10]
      simp only [BStream.setTop]
      rw [hpm.2.2.1, hpm.2.2.2]
      exact hnum
    · rw [← a10]; simp [BStream.setTop, hpm.2.1]

/-- **C48** (sequential writes): a new stream written from the start to the end, in parts of any sizes, has the digest
of its content. -/
theorem C48_sequential (bs : Nat) (h0 : 0 < bs) (m : Mode) (hw : m.w = true) (ha : m.a = false) (bbs : List Bytes) :
    ∃ s ns s' c, (BStream.open bs 0 (some []) [] m).run (bbs.map .write) = .ok (s, ns.map .count) ∧ s.flush = .ok s' ∧
      c = (List.zipWith List.take ns bbs).flatten ∧ s'.smd5 = some c ∧ IsBlocksOf bs c (s'.blocks.filterMap id) := by
  have key : ∀ (bbs : List Bytes) (s : BStream) (c : Bytes), Inv s c → MInv s c → SInv s c → s.w = true → s.bs = bs →
      (s.dirty = false → s.smd5 = some c) →
      ∃ s' ns c', s.run (bbs.map .write) = .ok (s', ns.map .count) ∧ c' = c ++ (List.zipWith List.take ns bbs).flatten ∧ Inv s' c' ∧ MInv s' c' ∧ SInv s' c' ∧ s'.bs = bs ∧
        (s'.dirty = false → s'.smd5 = some c') := by
    intro bbs
    induction bbs with
    | nil => intro s c h1 h2 h3 h4 h5 h6; exact ⟨s, [], c, rfl, by simp, h1, h2, h3, h5, h6⟩
    | cons b bbs ih =>
      intro s c h1 h2 h3 h4 h5 h6
      obtain ⟨s1, b', e, hpre, i1, i2, i3, i4⟩ := write_s h1 h2 h3 h4 b
      have hbs1 : s1.bs = bs := by
        obtain ⟨s2, w1, _, _, w4, _⟩ := write_inv h1 b h4 (by rw [h3.pos]; exact Nat.le_refl _)
        rw [e] at w1
        simp only [Except.ok.injEq, Prod.mk.injEq] at w1
        rw [w1.1, w4, h5]
      have hsv : s1.dirty = false → s1.smd5 = some (c ++ b') := by
        intro hd
        rcases i2.saved hd with e0 | e0
        · exfalso
          -- the last flush stored the running digest
          obtain ⟨s1', c1, d, s2, a1, a2, a3, a4, a5, a6, a7, a8, a13, a9, a10, a11, a12⟩ :=
            write_parts h1 b h4 (by rw [h3.pos]; exact Nat.le_refl _)
          rw [e] at a12
          simp only [Except.ok.injEq, Prod.mk.injEq] at a12
          have hpd : (s1'.put (b.take (s.bs - s.pos % s.bs))).dirty = true := by
            unfold BStream.put
            dsimp only
            split <;> rfl
          unfold BStream.seekTo at a10
          split at a10
          · split at a10
            · simp at a10
            next s3 e3 =>
              simp only [Except.ok.injEq] at a10
              rw [← a12.1] at a10
              have hsm : s3.smd5 = s3.md5 := by
                unfold BStream.flush at e3
                rw [if_pos hpd] at e3
                dsimp only at e3
                split at e3
                · split at e3
                  · simp only [Except.ok.injEq] at e3; rw [← e3]
                  · simp at e3
                · simp only [Except.ok.injEq] at e3; rw [← e3]
              have h7 : s1.smd5 = s3.smd5 := by rw [← a10]; rfl
              have h8 : s1.md5 = s3.md5 := by rw [← a10]; rfl
              exact i3.some (by rw [h8, ← hsm, ← h7, e0])
          · simp only [Except.ok.injEq] at a10
            rw [← a12.1] at a10
            have : s1.dirty = true := by rw [← a10]; exact hpd
            rw [hd] at this
            simp at this
        · exact e0
      obtain ⟨s2, ns, c', e2, j0, j⟩ := ih s1 _ i1 i2 i3 i4 hbs1 hsv
      refine ⟨s2, b'.length :: ns, c', ?_, ?_, j⟩
      rotate_left
      · rw [j0, List.zipWith_cons_cons, List.flatten_cons, List.append_assoc, ← List.prefix_iff_eq_take.mp hpre]
      simp only [List.map_cons, BStream.run, BStream.step, e, Except.map, e2]
  have hb : IsBlocksOf bs [] [] := ⟨rfl, by simp, by simp⟩
  obtain ⟨hi, hp, q1, q2, q3⟩ := open_inv h0 hb (some []) m (by simp)
  have hs0 : SInv (BStream.open bs 0 (some []) [] m) [] := by
    unfold BStream.open
    simp only [ha, hw]
    exact { some := by simp [BStream.setTop], pos := rfl, dirty := by simp [BStream.setTop], data := by simp [BStream.setTop] }
  have hsm0 : (BStream.open bs 0 (some []) [] m).smd5 = some [] := by
    unfold BStream.open
    simp only [ha, hw]
    rfl
  obtain ⟨s, rs, c, e, ec, i1, i2, i3, i4, i5⟩ := key bbs _ [] hi (open_m [] (some []) m (by simp) (.inr rfl)) hs0
    (by rw [q3, hw]; rfl) q1 (fun _ => hsm0)
  obtain ⟨s', e2, hi3, hd, v⟩ := flush_inv i1
  refine ⟨s, rs, s', c, e, e2, by simpa using ec, ?_, ?_⟩
  · have hf := flush_s i3.some i3.dirty e2
    rcases (flush_m i1 i2 e2).saved hd with e0 | e0
    · exfalso
      by_cases hdd : s.dirty = true
      · rw [hf.2 hdd] at e0; exact hf.1 e0
      · have : s' = s := by
          unfold BStream.flush at e2
          rw [if_neg hdd] at e2
          simp only [Except.ok.injEq] at e2
          exact e2.symm
        rw [this, i5 (by simpa using hdd)] at e0
        simp at e0
    · exact e0
  · have hbs : s'.bs = bs := by rw [v.1, i4]
    refine isBlocksOf h0 s'.blocks c (fun k hk => ?_) fun k d hk => ?_
    · have := hi3.stored k (by rw [hbs]; exact hk) (by simp [hd])
      rwa [hbs] at this
    · exact hi3.unstored k d (by rw [hbs]; exact hk)

/-- A digest that is null: a block written again. -/
example : ((BStream.open 2 0 (some []) [] { w := true, plus := true }).run
    [.write [1, 2, 3], .write [3], .flush, .seek 0 0, .write [9], .flush]).toOption.map (fun p => (p.1.smd5, p.1.blocks, p.2)) =
    some (none, [some [9, 2], some [3]], [.count 2, .count 1, .unit, .unit, .count 1, .unit]) := by decide +kernel
/-- A digest that is not. -/
example : ((BStream.open 2 0 (some []) [] { w := true, plus := true }).run
    [.write [1, 2, 3], .write [3], .flush]).toOption.map (fun p => (p.1.smd5, p.1.blocks)) =
    some (some [1, 2, 3], [some [1, 2], some [3]]) := by decide +kernel

end Verif.Blocks

import Verif.Form.Pick

/-! Steps 4 and 5 of the selection: the arrangement. -/

namespace Verif.Form

theorem selects_get (get : Id → Option Info) (l : List SPart) (i : Nat) :
    (selects get l)[i]? = (l[i]?).map (fun p => (p.info, select get p)) := by
  induction l generalizing i with
  | nil => simp [selects]
  | cons p ps ih => cases i with
    | zero => simp [selects]
    | succ i => simpa [selects] using ih i

theorem legals_get (t : Test) (l : List SPart) (i : Nat) :
    (legals t l)[i]? = (l[i]?).map (fun p => (p.info, legal t p)) := by
  induction l generalizing i with
  | nil => simp [legals]
  | cons p ps ih => cases i with
    | zero => simp [legals]
    | succ i => simpa [legals] using ih i

theorem selects_infos (get : Id → Option Info) (l : List SPart) :
    (selects get l).map Prod.fst = l.map SPart.info := by
  induction l with
  | nil => rfl
  | cons p ps ih => simp [selects, ih]

theorem legals_infos (t : Test) (l : List SPart) :
    (legals t l).map Prod.fst = l.map SPart.info := by
  induction l with
  | nil => rfl
  | cons p ps ih => simp [legals, ih]

theorem get_mem {t : Test} {x : Id} {i : Info} (h : t.get x = some i) : i ∈ t.all ∧ i.id = x := by
  unfold Test.get at h
  exact ⟨List.mem_of_find?_eq_some h, by simpa using List.find?_some h⟩

theorem addGrand_spec (get : Id → Option Info) : ∀ g acc r, addGrand get g acc = .ok r →
    ∃ ids, g = ids.map some ∧ r = acc ++ ids := by
  intro g
  induction g with
  | nil => intro acc r h; simp only [addGrand, Except.ok.injEq] at h; exact ⟨[], rfl, by simp [h]⟩
  | cons x g ih =>
    intro acc r h
    cases x with
    | none => cases h
    | some y =>
      unfold addGrand at h
      split at h
      · cases h
      · split at h
        · cases h
        · obtain ⟨ids, e1, e2⟩ := ih _ _ h
          exact ⟨y :: ids, by simp [e1], by simp [e2]⟩

/-- A row after step 4: a slot, or a child in its place. -/
def RowPre (t : Test) (shuffle expand : Bool) (ch : List SPart) (r : Row) : Prop :=
  r.placed = [] ∧ ∃ p, ch[r.pick]? = some p ∧
    (shuffle = true ∧ p.info.fixed = false →
      r.block = [none] ∧ r.offered ≠ [] ∧
      (p.info.mixed → legal t p false (r.offered.map some)) ∧
      (¬ p.info.mixed → r.offered = [p.info.id])) ∧
    (¬ (shuffle = true ∧ p.info.fixed = false) →
      r.offered = [] ∧ none ∉ r.block ∧ Block expand (p.info, legal t p) r.block)

theorem flatMap_block_ne {rows : List Row} (h : ∀ r ∈ rows, r.block ≠ []) :
    rows.length ≤ (rows.flatMap Row.block).length := by
  induction rows with
  | nil => simp
  | cons r rows ih =>
    have := ih (fun r hr => h r (List.mem_cons_of_mem _ hr))
    have h0 := List.length_pos_iff.2 (h r (by simp))
    simp only [List.flatMap_cons, List.length_append, List.length_cons]
    omega

/-- A legal arrangement of a section that picks children is not empty. -/
theorem legal_ne {t : Test} {p : SPart} (hh : p.NoHollow) (hm : p.info.mixed) {b : List Comp}
    (h : legal t p false b) : b ≠ [] := by
  cases p with
  | item i => exact absurd h (by simp [legal])
  | sect i sel sh ch =>
    simp only [legal] at h
    obtain ⟨rows, hp, hl, -, hr⟩ := h
    simp only [SPart.NoHollow] at hh
    have hps := hh.1 ⟨hm.2.1, hm.2.2⟩
    have hlen : 0 < rows.length := by
      have h3 := hp.2.2.2
      unfold picksSome at hps
      cases sel with
      | none =>
        simp only at h3 hps
        have := congrArg List.length h3
        simp only [List.length_map, List.length_range] at this
        have h4 := congrArg List.length (legals_infos t ch)
        simp only [List.length_map] at h4
        omega
      | some x =>
        simp only at h3 hps
        have := hps _ h3.1
        simp only [List.length_map] at this
        omega
    intro hb
    have : rows.length ≤ (rows.flatMap Row.block).length := by
      apply flatMap_block_ne
      intro r hr'
      obtain ⟨c, -, h1, h2⟩ := hr r hr'
      by_cases hc : sh = true ∧ c.1.fixed = false
      · have := h1 hc; intro e
        rw [e] at this
        have h5 := this.2.1
        exact this.1 (List.map_eq_nil_iff.1 h5.symm)
      · have := (h2 hc).2.2
        unfold Block at this
        split at this
        · obtain ⟨_, _, e⟩ := this; simp [e]
        · simp [this]
    rw [← hl, hb, List.length_nil] at this
    omega

/-- What the recursive calls give. -/
def SubOk (t : Test) (p : SPart) : Prop :=
  ∀ ex s b s', select t.get p ex s = .ok (b, s') → legal t p ex b ∧ none ∉ b

theorem place_rows (t : Test) (shuffle expand : Bool) (ch : List SPart)
    (hsub : ∀ p ∈ ch, SubOk t p) (hh : ∀ p ∈ ch, p.NoHollow) :
    ∀ is new shuf s new' shuf' s',
    place t.get shuffle expand (selects t.get ch) is new shuf s = .ok (new', shuf', s') →
    ∃ rows : List Row, rows.map Row.pick = is ∧ new' = new ++ rows.flatMap Row.block ∧
      shuf' = shuf ++ rows.flatMap Row.offered ∧ ∀ r ∈ rows, RowPre t shuffle expand ch r := by
  intro is
  induction is with
  | nil =>
    intro new shuf s new' shuf' s' h
    simp only [place, Except.ok.injEq, Prod.mk.injEq] at h
    exact ⟨[], rfl, by simp [h.1], by simp [h.2.1], by simp⟩
  | cons i is ih =>
    intro new shuf s new' shuf' s' h
    unfold place at h
    rw [selects_get] at h
    cases hi : ch[i]? with
    | none => rw [hi] at h; cases h
    | some p =>
      rw [hi] at h
      simp only [Option.map_some] at h
      have hpm : p ∈ ch := List.mem_of_getElem? hi
      -- how to add a row
      have add : ∀ (blk : List Comp) (off : List Id) s0,
          RowPre t shuffle expand ch ⟨i, blk, off, []⟩ →
          place t.get shuffle expand (selects t.get ch) is (new ++ blk) (shuf ++ off) s0 =
            .ok (new', shuf', s') →
          ∃ rows : List Row, rows.map Row.pick = i :: is ∧
            new' = new ++ rows.flatMap Row.block ∧ shuf' = shuf ++ rows.flatMap Row.offered ∧
            ∀ r ∈ rows, RowPre t shuffle expand ch r := by
        intro blk off s0 hr h0
        obtain ⟨rows, e1, e2, e3, e4⟩ := ih _ _ _ _ _ _ h0
        refine ⟨⟨i, blk, off, []⟩ :: rows, by simp [e1], by simp [e2], by simp [e3], ?_⟩
        intro r hr'
        rcases List.mem_cons.1 hr' with e | e
        · exact e ▸ hr
        · exact e4 r e
      split at h
      · rename_i hc
        split at h
        · rename_i hm
          split at h
          · cases h
          · rename_i g s0 hg
            split at h
            · cases h
            · rename_i shuf0 hg2
              obtain ⟨ids, e1, e2⟩ := addGrand_spec _ _ _ _ hg2
              subst e2
              have hleg := (hsub p hpm _ _ _ _ hg).1
              refine add [none] ids s0 ⟨rfl, p, hi, fun _ => ⟨rfl, ?_, fun _ => e1 ▸ hleg, ?_⟩, fun h => absurd hc h⟩ h
              · have := legal_ne (hh p hpm) hm hleg
                intro e; simp only at e; subst e; exact this (by simp [e1])
              · intro hn; exact absurd hm hn
        · rename_i hm
          exact add [none] [p.info.id] s ⟨rfl, p, hi, fun _ => ⟨rfl, by simp, fun h => absurd h hm, fun _ => rfl⟩,
            fun h => absurd hc h⟩ h
      · rename_i hc
        split at h
        · rename_i hx
          split at h
          · cases h
          · rename_i b s0 hb
            have hleg := hsub p hpm _ _ _ _ hb
            refine add ([some p.info.id] ++ b ++ [some (45 :: p.info.id)]) [] s0
              ⟨rfl, p, hi, fun h => absurd h hc, fun _ => ⟨rfl, ?_, ?_⟩⟩ (by simpa using h)
            · simp [hleg.2]
            · unfold Block
              rw [if_pos hx]
              exact ⟨b, hleg.1, by simp⟩
        · rename_i hx
          refine add [some p.info.id] [] s
              ⟨rfl, p, hi, fun h => absurd h hc, fun _ => ⟨rfl, by simp, ?_⟩⟩ (by simpa using h)
          unfold Block
          rw [if_neg hx]

theorem eraseIdx_perm {l : List Id} {i : Nat} (h : i < l.length) :
    (l.getD i [] :: l.eraseIdx i).Perm l := by
  induction l generalizing i with
  | nil => simp at h
  | cons x l ih =>
    cases i with
    | zero => simp
    | succ i =>
      simp only [List.length_cons] at h
      have := ih (i := i) (by omega)
      simp only [List.getD_cons_succ, List.eraseIdx_cons_succ]
      exact (List.Perm.swap x _ _).trans (this.cons x)

theorem shuffleList_perm : ∀ n l s, l.length = n → (shuffleList n l s).1.Perm l := by
  intro n
  induction n with
  | zero => intro l s h; rw [List.length_eq_zero_iff.1 h]; exact .refl _
  | succ n ih =>
    intro l s h
    unfold shuffleList
    dsimp only
    have hlt : draw l.length s < l.length := draw_lt (by omega) s
    have := ih (l.eraseIdx (draw l.length s)) (next s)
      (by rw [List.length_eraseIdx_of_lt hlt]; omega)
    exact (this.cons _).trans (eraseIdx_perm hlt)

theorem mkBuckets_spec : ∀ sel xs b rest, mkBuckets sel xs = .ok (b, rest) →
    b.length = sel.count none ∧ b.flatten ++ rest = xs ∧ ∀ x ∈ b, x ≠ [] := by
  intro sel
  induction sel with
  | nil =>
    intro xs b rest h
    simp only [mkBuckets, Except.ok.injEq, Prod.mk.injEq] at h
    obtain ⟨rfl, rfl⟩ := h; simp
  | cons c sel ih =>
    intro xs b rest h
    cases c with
    | some y =>
      have := ih xs b rest h
      rw [List.count_cons_of_ne (by simp)]
      exact this
    | none =>
      cases xs with
      | nil => cases h
      | cons x xs =>
        unfold mkBuckets at h
        split at h
        · cases h
        · rename_i b0 r0 h0
          simp only [Except.ok.injEq, Prod.mk.injEq] at h
          obtain ⟨rfl, rfl⟩ := h
          obtain ⟨e1, e2, e3⟩ := ih _ _ _ h0
          refine ⟨by simp [e1], by simp [e2], ?_⟩
          intro z hz
          rcases List.mem_cons.1 hz with e | e
          · simp [e]
          · exact e3 z e

theorem modify_flatten_perm (x : Id) : ∀ (b : List (List Id)) (i : Nat), i < b.length →
    (b.modify i (· ++ [x])).flatten.Perm (b.flatten ++ [x]) := by
  intro b
  induction b with
  | nil => intro i h; simp at h
  | cons y b ih =>
    intro i h
    cases i with
    | zero =>
      rw [List.modify_zero_cons]
      simp only [List.flatten_cons, List.append_assoc]
      exact (List.perm_append_comm).append_left y
    | succ i =>
      rw [List.modify_succ_cons]
      simp only [List.flatten_cons, List.append_assoc]
      simp only [List.length_cons] at h
      exact (ih i (by omega)).append_left y

theorem spread_spec : ∀ r b s b' s', spread r b s = .ok (b', s') → (∀ x ∈ b, x ≠ []) →
    b'.length = b.length ∧ b'.flatten.Perm (b.flatten ++ r) ∧ ∀ x ∈ b', x ≠ [] := by
  intro r
  induction r with
  | nil =>
    intro b s b' s' h hn
    simp only [spread, Except.ok.injEq, Prod.mk.injEq] at h
    obtain ⟨rfl, rfl⟩ := h
    simpa using hn
  | cons x r ih =>
    intro b s b' s' h hn
    unfold spread at h
    split at h
    · cases h
    · rename_i hb
      have hlt : draw b.length s < b.length := draw_lt (List.length_pos_iff.2 hb) s
      obtain ⟨e1, e2, e3⟩ := ih _ _ _ _ h (by
        intro z hz
        rw [List.mem_iff_getElem?] at hz
        obtain ⟨j, hj⟩ := hz
        rw [List.getElem?_modify] at hj
        cases hbj : b[j]? with
        | none => rw [hbj] at hj; cases hj
        | some w =>
          rw [hbj] at hj
          have hw := hn w (List.mem_of_getElem? hbj)
          simp only [Option.map_eq_map, Option.map_some, Option.some.injEq] at hj
          split at hj <;> (rw [← hj]; simp [hw]))
      refine ⟨by rw [e1, List.length_modify], ?_, e3⟩
      refine e2.trans ?_
      have := (modify_flatten_perm x b _ hlt).append_right r
      simpa using this

theorem newBucket_spec (t : Test) : ∀ b l, newBucket t.get b = .ok l → l = b.map some ∧
    ∀ x ∈ b, ∃ i ∈ t.all, i.id = x ∧ i.isSect = false := by
  intro b
  induction b with
  | nil => intro l h; simp only [newBucket, Except.ok.injEq] at h; simp [← h]
  | cons x b ih =>
    intro l h
    unfold newBucket at h
    split at h
    · cases h
    · rename_i i hi
      split at h
      · cases h
      · rename_i hs
        split at h
        · cases h
        · rename_i l0 hl0
          simp only [Except.ok.injEq] at h
          obtain ⟨e1, e2⟩ := ih _ hl0
          refine ⟨by simp [← h, e1], ?_⟩
          intro z hz
          rcases List.mem_cons.1 hz with e | e
          · subst e; exact ⟨i, (get_mem hi).1, (get_mem hi).2, by simpa using hs⟩
          · exact e2 z e

theorem replaceNone_spec (b post : List Comp) : ∀ pre, none ∉ pre →
    replaceNone b (pre ++ none :: post) = .ok (pre ++ b ++ post) := by
  intro pre
  induction pre with
  | nil => intro _; rfl
  | cons x pre ih =>
    intro h
    cases x with
    | none => simp at h
    | some y =>
      simp only [List.mem_cons, reduceCtorEq, false_or] at h
      simp only [List.cons_append, replaceNone]
      rw [ih h]

theorem splice_rows (t : Test) (shuffle expand : Bool) (ch : List SPart) :
    ∀ (rows : List Row) (bs : List (List Id)) (pre l : List Comp),
    (∀ r ∈ rows, RowPre t shuffle expand ch r) → none ∉ pre →
    bs.length = (rows.flatMap Row.block).count none → (∀ b ∈ bs, b ≠ []) →
    splice t.get bs (pre ++ rows.flatMap Row.block) = .ok l →
    ∃ rows' : List Row, rows'.map Row.pick = rows.map Row.pick ∧
      rows'.flatMap Row.offered = rows.flatMap Row.offered ∧
      rows'.flatMap Row.placed = bs.flatten ∧ l = pre ++ rows'.flatMap Row.block ∧
      none ∉ rows'.flatMap Row.block ∧
      ∀ r' ∈ rows', ∃ r ∈ rows, r'.pick = r.pick ∧ r'.offered = r.offered ∧
        (r.block = [none] → r'.placed ≠ [] ∧ r'.block = r'.placed.map some ∧
          ∀ x ∈ r'.placed, ∃ i ∈ t.all, i.id = x ∧ i.isSect = false) ∧
        (none ∉ r.block → r'.block = r.block ∧ r'.placed = []) := by
  intro rows
  induction rows with
  | nil =>
    intro bs pre l _ _ hlen _ h
    have : bs = [] := List.length_eq_zero_iff.1 (by simpa using hlen)
    subst this
    simp only [splice, Except.ok.injEq] at h
    exact ⟨[], rfl, rfl, rfl, by simpa using h.symm, by simp, by simp⟩
  | cons r rows ih =>
    intro bs pre l hr hpre hlen hne h
    have hr0 := hr r (by simp)
    have hrs : ∀ r ∈ rows, RowPre t shuffle expand ch r := fun r h => hr r (List.mem_cons_of_mem _ h)
    obtain ⟨hpl, p, hp, h1, h2⟩ := hr0
    rw [List.flatMap_cons] at h hlen
    by_cases hc : shuffle = true ∧ p.info.fixed = false
    · have hb := (h1 hc).1
      rw [hb] at h hlen
      cases bs with
      | nil => simp at hlen
      | cons b bs =>
        unfold splice at h
        split at h
        · cases h
        · rename_i nb hnb
          obtain ⟨e1, e2⟩ := newBucket_spec t _ _ hnb
          rw [List.singleton_append, replaceNone_spec _ _ _ hpre] at h
          have hnn : none ∉ nb := by rw [e1]; simp
          obtain ⟨rows', a1, a2, a3, a4, a5, a6⟩ := ih bs (pre ++ nb) l hrs
            (by simp [hpre, hnn]) (by simpa using hlen)
            (fun z hz => hne z (List.mem_cons_of_mem _ hz)) h
          refine ⟨⟨r.pick, nb, r.offered, b⟩ :: rows', by simp [a1], by simp [a2], by simp [a3],
            by simp [a4], by simp only [List.flatMap_cons, List.mem_append]; tauto, ?_⟩
          intro r' hr'
          rcases List.mem_cons.1 hr' with e | e
          · subst e
            refine ⟨r, by simp, rfl, rfl, fun _ => ⟨hne b (by simp), e1, e2⟩, ?_⟩
            intro hn; rw [hb] at hn; simp at hn
          · obtain ⟨r0, m0, rest⟩ := a6 r' e
            exact ⟨r0, List.mem_cons_of_mem _ m0, rest⟩
    · have hb := (h2 hc).2.1
      rw [← List.append_assoc] at h
      rw [List.count_append, List.count_eq_zero.2 hb, Nat.zero_add] at hlen
      obtain ⟨rows', a1, a2, a3, a4, a5, a6⟩ := ih bs (pre ++ r.block) l hrs
            (by simp [hpre, hb]) hlen hne h
      refine ⟨r :: rows', by simp [a1], by simp [a2], by simp [a3, hpl],
            by simp [a4], by simp only [List.flatMap_cons, List.mem_append]; tauto, ?_⟩
      intro r' hr'
      rcases List.mem_cons.1 hr' with e | e
      · subst e
        refine ⟨r', by simp, rfl, rfl, ?_, fun _ => ⟨rfl, hpl⟩⟩
        intro hn; rw [hn] at hb; simp at hb
      · obtain ⟨r0, m0, rest⟩ := a6 r' e
        exact ⟨r0, List.mem_cons_of_mem _ m0, rest⟩

/-- Whatever the random numbers, a selection that succeeds is legal. -/
theorem selectBody_legal (t : Test) (sel : Option Sel) (shuffle : Bool) (ch : List SPart)
    (hsub : ∀ p ∈ ch, SubOk t p) (hh : ∀ p ∈ ch, p.NoHollow) (expand : Bool) (s s' : Src)
    (l : List Comp)
    (h : selectBody t.get sel shuffle (selects t.get ch) expand s = .ok (l, s')) :
    legalBody t sel shuffle (legals t ch) expand l ∧ none ∉ l := by
  unfold selectBody at h
  dsimp only at h
  rw [selects_infos] at h
  split at h
  · cases h
  · rename_i tg repl ht
    split at h
    · cases h
    · rename_i hreq
      split at h
      · cases h
      · rename_i picks s0 htop
        have hpk := picks_ok ht hreq htop
        split at h
        · cases h
        · rename_i new shuf s1 hpl
          obtain ⟨rows, e1, e2, e3, e4⟩ := place_rows t shuffle expand ch hsub hh _ _ _ _ _ _ _ hpl
          rw [List.nil_append] at e2 e3
          rw [← e1] at hpk
          unfold step5 at h
          split at h
          · rename_i hs
            simp only [Except.ok.injEq, Prod.mk.injEq] at h
            obtain ⟨rfl, -⟩ := h
            -- nothing to shuffle: there are no slots
            have hno : ∀ r ∈ rows, r.offered = [] := by
              intro r hr
              rw [hs] at e3
              exact List.flatMap_eq_nil_iff.1 e3.symm r hr
            have hcond : ∀ r ∈ rows, ∃ p, ch[r.pick]? = some p ∧
                ¬ (shuffle = true ∧ p.info.fixed = false) ∧ none ∉ r.block ∧
                Block expand (p.info, legal t p) r.block := by
              intro r hr
              obtain ⟨-, p, hp, g1, g2⟩ := e4 r hr
              by_cases hc : shuffle = true ∧ p.info.fixed = false
              · exact absurd (hno r hr) (g1 hc).2.1
              · exact ⟨p, hp, hc, (g2 hc).2⟩
            refine ⟨⟨rows, by rw [legals_infos]; exact hpk, e2, ?_, ?_⟩, ?_⟩
            · have a : rows.flatMap Row.offered = [] := List.flatMap_eq_nil_iff.2 hno
              have b : rows.flatMap Row.placed = [] :=
                List.flatMap_eq_nil_iff.2 (fun r hr => (e4 r hr).1)
              rw [a, b]
            · intro r hr
              obtain ⟨p, hp, hc, -, hb⟩ := hcond r hr
              refine ⟨(p.info, legal t p), by rw [legals_get, hp]; rfl, fun h => absurd h hc, ?_⟩
              intro _
              exact ⟨(e4 r hr).1, hno r hr, hb⟩
            · rw [e2]
              intro hm
              obtain ⟨r, hr, hm⟩ := List.mem_flatMap.1 hm
              obtain ⟨p, hp, hc, hb, -⟩ := hcond r hr
              exact hb hm
          · dsimp only at h
            have hperm := shuffleList_perm shuf.length shuf s1 rfl
            split at h
            · cases h
            · rename_i b rest hmk
              obtain ⟨b1, b2, b3⟩ := mkBuckets_spec _ _ _ _ hmk
              split at h
              · cases h
              · rename_i bs s2 hsp
                obtain ⟨c1, c2, c3⟩ := spread_spec _ _ _ _ _ hsp b3
                split at h
                · cases h
                · rename_i l0 hspl
                  simp only [Except.ok.injEq, Prod.mk.injEq] at h
                  obtain ⟨rfl, -⟩ := h
                  rw [e2] at hspl b1
                  obtain ⟨rows', a1, a2, a3, a4, a5, a6⟩ := splice_rows t shuffle expand ch rows bs
                    [] l0 e4 (by simp) (by rw [c1, b1]) c3 (by simpa using hspl)
                  rw [List.nil_append] at a4
                  refine ⟨⟨rows', by rw [legals_infos, a1]; exact hpk, a4, ?_, ?_⟩, ?_⟩
                  · rw [a3, a2, ← e3]
                    rw [b2] at c2
                    exact c2.trans hperm
                  · intro r' hr'
                    obtain ⟨r, hr, g1, g2, g3, g4⟩ := a6 r' hr'
                    obtain ⟨-, p, hp, k1, k2⟩ := e4 r hr
                    refine ⟨(p.info, legal t p), by rw [g1, legals_get, hp]; rfl, ?_, ?_⟩
                    · intro hc
                      obtain ⟨q1, q2, q3, q4⟩ := k1 hc
                      obtain ⟨w1, w2, w3⟩ := g3 q1
                      exact ⟨w1, w2, w3, by rw [g2]; exact q3, by rw [g2]; exact q4⟩
                    · intro hc
                      obtain ⟨q1, q2, q3⟩ := k2 hc
                      obtain ⟨w1, w2⟩ := g4 q2
                      exact ⟨w2, by rw [g2, q1], by rw [w1]; exact q3⟩
                  · rw [a4]; exact a5

theorem noHollow_mem {ps : List SPart} (h : noHollowL ps) : ∀ p ∈ ps, p.NoHollow := by
  induction ps with
  | nil => intro p hp; cases hp
  | cons q ps ih =>
    simp only [noHollowL] at h
    intro p hp
    rcases List.mem_cons.1 hp with e | e
    · exact e ▸ h.1
    · exact ih h.2 p e

mutual
/-- Every selection that succeeds is legal and has no free slots. -/
theorem select_legal (t : Test) : ∀ (p : SPart), p.NoHollow → SubOk t p
  | .item _, _ => by intro ex s b s' h; simp [select] at h
  | .sect i sel sh ch, hh => by
    intro ex s b s' h
    simp only [select] at h
    simp only [SPart.NoHollow] at hh
    simp only [legal]
    exact selectBody_legal t sel sh ch (selects_legal t ch hh.2) (noHollow_mem hh.2) ex s s' b h
/-- The same for the members of a list. -/
theorem selects_legal (t : Test) : ∀ (ps : List SPart), noHollowL ps → ∀ p ∈ ps, SubOk t p
  | [], _ => by intro p hp; cases hp
  | q :: ps, h => by
    simp only [noHollowL] at h
    intro p hp
    rcases List.mem_cons.1 hp with e | e
    · exact e ▸ select_legal t q h.1
    · exact selects_legal t ps h.2 p e
end

end Verif.Form

import Verif.Qti.C97
/-
C97, continued: submissions, outcomes of non-adaptive items, histories.
-/
namespace Verif.Qti

/-! ## Specification -/

/-- The conversion of texts gives data of the base type. -/
def ParseOk (parse : BaseType → Str → R (Option Datum)) : Prop :=
  ∀ bt s d, parse bt s = .ok (some d) → d.ok bt

/-- The response that a parameter is for, and the number of parts of its name. -/
def paramName (pfx p : Str) : Option (Str × Nat) :=
  if pfx ≠ [] ∧ ¬ pfx <+: p then none else some (splitDot (p.drop pfx.length))

/-- The parameters for a response. -/
def paramsFor (pfx n : Str) (ps : List (Str × Sub)) : List (Nat × Sub) :=
  ps.filterMap fun p =>
    match paramName pfx p.1 with
    | some (m, k) => if m = n then some (k, p.2) else none
    | none => none

/-! ## Lemmas -/

theorem dget_none_keys {α β : Type} [DecidableEq α] {k : α} : ∀ {m : List (α × β)},
    dget k m = none ↔ k ∉ m.map (·.1)
  | [] => by simp [dget]
  | (a, b) :: l => by
    simp only [dget, List.map_cons, List.mem_cons, not_or]
    by_cases h : a = k
    · subst h; simp
    · rw [if_neg h, dget_none_keys (m := l)]
      exact ⟨fun h' => ⟨fun e => h e.symm, h'⟩, fun h' => h'.2⟩

theorem keeps_sess {it : Item} {P : Str → Prop} {st st' : State} (hs : Sess it st) (h : Keeps P st st')
    (hw : st'.wf) : Sess it st' := by
  have fits : ∀ (d : Decl) (k : Str) (v : Val), dget k st.map = some v → Fits d v →
      ∃ v', dget k st'.map = some v' ∧ Fits d v' := by
    intro d k v hv hf
    obtain ⟨v', h1, h2, h3⟩ := h.shape k v hv
    exact ⟨v', h1, hw k v' h1, h2.trans hf.2.1, h3.trans hf.2.2⟩
  refine ⟨h.decls.trans hs.decls, h.keys ▸ hs.keys, ?_, ?_, ?_, ?_, ?_, hw⟩
  · intro p hp
    obtain ⟨v, hv, hf⟩ := hs.val p hp
    exact fits _ _ v hv hf
  · intro p hp hk
    obtain ⟨v, hv, hf⟩ := hs.dflt p hp hk
    exact fits _ _ v hv hf
  · intro p hp hk
    obtain ⟨v, hv, hf⟩ := hs.correct p hp hk
    exact fits _ _ v hv hf
  · intro p hp v hv
    cases ho : dget (p.1 ++ sufSaved) st.map with
    | none =>
      rw [dget_none_keys, ← h.keys, ← dget_none_keys] at ho
      rw [ho] at hv; cases hv
    | some v0 =>
      obtain ⟨v', h1, hf⟩ := fits p.2 _ v0 ho (hs.saved p hp v0 ho)
      rw [h1] at hv; cases hv; exact hf
  · obtain ⟨o, ho⟩ := hs.numAttempts
    obtain ⟨v', h1, h2, h3⟩ := h.shape _ _ ho
    cases v' <;> simp [Val.card] at h2
    simp only [Val.bt] at h3
    subst h3
    exact ⟨_, h1⟩

/-- Response and template processing keep the session in order. -/
theorem process_sess {it : Item} {st : State} (hs : Sess it st) (rs : Rules) (hl : rs.lits) :
    Sess it (process rs st).1 := by
  rw [process_fst]
  exact keeps_sess hs (Rules.run_keeps rs st) (Rules.run_wf rs st hs.wf hl)

theorem parseAll_ok {parse : BaseType → Str → R (Option Datum)} (hp : ParseOk parse) {t : Option BaseType} :
    ∀ {l : List Str} {r : List Datum}, parseAll parse t l = .ok r →
      (l = [] → r = []) ∧ (l ≠ [] → ∃ bt, t = some bt ∧ ∀ d ∈ r, d.ok bt)
  | [], r, h => by simp only [parseAll] at h; cases h; simp
  | s :: l, r, h => by
    cases t with
    | none => simp [parseAll] at h
    | some bt =>
      simp only [parseAll, bind_ok] at h
      obtain ⟨o, ho, h⟩ := h
      cases o with
      | none => cases h
      | some d =>
        simp only [bind_ok, pure_ok] at h
        obtain ⟨r', hr', rfl⟩ := h
        refine ⟨by simp, fun _ => ⟨bt, rfl, ?_⟩⟩
        intro x hx
        rcases List.mem_cons.1 hx with rfl | hx
        · exact hp bt s _ ho
        · have := parseAll_ok hp hr'
          by_cases hl : l = []
          · rw [this.1 hl] at hx; simp at hx
          · obtain ⟨bt', e, h⟩ := this.2 hl
            cases e; exact h x hx

theorem subValue_fits {parse : BaseType → Str → R (Option Datum)} (hp : ParseOk parse) {d : Decl} {k : Nat}
    {s : Sub} {v : Val} (h : subValue parse d k s = .ok (some v)) : Fits d v := by
  unfold subValue at h
  cases hc : d.card with
  | single =>
    rw [hc] at h
    cases s with
    | many l => cases h
    | one x =>
      dsimp only at h
      cases hb : d.bt with
      | none => rw [hb] at h; cases h
      | some bt =>
        rw [hb] at h
        simp only [bind_ok, pure_ok, Option.some.injEq] at h
        obtain ⟨o, ho, rfl⟩ := h
        refine ⟨?_, by rw [hc]; rfl, by rw [hc, hb]; rfl⟩
        intro d hd; subst hd
        exact ⟨bt, rfl, hp bt x d ho⟩
  | ordered =>
    rw [hc] at h
    dsimp only at h
    split at h <;> cases h
  | multiple =>
    rw [hc] at h
    simp only [bind_ok, pure_ok, Option.some.injEq] at h
    obtain ⟨r, hr, rfl⟩ := h
    refine ⟨?_, by rw [hc]; rfl, by rw [hc]; rfl⟩
    intro m hm
    split at hm
    · cases hm
    · rename_i hne
      cases hm
      have hall : ∃ bt, d.bt = some bt ∧ ∀ x ∈ r, x.ok bt := by
        have h2 := parseAll_ok hp hr
        by_cases hl : (match s with | .one x => [x] | .many l => l) = []
        · exact absurd (countAll_nil.2 (h2.1 hl)) hne
        · exact h2.2 hl
      obtain ⟨bt, hb, hall⟩ := hall
      obtain ⟨h1, h2⟩ := countAll_wf hall
      exact ⟨hne, h1, bt, hb, h2⟩
  | record => rw [hc] at h; cases h

theorem put_saved_sess {it : Item} (hc : it.clean) {st : State} (hs : Sess it st) {p : Str × Decl}
    (hp : p ∈ it.decls) {v : Val} (hf : Fits p.2 v) : Sess it (st.put (p.1 ++ sufSaved) v) := by
  have hd := hc.noDot p hp
  refine ⟨hs.decls, dset_nodup _ _ _ hs.keys, ?_, ?_, ?_, ?_, ?_, put_wf hs.wf hf.1⟩
  · intro q hq
    dsimp only [State.put]
    rw [dget_dset, if_neg]
    · exact hs.val q hq
    · exact suf_ne (hc.noDot q hq) _
  · intro q hq hk
    dsimp only [State.put]
    rw [dget_dset, if_neg]
    · exact hs.dflt q hq hk
    · intro h
      have := (suf_inj_left hd (hc.noDot q hq) h).2
      simp at this
  · intro q hq hk
    dsimp only [State.put]
    rw [dget_dset, if_neg]
    · exact hs.correct q hq hk
    · intro h
      have := (suf_inj_left hd (hc.noDot q hq) h).2
      simp at this
  · intro q hq w hw
    dsimp only [State.put] at hw
    rw [dget_dset] at hw
    split at hw
    · rename_i h
      obtain rfl := clean_inj hc hp hq (suf_inj_left hd (hc.noDot q hq) h).1
      cases hw; exact hf
    · exact hs.saved q hq w hw
  · dsimp only [State.put]
    rw [dget_dset, if_neg]
    · exact hs.numAttempts
    · exact suf_ne builtin_noDot.1 _

/-- Saving parameters, whether it succeeds or not, keeps the session in order and changes only the
saved values of responses. -/
theorem saveParams_keeps {parse : BaseType → Str → R (Option Datum)} (hpo : ParseOk parse) {it : Item}
    (hc : it.clean) (pfx : Str) : ∀ (ps : List (Str × Sub)) (st : State), Sess it st →
    Sess it (saveParams parse pfx ps st).1 ∧
      ∀ m, (∀ p ∈ it.decls, p.2.kind = .response → m ≠ p.1 ++ sufSaved) →
        dget m (saveParams parse pfx ps st).1.map = dget m st.map
  | [], st, hs => ⟨hs, fun _ _ => rfl⟩
  | (p, s) :: l, st, hs => by
    simp only [saveParams]
    split
    · exact saveParams_keeps hpo hc pfx l st hs
    · split
      · exact ⟨hs, fun _ _ => rfl⟩
      · exact ⟨hs, fun _ _ => rfl⟩
      · rename_i d hd
        split
        · exact ⟨hs, fun _ _ => rfl⟩
        · rename_i hk
          have hk : d.kind = .response := by simpa using hk
          generalize hn : (splitDot (p.drop pfx.length)).1 = n at *
          have hmem : (n, d) ∈ it.decls := by
            have := getDecl_ok hd
            rw [hs.decls] at this
            exact dget_mem this.symm
          have h1 : Sess it (ensureSaved st n d) ∧ ∀ m, (∀ p ∈ it.decls, p.2.kind = .response → m ≠ p.1 ++ sufSaved) →
              dget m (ensureSaved st n d).map = dget m st.map := by
            unfold ensureSaved
            split
            · refine ⟨put_saved_sess hc hs hmem (newVal_fits d), ?_⟩
              intro m hm
              dsimp only [State.put]
              rw [dget_dset, if_neg]
              exact fun h => hm _ hmem hk h.symm
            · exact ⟨hs, fun _ _ => rfl⟩
          obtain ⟨h1, h2⟩ := h1
          split
          · exact ⟨h1, h2⟩
          · have := saveParams_keeps hpo hc pfx l _ h1
            exact ⟨this.1, fun m hm => (this.2 m hm).trans (h2 m hm)⟩
          · rename_i v hv
            have := saveParams_keeps hpo hc pfx l _ (put_saved_sess hc h1 hmem (subValue_fits hpo hv))
            refine ⟨this.1, fun m hm => (this.2 m hm).trans ?_⟩
            dsimp only [State.put]
            rw [dget_dset, if_neg]
            · exact h2 m hm
            · exact fun h => hm _ hmem hk h.symm

theorem subValue_some {parse : BaseType → Str → R (Option Datum)} {d : Decl} {k : Nat} {s : Sub}
    (hcard : d.card = .single ∨ d.card = .multiple) : subValue parse d k s ≠ .ok none := by
  intro h
  unfold subValue at h
  rcases hcard with hc | hc
  · rw [hc] at h
    cases s with
    | many l => cases h
    | one x =>
      dsimp only at h
      cases hb : d.bt with
      | none => rw [hb] at h; cases h
      | some bt =>
        rw [hb] at h
        simp only [bind_ok, pure_ok] at h
        obtain ⟨o, ho, h⟩ := h
        cases h
  · rw [hc] at h
    simp only [bind_ok, pure_ok] at h
    obtain ⟨o, ho, h⟩ := h
    cases h

/-- The saved value that the parameters lead to. -/
def SavedAs (parse : BaseType → Str → R (Option Datum)) (d : Decl) (last : Option (Nat × Sub))
    (old new : Option Val) : Prop :=
  match last with
  | none => new = old
  | some (k, s) => ∃ v, subValue parse d k s = .ok (some v) ∧ new = some v

/-- What saving keeps for a response: the value of the last parameter for it. -/
theorem saveParams_last {parse : BaseType → Str → R (Option Datum)} {it : Item}
    (hc : it.clean) (pfx : Str) {q : Str × Decl} (hq : q ∈ it.decls)
    (hcard : q.2.card = .single ∨ q.2.card = .multiple) :
    ∀ (ps : List (Str × Sub)) (st st' : State), st.decls = it.decls →
    saveParams parse pfx ps st = (st', none) →
      SavedAs parse q.2 (paramsFor pfx q.1 ps).getLast? (dget (q.1 ++ sufSaved) st.map)
        (dget (q.1 ++ sufSaved) st'.map) := by
  intro ps
  induction ps with
  | nil =>
    intro st st' _ h
    simp only [saveParams] at h
    cases h
    rfl
  | cons x l ih =>
    intro st st' hdecl h
    obtain ⟨p, s⟩ := x
    simp only [saveParams] at h
    split at h
    · rename_i hsk
      have e : paramsFor pfx q.1 ((p, s) :: l) = paramsFor pfx q.1 l := by
        simp only [paramsFor, List.filterMap_cons, paramName]
        rw [if_pos hsk]
      rw [e]
      exact ih st st' hdecl h
    · rename_i hsk
      split at h
      · cases h
      · cases h
      · rename_i d hd
        split at h
        · cases h
        · generalize hn : (splitDot (p.drop pfx.length)).1 = n at *
          generalize hk : (splitDot (p.drop pfx.length)).2 = k at *
          have hname : paramName pfx p = some (n, k) := by
            unfold paramName
            rw [if_neg hsk, ← hn, ← hk]
          have hmem : (n, d) ∈ it.decls := by
            have := getDecl_ok hd
            rw [hdecl] at this
            exact dget_mem this.symm
          generalize hst1 : ensureSaved st n d = st1 at h
          have hd1 : st1.decls = it.decls := by
            rw [← hst1]; unfold ensureSaved; split <;> exact hdecl
          by_cases hnq : n = q.1
          · obtain rfl := clean_inj hc hmem hq hnq
            dsimp only at *
            have e : paramsFor pfx n ((p, s) :: l) = (k, s) :: paramsFor pfx n l := by
              simp only [paramsFor, List.filterMap_cons, hname, if_true]
            rw [e, List.getLast?_cons]
            split at h
            · cases h
            · rename_i hv; exact absurd hv (subValue_some hcard)
            · rename_i v hv
              have := ih (st1.put (n ++ sufSaved) v) st' hd1 h
              cases hlast : (paramsFor pfx n l).getLast? with
              | none =>
                rw [hlast] at this
                refine ⟨v, hv, ?_⟩
                refine Eq.trans this ?_
                dsimp only [State.put]
                rw [dget_dset, if_pos rfl]
              | some y =>
                rw [hlast] at this
                exact this
          · have e : paramsFor pfx q.1 ((p, s) :: l) = paramsFor pfx q.1 l := by
              simp only [paramsFor, List.filterMap_cons, hname, if_neg hnq]
            have hne : n ++ sufSaved ≠ q.1 ++ sufSaved := fun h => hnq (List.append_cancel_right h)
            have h1 : dget (q.1 ++ sufSaved) st1.map = dget (q.1 ++ sufSaved) st.map := by
              rw [← hst1]
              unfold ensureSaved
              split
              · dsimp only [State.put]
                rw [dget_dset, if_neg hne]
              · rfl
            rw [e]
            split at h
            · cases h
            · rw [← h1]; exact ih st1 st' hd1 h
            · rename_i v hv
              have := ih (st1.put (n ++ sufSaved) v) st' hd1 h
              dsimp only [State.put] at this
              rw [dget_dset, if_neg hne, h1] at this
              exact this

theorem ddel_keys {α β : Type} [DecidableEq α] {k : α} : ∀ {m : List (α × β)}, (m.map (·.1)).Nodup →
    ((ddel k m).map (·.1)).Nodup ∧ (∀ j, dget j (ddel k m) = if j = k then none else dget j m)
  | [], _ => by simp [ddel, dget]
  | (a, b) :: l, h => by
    simp only [List.map_cons, List.nodup_cons] at h
    simp only [ddel]
    by_cases he : a = k
    · subst he
      rw [if_pos rfl]
      refine ⟨h.2, fun j => ?_⟩
      by_cases hj : j = a
      · subst hj; rw [if_pos rfl]; exact dget_none_keys.2 h.1
      · rw [if_neg hj]; simp only [dget]; rw [if_neg (Ne.symm hj)]
    · rw [if_neg he]
      obtain ⟨h1, h2⟩ := ddel_keys (k := k) h.2
      refine ⟨?_, fun j => ?_⟩
      · simp only [List.map_cons, List.nodup_cons]
        refine ⟨?_, h1⟩
        rw [← dget_none_keys, h2]
        split
        · rfl
        · exact dget_none_keys.2 h.1
      · simp only [dget, h2]
        by_cases hj : a = j
        · subst hj; rw [if_pos rfl, if_neg he, if_pos rfl]
        · simp [if_neg hj]

/-- Taking over the saved values: it does not fail. -/
theorem takeSaved_ok {it : Item} (hc : it.clean) : ∀ (l : List (Str × Decl)) (st : State),
    (∀ p ∈ l, p ∈ it.decls) → (l.map (·.1)).Nodup → Sess it st →
    ∃ st', takeSaved l st = (st', none) ∧ Sess it st' ∧ st'.lower = st.lower ∧
      (∀ n, (∀ p ∈ l, n ≠ p.1 ∧ n ≠ p.1 ++ sufSaved) → dget n st'.map = dget n st.map) ∧
      (∀ p ∈ l, dget (p.1 ++ sufSaved) st'.map = none ∧
        (dget (p.1 ++ sufSaved) st.map = none → dget p.1 st'.map = dget p.1 st.map) ∧
        (∀ s, dget (p.1 ++ sufSaved) st.map = some s → dget p.1 st'.map = some s.once))
  | [], st, _, _, hs => ⟨st, rfl, hs, rfl, fun _ _ => rfl, by simp⟩
  | (n, d) :: l, st, hl, hnd, hs => by
    have hp := hl (n, d) (by simp)
    have hdot : 46 ∉ n := hc.noDot _ hp
    simp only [List.map_cons, List.nodup_cons] at hnd
    have hsep : ∀ p ∈ l, n ≠ p.1 ∧ n ≠ p.1 ++ sufSaved ∧ n ++ sufSaved ≠ p.1 ∧ n ++ sufSaved ≠ p.1 ++ sufSaved := by
      intro p hpl
      have hpd := hc.noDot p (hl p (by simp [hpl]))
      have h1 : n ≠ p.1 := fun h => hnd.1 (h ▸ List.mem_map_of_mem hpl)
      exact ⟨h1, Ne.symm (suf_ne hdot _), suf_ne hpd _, fun h => h1 (List.append_cancel_right h)⟩
    simp only [takeSaved]
    cases hsv : dget (n ++ sufSaved) st.map with
    | none =>
      obtain ⟨st', g1, g2, g3, g4, g5⟩ := takeSaved_ok hc l st (fun p hp => hl p (by simp [hp])) hnd.2 hs
      refine ⟨st', g1, g2, g3, fun m hm => g4 m fun p hp => hm p (by simp [hp]), ?_⟩
      intro p hpl
      rcases List.mem_cons.1 hpl with rfl | hpl
      · dsimp only
        have e1 := g4 n fun p hp => ⟨(hsep p hp).1, (hsep p hp).2.1⟩
        have e2 := g4 (n ++ sufSaved) fun p hp => ⟨(hsep p hp).2.2.1, (hsep p hp).2.2.2⟩
        exact ⟨e2.trans hsv, fun _ => e1, fun s h => by rw [hsv] at h; cases h⟩
      · exact g5 p hpl
    | some s =>
      obtain ⟨v, hv, hfv⟩ := hs.val _ hp
      have hfs := hs.saved _ hp s hsv
      dsimp only at hv hfv hfs
      have hset := setVal_fits hfv hfs
      have hfo := once_fits hfs
      rw [get_ok.2 hv]
      dsimp only
      rw [hset]
      dsimp only
      have hkn := dset_nodup n s.once st.map hs.keys
      obtain ⟨k1, k2⟩ := ddel_keys (k := n ++ sufSaved) hkn
      have hs' : Sess it { st with map := ddel (n ++ sufSaved) (dset n s.once st.map) } := by
        refine ⟨hs.decls, k1, ?_, ?_, ?_, ?_, ?_, ?_⟩
        · intro q hq
          have hqd := hc.noDot q hq
          dsimp only
          have hq2 : q.1 ≠ n ++ sufSaved := Ne.symm (suf_ne hqd _)
          rw [k2, if_neg hq2, dget_dset]
          by_cases he : n = q.1
          · rw [if_pos he]
            obtain rfl := clean_inj hc hp hq he
            exact ⟨_, rfl, hfo⟩
          · rw [if_neg he]; exact hs.val q hq
        · intro q hq hk
          dsimp only
          rw [k2, if_neg, dds_d hdot]
          · exact hs.dflt q hq hk
          · intro h
            have := (suf_inj_left (hc.noDot q hq) hdot h).2
            simp at this
        · intro q hq hk
          dsimp only
          rw [k2, if_neg, dds_c hdot]
          · exact hs.correct q hq hk
          · intro h
            have := (suf_inj_left (hc.noDot q hq) hdot h).2
            simp at this
        · intro q hq w hw
          dsimp only at hw
          rw [k2] at hw
          split at hw
          · cases hw
          · rw [dds_s hdot] at hw; exact hs.saved q hq w hw
        · dsimp only
          have hq2 : nNumAttempts ≠ n ++ sufSaved := Ne.symm (suf_ne builtin_noDot.1 _)
          rw [k2, if_neg hq2, dget_dset, if_neg (hc.builtin _ hp).1]
          exact hs.numAttempts
        · intro m u hu
          dsimp only at hu
          rw [k2] at hu
          split at hu
          · cases hu
          · rw [dget_dset] at hu
            split at hu
            · cases hu; exact hfo.1
            · exact hs.wf m u hu
      obtain ⟨st', g1, g2, g3, g4, g5⟩ := takeSaved_ok hc l _ (fun p hp => hl p (by simp [hp])) hnd.2 hs'
      refine ⟨st', g1, g2, g3, ?_, ?_⟩
      · intro m hm
        rw [g4 m fun p hp => hm p (by simp [hp])]
        dsimp only
        have := hm (n, d) (by simp)
        rw [k2, if_neg this.2, dget_dset, if_neg (Ne.symm this.1)]
      · intro p hpl
        rcases List.mem_cons.1 hpl with rfl | hpl
        · dsimp only
          have e1 := g4 n fun p hp => ⟨(hsep p hp).1, (hsep p hp).2.1⟩
          have e2 := g4 (n ++ sufSaved) fun p hp => ⟨(hsep p hp).2.2.1, (hsep p hp).2.2.2⟩
          refine ⟨?_, fun h => (by rw [hsv] at h; cases h), fun s' h => ?_⟩
          · rw [e2]; dsimp only; rw [k2, if_pos rfl]
          · rw [hsv] at h; cases h
            rw [e1]; dsimp only
            have hq2 : n ≠ n ++ sufSaved := Ne.symm (suf_ne hdot _)
            rw [k2, if_neg hq2, dget_dset, if_pos rfl]
        · obtain ⟨f1, f2, f3⟩ := g5 p hpl
          have hs1 := hsep p hpl
          have hpd : 46 ∉ p.1 := hc.noDot p (hl p (by simp [hpl]))
          have e1 : dget (p.1 ++ sufSaved) (ddel (n ++ sufSaved) (dset n s.once st.map)) = dget (p.1 ++ sufSaved) st.map := by
            rw [k2, if_neg (Ne.symm hs1.2.2.2), dds_s hdot]
          have e2 : dget p.1 (ddel (n ++ sufSaved) (dset n s.once st.map)) = dget p.1 st.map := by
            rw [k2, if_neg (Ne.symm hs1.2.2.1), dget_dset, if_neg hs1.1]
          dsimp only at f2 f3
          rw [e1, e2] at f2
          rw [e1] at f3
          exact ⟨f1, f2, f3⟩

/-! ## Theorems -/

/-- The state from which the response processing of a submission starts, in terms of the state
before the submission. -/
structure Submitted (parse : BaseType → Str → R (Option Datum)) (it : Item) (pfx : Str)
    (ps : List (Str × Sub)) (st st' : State) : Prop where
  /-- nothing stays saved -/
  saved : ∀ p ∈ it.decls, p.2.kind = .response → dget (p.1 ++ sufSaved) st'.map = none
  /-- a single or multiple response takes the value of the last parameter for it; without one, the
  value saved earlier, if any -/
  response : ∀ p ∈ it.decls, p.2.kind = .response → p.2.card = .single ∨ p.2.card = .multiple →
    match (paramsFor pfx p.1 ps).getLast? with
    | some (k, s) => ∃ v, subValue parse p.2 k s = .ok (some v) ∧ dget p.1 st'.map = some v.once
    | none => match dget (p.1 ++ sufSaved) st.map with
      | some s => dget p.1 st'.map = some s.once
      | none => dget p.1 st'.map = dget p.1 st.map
  /-- for an item that is not adaptive the outcomes are reset -/
  outcome : ∀ p ∈ it.decls, p.2.kind = .outcome →
    if it.adaptive then dget p.1 st'.map = dget p.1 st.map
    else ∃ v, dget (p.1 ++ sufDefault) st.map = some v ∧ dget p.1 st'.map = some (zeroed v.once)
  /-- the rest is as before -/
  other : ∀ n, (∀ p ∈ it.decls, (p.2.kind = .response → n ≠ p.1 ∧ n ≠ p.1 ++ sufSaved) ∧
    (p.2.kind = .outcome → n ≠ p.1)) → dget n st'.map = dget n st.map

/-- C97, `submit_session`: when the parameters are accepted, the responses take the submitted
values, the outcomes of an item that is not adaptive are reset, and response processing runs from
there. -/
theorem C97_submit (parse : BaseType → Str → R (Option Datum)) (hpo : ParseOk parse) (it : Item)
    (hc : it.clean) (pfx : Str) (ps : List (Str × Sub)) (st : State) (hs : Sess it st)
    (hok : (saveParams parse pfx ps st).2 = none) :
    ∃ st', Sess it st' ∧ Submitted parse it pfx ps st st' ∧
      submit parse it pfx ps st = (match it.rp with
        | none => (st', none)
        | some rs => process rs st') := by
  rcases hsv : saveParams parse pfx ps st with ⟨st1, e⟩
  rw [hsv] at hok
  dsimp only at hok
  subst hok
  have hk := saveParams_keeps hpo hc pfx ps st hs
  rw [hsv] at hk
  obtain ⟨hs1, hk1⟩ := hk
  have hmemR : ∀ p ∈ ofKind .response st1.decls, p ∈ it.decls := by
    intro p hp; rw [mem_ofKind, hs1.decls] at hp; exact hp.1
  have hndR : ((ofKind .response st1.decls).map (·.1)).Nodup := by
    rw [hs1.decls]
    exact hc.nodup.sublist (List.Sublist.map _ List.filter_sublist)
  obtain ⟨st2, g1, g2, g3, g4, g5⟩ := takeSaved_ok hc (ofKind .response st1.decls) st1 hmemR hndR hs1
  have hR : ∀ p ∈ it.decls, p.2.kind = .response → p ∈ ofKind .response st1.decls := by
    intro p hp hk; rw [mem_ofKind, hs1.decls]; exact ⟨hp, hk⟩
  have hother2 : ∀ n, (∀ p ∈ it.decls, (p.2.kind = .response → n ≠ p.1 ∧ n ≠ p.1 ++ sufSaved)) →
      dget n st2.map = dget n st.map := by
    intro n hn
    rw [g4 n, hk1 n]
    · intro p hp hkp; exact (hn p hp hkp).2
    · intro p hp
      have h1 := hmemR p hp
      rw [mem_ofKind] at hp
      exact hn p h1 hp.2
  have hresp2 : ∀ p ∈ it.decls, p.2.kind = .response → p.2.card = .single ∨ p.2.card = .multiple →
    match (paramsFor pfx p.1 ps).getLast? with
    | some (k, s) => ∃ v, subValue parse p.2 k s = .ok (some v) ∧ dget p.1 st2.map = some v.once
    | none => match dget (p.1 ++ sufSaved) st.map with
      | some s => dget p.1 st2.map = some s.once
      | none => dget p.1 st2.map = dget p.1 st.map := by
    intro p hp hkp hcard
    have hlast := saveParams_last (parse := parse) hc pfx hp hcard ps st st1 hs.decls hsv
    obtain ⟨_, f2, f3⟩ := g5 p (hR p hp hkp)
    have hplain : dget p.1 st1.map = dget p.1 st.map :=
      hk1 _ fun q hq _ => Ne.symm (suf_ne (hc.noDot p hp) _)
    cases hl : (paramsFor pfx p.1 ps).getLast? with
    | some y =>
      obtain ⟨k, s⟩ := y
      rw [hl] at hlast
      obtain ⟨v, hv, hd⟩ := hlast
      exact ⟨v, hv, f3 v hd⟩
    | none =>
      rw [hl] at hlast
      have hlast : dget (p.1 ++ sufSaved) st1.map = dget (p.1 ++ sufSaved) st.map := hlast
      cases ho : dget (p.1 ++ sufSaved) st.map with
      | some s => dsimp only; exact f3 s (hlast.trans ho)
      | none => dsimp only; rw [f2 (hlast.trans ho)]; exact hplain
  have hsub : submit parse it pfx ps st = endAttempt it st2 := by
    unfold submit
    rw [hsv]
    change (takeSaved (ofKind .response st1.decls) st1).then _ = _
    rw [g1]
    rfl
  have hkne : ∀ p ∈ it.decls, ∀ q ∈ it.decls, p.2.kind = .outcome → q.2.kind = .response → p.1 ≠ q.1 := by
    intro p hp q hq h1 h2 he
    obtain rfl := clean_inj hc hp hq he
    rw [h1] at h2; cases h2
  cases had : it.adaptive with
  | true =>
    refine ⟨st2, g2, ⟨fun p hp hk => (g5 p (hR p hp hk)).1, hresp2, ?_, ?_⟩, ?_⟩
    · intro p hp hk
      rw [had]
      exact hother2 _ fun q hq hkq => ⟨hkne p hp q hq hk hkq, Ne.symm (suf_ne (hc.noDot p hp) _)⟩
    · intro n hn
      exact hother2 n fun p hp => (hn p hp).1
    · rw [hsub]
      unfold endAttempt
      rw [had]
      rfl
  | false =>
    obtain ⟨st3, o1, o2, o3, o4, o5⟩ := outcomeDefaults_ok hc st2 g2
    refine ⟨st3, o2, ⟨?_, ?_, ?_, ?_⟩, ?_⟩
    · intro p hp hk
      rw [o4]
      · exact (g5 p (hR p hp hk)).1
      · intro q hq _
        exact Ne.symm (suf_ne (hc.noDot q hq) _)
    · intro p hp hk hcard
      rw [o4 p.1 fun q hq hkq he => hkne q hq p hp hkq hk he]
      exact hresp2 p hp hk hcard
    · intro p hp hk
      rw [had]
      obtain ⟨v, e1, e2⟩ := o5 p hp hk
      refine ⟨v, ?_, e2⟩
      rw [← e1]
      symm
      apply hother2
      intro q hq _
      refine ⟨suf_ne (hc.noDot q hq) _, ?_⟩
      intro h
      have := (suf_inj_left (hc.noDot p hp) (hc.noDot q hq) h).2
      simp at this
    · intro n hn
      rw [o4 n fun p hp hk => Ne.symm ((hn p hp).2 hk)]
      exact hother2 n fun p hp => (hn p hp).1
    · rw [hsub]
      unfold endAttempt
      rw [had]
      simp only [Bool.false_eq_true, if_false]
      rw [o1]
      rfl

end Verif.Qti

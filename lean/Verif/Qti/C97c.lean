import Verif.Qti.C97b
/-
C97, continued: independence of earlier outcomes, histories, and inputs that break the session.
-/
namespace Verif.Qti

/-! ## Specification -/

/-- The same session: the dictionaries may differ in the order of their entries only. -/
structure State.Same (a b : State) : Prop where
  decls : a.decls = b.decls
  lower : a.lower = b.lower
  map : ∀ n, dget n a.map = dget n b.map

/-- The calls a delivery engine makes between `begin_session` and the end. -/
inductive Ev
  | attempt
  | save (ps : List (Str × Sub))
  | submit (ps : List (Str × Sub))

/-- One call.  variables.py:1980-2012; `save_session` (1996-1999) is `_save_parameters`. -/
def Ev.run (parse : BaseType → Str → R (Option Datum)) (it : Item) (pfx : Str) : Ev → State → Run
  | .attempt, st => beginAttempt st
  | .save ps, st => saveParams parse pfx ps st
  | .submit ps, st => Verif.Qti.submit parse it pfx ps st

/-- The state after a history of calls; the engine goes on after an exception. -/
def history (parse : BaseType → Str → R (Option Datum)) (it : Item) (pfx : Str) : List Ev → State → State
  | [], st => st
  | e :: es, st => history parse it pfx es (e.run parse it pfx st).1

def attempts : List Ev → Nat
  | [] => 0
  | .attempt :: es => attempts es + 1
  | _ :: es => attempts es

/-! ## Lemmas -/

theorem State.Same.get {a b : State} (h : State.Same a b) (n : Str) : a.get n = b.get n := by
  unfold State.get; rw [h.map]

theorem State.Same.getDecl {a b : State} (h : State.Same a b) (n : Str) : a.getDecl n = b.getDecl n := by
  unfold State.getDecl; rw [h.map, h.decls]

theorem evalLeaf_same {a b : State} (h : State.Same a b) (l : Leaf) : evalLeaf a l = evalLeaf b l := by
  cases l <;> simp only [evalLeaf, h.get, h.getDecl]

theorem opN_same {a b : State} (h : State.Same a b) (op : OpN) (vs : List Val) :
    opN a op vs = opN b op vs := by
  cases op <;> simp only [opN, textOp, h.lower]

mutual
theorem eval_same {a b : State} (h : State.Same a b) : ∀ e : Expr, eval a e = eval b e
  | .leaf l => evalLeaf_same h l
  | .un op e => by simp only [eval, eval_same h e]
  | .nary op es => by simp only [eval, evalList_same h es, opN_same h]
theorem evalList_same {a b : State} (h : State.Same a b) : ∀ es : List Expr, evalList a es = evalList b es
  | [] => rfl
  | e :: es => by simp only [evalList, eval_same h e, evalList_same h es]
end

/-- Two results are the same. -/
def RSame (x y : R State) : Prop :=
  match x, y with
  | .ok a, .ok b => State.Same a b
  | .error e, .error f => e = f
  | _, _ => False

theorem set_same {a b : State} (h : State.Same a b) (n : Str) (x : Val) : RSame (a.set n x) (b.set n x) := by
  unfold State.set
  rw [h.get]
  cases hg : b.get n with
  | error e => rfl
  | ok v =>
    simp only [Bind.bind, Except.bind]
    split
    · rfl
    · split
      · rfl
      · cases setVal v x with
        | error e => rfl
        | ok w =>
          refine ⟨h.decls, h.lower, fun m => ?_⟩
          dsimp only
          rw [dget_dset, dget_dset, h.map]

theorem bind_rsame {α : Type} (x : R α) {f g : α → R State} (h : ∀ v, RSame (f v) (g v)) :
    RSame (x >>= f) (x >>= g) := by
  cases x with
  | error e => rfl
  | ok v => exact h v

theorem runSet_same {a b : State} (h : State.Same a b) (k : SetKind) (n : Str) (e : Option Expr) :
    RSame (runSet k n e a) (runSet k n e b) := by
  unfold runSet
  cases e with
  | none => rfl
  | some e =>
    dsimp only
    rw [eval_same h]
    refine bind_rsame _ fun v => ?_
    have ho : a.isOutcome n = b.isOutcome n := by unfold State.isOutcome; rw [h.getDecl]
    have ht : a.isTemplate n = b.isTemplate n := by unfold State.isTemplate; rw [h.getDecl]
    cases k with
    | outcome =>
      dsimp only; rw [ho]
      refine bind_rsame _ fun o => ?_
      split
      · exact set_same h n v
      · rfl
    | template =>
      dsimp only; rw [ht]
      refine bind_rsame _ fun o => ?_
      split
      · exact set_same h n v
      · rfl
    | correct =>
      dsimp only; rw [h.getDecl]
      refine bind_rsame _ fun o => ?_
      cases o with
      | none => rfl
      | some d =>
        dsimp only
        split
        · exact set_same h _ v
        · rfl
    | default =>
      dsimp only; rw [h.getDecl]
      refine bind_rsame _ fun o => ?_
      cases o with
      | none => rfl
      | some d =>
        dsimp only
        split
        · exact set_same h _ v
        · rfl

theorem testCond_same {a b : State} (h : State.Same a b) (e : Option Expr) : testCond a e = testCond b e := by
  cases e with
  | none => rfl
  | some e => simp only [testCond, eval_same h]

mutual
theorem Rule.run_same : ∀ (r : Rule) {a b : State}, State.Same a b →
    State.Same (r.run a).1 (r.run b).1 ∧ (r.run a).2 = (r.run b).2
  | .set k n e, a, b, h => by
    have := runSet_same h k n e
    simp only [Rule.run]
    revert this
    cases runSet k n e a <;> cases runSet k n e b <;> intro this
    · exact ⟨h, congrArg some this⟩
    · exact this.elim
    · exact this.elim
    · exact ⟨this, rfl⟩
  | .cond br, a, b, h => by simp only [Rule.run]; exact Branches.run_same br h
  | .exit, a, b, h => ⟨h, rfl⟩
theorem Rules.run_same : ∀ (rs : Rules) {a b : State}, State.Same a b →
    State.Same (rs.run a).1 (rs.run b).1 ∧ (rs.run a).2 = (rs.run b).2
  | .nil, a, b, h => ⟨h, rfl⟩
  | .cons r rs, a, b, h => by
    obtain ⟨h1, h2⟩ := Rule.run_same r h
    simp only [Rules.run]
    rcases hra : r.run a with ⟨a', ea⟩
    rcases hrb : r.run b with ⟨b', eb⟩
    rw [hra, hrb] at h1 h2
    dsimp only at h1 h2
    subst h2
    cases ea with
    | none => exact Rules.run_same rs h1
    | some x => exact ⟨h1, rfl⟩
theorem Branches.run_same : ∀ (br : Branches) {a b : State}, State.Same a b →
    State.Same (br.run a).1 (br.run b).1 ∧ (br.run a).2 = (br.run b).2
  | .none, a, b, h => ⟨h, rfl⟩
  | .els rs, a, b, h => by simp only [Branches.run]; exact Rules.run_same rs h
  | .ite e rs rest, a, b, h => by
    simp only [Branches.run]
    rw [testCond_same h]
    split
    · exact ⟨h, rfl⟩
    · exact Rules.run_same rs h
    · exact Branches.run_same rest h
end

theorem process_snd (rs : Rules) (st : State) :
    (process rs st).2 = if (rs.run st).2 = some .stop then none else (rs.run st).2 := by
  unfold process
  split
  · rename_i h; rw [h]; rfl
  · rename_i h
    rw [if_neg]
    intro hs
    exact h (rs.run st).1 (by rw [← hs])

theorem process_same (rs : Rules) {a b : State} (h : State.Same a b) :
    State.Same (process rs a).1 (process rs b).1 ∧ (process rs a).2 = (process rs b).2 := by
  obtain ⟨h1, h2⟩ := Rules.run_same rs h
  rw [process_fst, process_fst, process_snd, process_snd, h2]
  exact ⟨h1, rfl⟩

theorem saveParams_lower {parse : BaseType → Str → R (Option Datum)} (pfx : Str) :
    ∀ (ps : List (Str × Sub)) (st : State), (saveParams parse pfx ps st).1.lower = st.lower
  | [], st => rfl
  | (p, s) :: l, st => by
    have he : ∀ n d, (ensureSaved st n d).lower = st.lower := by
      intro n d; unfold ensureSaved; split <;> rfl
    simp only [saveParams]
    repeat' split
    · exact saveParams_lower pfx l st
    · rfl
    · rfl
    · rfl
    · exact he _ _
    · rw [saveParams_lower pfx l]; exact he _ _
    · rw [saveParams_lower pfx l]; exact he _ _

/-- Two sessions that differ in the values of outcomes at most. -/
structure Agree (it : Item) (a b : State) : Prop where
  decls : a.decls = b.decls
  lower : a.lower = b.lower
  map : ∀ n, (∀ p ∈ it.decls, p.2.kind = .outcome → p.1 ≠ n) → dget n a.map = dget n b.map
  keys : ∀ n, (dget n a.map).isSome = (dget n b.map).isSome

theorem Agree.put {it : Item} {a b : State} (h : Agree it a b) (n : Str) (v : Val) :
    Agree it (a.put n v) (b.put n v) := by
  refine ⟨h.decls, h.lower, fun m hm => ?_, fun m => ?_⟩
  · dsimp only [State.put]
    rw [dget_dset, dget_dset, h.map m hm]
  · dsimp only [State.put]
    rw [dget_dset, dget_dset]
    split
    · rfl
    · exact h.keys m

theorem Agree.getDecl {it : Item} {a b : State} (h : Agree it a b) (n : Str) : a.getDecl n = b.getDecl n := by
  unfold State.getDecl
  have := h.keys n
  rw [h.decls]
  cases ha : dget n a.map <;> cases hb : dget n b.map <;> rw [ha, hb] at this <;>
    first | rfl | simp at this

theorem saved_not_outcome {it : Item} (hc : it.clean) (n : Str) :
    ∀ p ∈ it.decls, p.2.kind = .outcome → p.1 ≠ n ++ sufSaved :=
  fun p hp _ => Ne.symm (suf_ne (hc.noDot p hp) _)

theorem ensureSaved_agree {it : Item} (hc : it.clean) {a b : State} (h : Agree it a b) (n : Str) (d : Decl) :
    Agree it (ensureSaved a n d) (ensureSaved b n d) := by
  unfold ensureSaved
  rw [h.map _ (saved_not_outcome hc n)]
  split
  · exact h.put _ _
  · exact h

theorem saveParams_agree {parse : BaseType → Str → R (Option Datum)} {it : Item} (hc : it.clean) (pfx : Str) :
    ∀ (ps : List (Str × Sub)) {a b : State}, Agree it a b →
      Agree it (saveParams parse pfx ps a).1 (saveParams parse pfx ps b).1 ∧
      (saveParams parse pfx ps a).2 = (saveParams parse pfx ps b).2
  | [], a, b, h => ⟨h, rfl⟩
  | (p, s) :: l, a, b, h => by
    simp only [saveParams]
    rw [h.getDecl]
    have he := ensureSaved_agree hc h (splitDot (p.drop pfx.length)).1
    split
    · exact saveParams_agree hc pfx l h
    · split
      · exact ⟨h, rfl⟩
      · exact ⟨h, rfl⟩
      · split
        · exact ⟨h, rfl⟩
        · split
          · exact ⟨he _, rfl⟩
          · exact saveParams_agree hc pfx l (he _)
          · exact saveParams_agree hc pfx l ((he _).put _ _)

theorem takeSaved_agree {it : Item} (hc : it.clean) : ∀ (l : List (Str × Decl)) {a b : State},
    (∀ p ∈ l, p ∈ it.decls ∧ p.2.kind = .response) → Agree it a b → Sess it a → Sess it b →
    Agree it (takeSaved l a).1 (takeSaved l b).1 ∧ (takeSaved l a).2 = (takeSaved l b).2
  | [], a, b, _, h, _, _ => ⟨h, rfl⟩
  | (n, d) :: l, a, b, hl, h, hsa, hsb => by
    have hp := hl (n, d) (by simp)
    have hn : ∀ p ∈ it.decls, p.2.kind = .outcome → p.1 ≠ n := by
      intro p hpd hk he
      obtain rfl := clean_inj hc hpd hp.1 he
      rw [hp.2] at hk; cases hk
    simp only [takeSaved]
    rw [h.map _ (saved_not_outcome hc n)]
    cases hs : dget (n ++ sufSaved) b.map with
    | none => exact takeSaved_agree hc l (fun p hp => hl p (by simp [hp])) h hsa hsb
    | some s =>
      dsimp only
      have hg : a.get n = b.get n := by unfold State.get; rw [h.map n hn]
      rw [hg]
      cases hv : b.get n with
      | error x => exact ⟨h, rfl⟩
      | ok v =>
        dsimp only
        cases hw : setVal v s with
        | error x => exact ⟨h, rfl⟩
        | ok w =>
          dsimp only
          obtain ⟨ka, ka2⟩ := ddel_keys (k := n ++ sufSaved) (dset_nodup n w a.map hsa.keys)
          obtain ⟨kb, kb2⟩ := ddel_keys (k := n ++ sufSaved) (dset_nodup n w b.map hsb.keys)
          have one : ∀ {c : State}, Sess it c → c.get n = .ok v → dget (n ++ sufSaved) c.map = some s →
              Sess it { c with map := ddel (n ++ sufSaved) (dset n w c.map) } := by
            intro c hc1 hcv hcs
            obtain ⟨c', e1, e2, _⟩ := takeSaved_ok hc [(n, d)] c (by simpa using hp.1) (by simp) hc1
            simp only [takeSaved, hcs, hcv, hw] at e1
            cases e1
            exact e2
          refine takeSaved_agree hc l (fun p hp => hl p (by simp [hp])) ⟨h.decls, h.lower, ?_, ?_⟩
            (one hsa (hg.trans hv) ((h.map _ (saved_not_outcome hc n)).trans hs)) (one hsb hv hs)
          · intro m hm
            dsimp only
            rw [ka2, kb2, dget_dset, dget_dset, h.map m hm]
          · intro m
            dsimp only
            rw [ka2, kb2, dget_dset, dget_dset]
            split
            · rfl
            · split
              · rfl
              · exact h.keys m

theorem defaults_same {it : Item} (hc : it.clean) {a b : State} (h : Agree it a b) (hsa : Sess it a)
    (hsb : Sess it b) :
    ∃ a' b', setOutcomeDefaults a = (a', none) ∧ setOutcomeDefaults b = (b', none) ∧ State.Same a' b' := by
  obtain ⟨a', a1, a2, a3, a4, a5⟩ := outcomeDefaults_ok hc a hsa
  obtain ⟨b', b1, b2, b3, b4, b5⟩ := outcomeDefaults_ok hc b hsb
  refine ⟨a', b', a1, b1, a2.decls.trans b2.decls.symm, a3.trans (h.lower.trans b3.symm), fun n => ?_⟩
  by_cases hn : ∃ p ∈ it.decls, p.2.kind = .outcome ∧ p.1 = n
  · obtain ⟨p, hp, hk, rfl⟩ := hn
    obtain ⟨v, v1, v2⟩ := a5 p hp hk
    obtain ⟨w, w1, w2⟩ := b5 p hp hk
    have e := h.map (p.1 ++ sufDefault) fun q hq _ => Ne.symm (suf_ne (hc.noDot q hq) _)
    rw [v1, w1] at e
    cases e
    rw [v2, w2]
  · have hn : ∀ p ∈ it.decls, p.2.kind = .outcome → p.1 ≠ n := fun p hp hk he => hn ⟨p, hp, hk, he⟩
    rw [a4 n hn, b4 n hn, h.map n hn]

/-! ## Theorems -/

/-- C97: for an item that is not adaptive, accepted submissions to two sessions that differ only in the
outcomes computed earlier lead to the same session and the same exception, if any. -/
theorem C97_outcomes_forgotten (parse : BaseType → Str → R (Option Datum)) (hpo : ParseOk parse) (it : Item)
    (hc : it.clean) (had : it.adaptive = false) (pfx : Str) (ps : List (Str × Sub)) (a b : State)
    (hsa : Sess it a) (hsb : Sess it b) (hl : a.lower = b.lower)
    (hab : ∀ n, (∀ p ∈ it.decls, p.2.kind = .outcome → p.1 ≠ n) → dget n a.map = dget n b.map)
    (hok : (saveParams parse pfx ps a).2 = none) :
    State.Same (submit parse it pfx ps a).1 (submit parse it pfx ps b).1 ∧
      (submit parse it pfx ps a).2 = (submit parse it pfx ps b).2 := by
  have h : Agree it a b := by
    refine ⟨hsa.decls.trans hsb.decls.symm, hl, hab, fun n => ?_⟩
    by_cases hn : ∃ p ∈ it.decls, p.2.kind = .outcome ∧ p.1 = n
    · obtain ⟨p, hp, hk, rfl⟩ := hn
      obtain ⟨v, hv, _⟩ := hsa.val p hp
      obtain ⟨w, hw, _⟩ := hsb.val p hp
      rw [hv, hw]; rfl
    · rw [hab n fun p hp hk he => hn ⟨p, hp, hk, he⟩]
  obtain ⟨h1, h2⟩ := saveParams_agree (parse := parse) hc pfx ps h
  have ka := (saveParams_keeps hpo hc pfx ps a hsa).1
  have kb := (saveParams_keeps hpo hc pfx ps b hsb).1
  unfold submit
  rcases ha : saveParams parse pfx ps a with ⟨a1, ea⟩
  rcases hb : saveParams parse pfx ps b with ⟨b1, eb⟩
  rw [ha] at h1 h2 hok ka
  rw [hb] at h1 h2 kb
  dsimp only at h1 h2 hok ka kb
  subst hok; subst h2
  simp only [Run.then]
  have hmem : ∀ p ∈ ofKind .response it.decls, p ∈ it.decls ∧ p.2.kind = .response :=
    fun p hp => mem_ofKind.1 hp
  have hnd : ((ofKind .response it.decls).map (·.1)).Nodup :=
    hc.nodup.sublist (List.Sublist.map _ List.filter_sublist)
  obtain ⟨a2, p1, p2, _⟩ := takeSaved_ok hc _ a1 (fun p hp => (hmem p hp).1) hnd ka
  obtain ⟨b2, q1, q2, _⟩ := takeSaved_ok hc _ b1 (fun p hp => (hmem p hp).1) hnd kb
  have ht := (takeSaved_agree hc _ hmem h1 ka kb).1
  rw [ka.decls, kb.decls]
  rw [p1, q1] at ht ⊢
  dsimp only at ht ⊢
  obtain ⟨a3, b3, r1, r2, r3⟩ := defaults_same hc ht p2 q2
  unfold endAttempt
  rw [had]
  simp only [Bool.false_eq_true, if_false, r1, r2, Run.then]
  split
  · exact ⟨r3, rfl⟩
  · exact process_same _ r3

/-- A refused submission changes saved values at most. -/
theorem C97_refused (parse : BaseType → Str → R (Option Datum)) (hpo : ParseOk parse) (it : Item)
    (hc : it.clean) (pfx : Str) (ps : List (Str × Sub)) (st : State) (hs : Sess it st)
    (hok : (saveParams parse pfx ps st).2 ≠ none) :
    (submit parse it pfx ps st).2 = (saveParams parse pfx ps st).2 ∧
      Sess it (submit parse it pfx ps st).1 ∧
      ∀ m, (∀ p ∈ it.decls, p.2.kind = .response → m ≠ p.1 ++ sufSaved) →
        dget m (submit parse it pfx ps st).1.map = dget m st.map := by
  have hk := saveParams_keeps hpo hc pfx ps st hs
  unfold submit
  rcases hsv : saveParams parse pfx ps st with ⟨st1, e⟩
  rw [hsv] at hk hok
  cases e with
  | none => exact absurd rfl hok
  | some x => exact ⟨rfl, hk.1, hk.2⟩

/-- The response processing of an item sets outcomes only, from well-formed literals. -/
def Item.rpOk (it : Item) : Prop := ∀ rs, it.rp = some rs → rs.lits ∧ ∀ k ∈ rs.kinds, k = .outcome

theorem submit_attempts (parse : BaseType → Str → R (Option Datum)) (hpo : ParseOk parse) (it : Item)
    (hc : it.clean) (hr : it.rpOk) (pfx : Str) (ps : List (Str × Sub)) (st : State) (hs : Sess it st) :
    Sess it (submit parse it pfx ps st).1 ∧
      dget nNumAttempts (submit parse it pfx ps st).1.map = dget nNumAttempts st.map := by
  by_cases hok : (saveParams parse pfx ps st).2 = none
  · obtain ⟨st', h1, h2, h3⟩ := C97_submit parse hpo it hc pfx ps st hs hok
    have hn : dget nNumAttempts st'.map = dget nNumAttempts st.map :=
      h2.other _ fun p hp => ⟨fun _ => ⟨Ne.symm (hc.builtin p hp).1, Ne.symm (suf_ne builtin_noDot.1 _)⟩,
        fun _ => Ne.symm (hc.builtin p hp).1⟩
    rw [h3]
    cases hrp : it.rp with
    | none => exact ⟨h1, hn⟩
    | some rs =>
      obtain ⟨hl, hk⟩ := hr rs hrp
      refine ⟨process_sess h1 rs hl, ?_⟩
      dsimp only
      rw [(C96_response rs st' hk).1, hn]
      rintro (⟨d, hd, _⟩ | ⟨_, h⟩)
      · rw [h1.decls] at hd
        exact (hc.builtin _ (dget_mem hd)).1 rfl
      · exact builtin_ne.2.1 h
  · obtain ⟨_, h2, h3⟩ := C97_refused parse hpo it hc pfx ps st hs hok
    exact ⟨h2, h3 _ fun p hp _ => Ne.symm (suf_ne builtin_noDot.1 _)⟩

/-- C97: over any history of calls, including calls that raise an exception, `numAttempts` is the
number of calls of `begin_attempt` and every variable keeps its declared type. -/
theorem C97_history (parse : BaseType → Str → R (Option Datum)) (hpo : ParseOk parse) (it : Item)
    (hc : it.clean) (hr : it.rpOk) (pfx : Str) : ∀ (es : List Ev) (st : State) (k : Nat), Sess it st →
    dget nNumAttempts st.map = some (.single (some .integer) (some (.int k))) →
    k + attempts es < 2147483648 →
    Sess it (history parse it pfx es st) ∧
      dget nNumAttempts (history parse it pfx es st).map =
        some (.single (some .integer) (some (.int (k + attempts es : Nat))))
  | [], st, k, hs, hk, _ => ⟨hs, hk⟩
  | .attempt :: es, st, k, hs, hk, hlt => by
    simp only [attempts] at hlt
    obtain ⟨st', e1, e2, e3, _⟩ := C97_begin_attempt it hc st hs k hk (by omega) (by omega)
    have := C97_history parse hpo it hc hr pfx es st' (k + 1) e2 e3 (by omega)
    simp only [history, Ev.run, e1, attempts]
    rw [show k + (attempts es + 1) = k + 1 + attempts es by omega]
    exact this
  | .save ps :: es, st, k, hs, hk, hlt => by
    obtain ⟨h1, h2⟩ := saveParams_keeps hpo hc pfx ps st hs
    exact C97_history parse hpo it hc hr pfx es _ k h1
      ((h2 _ fun p hp _ => Ne.symm (suf_ne builtin_noDot.1 _)).trans hk) hlt
  | .submit ps :: es, st, k, hs, hk, hlt => by
    obtain ⟨h1, h2⟩ := submit_attempts parse hpo it hc hr pfx ps st hs
    exact C97_history parse hpo it hc hr pfx es _ k h1 (h2.trans hk) hlt

/-- C97, the whole life of a session: created, cloned, begun, and then any history. -/
theorem C97_life (parse : BaseType → Str → R (Option Datum)) (hpo : ParseOk parse) (it : Item)
    (hc : it.clean) (ht : it.typed) (hr : it.rpOk) (htp : ∀ rs, it.tp = some rs → rs.lits) (lower : Str → Str)
    (pfx : Str) (es : List Ev) (hlt : attempts es < 2147483648) :
    ∃ st, beginSession (selectClone it (it.init lower)).1 = (st, none) ∧
      Sess it (history parse it pfx es st) ∧
      dget nNumAttempts (history parse it pfx es st).map =
        some (.single (some .integer) (some (.int (attempts es : Nat)))) := by
  have h0 := (C97_init it lower hc ht).1
  have h1 : Sess it (selectClone it (it.init lower)).1 := by
    unfold selectClone
    cases h : it.tp with
    | none => exact h0
    | some rs => exact process_sess h0 rs (htp rs h)
  obtain ⟨st, e1, e2, _, _, e3, _⟩ := C97_begin_session it hc _ h1
  have := C97_history parse hpo it hc hr pfx es st 0 e2 e3 (by omega)
  rw [Nat.zero_add] at this
  exact ⟨st, e1, this⟩

/-! ## Inputs that break the session -/

/-- An item with a response "R" of the given cardinality and base type identifier, and the outcome "S"
of type float. -/
def quiz (n : Str) (c : Card) (adaptive : Bool) : Item where
  decls := [(n, ⟨.response, c, some .identifier, newVal c (some .identifier), newVal c (some .identifier), none, none⟩),
    ([83], ⟨.outcome, .single, some .float, .single (some .float) none, .single (some .float) none, none, none⟩)]
  adaptive := adaptive
  tp := none
  rp := some (.cons (.set .outcome [83] (some (.nary .sum [.leaf (.variable [83]),
    .leaf (.baseValue .float (some (.num 1)))]))) .nil)

/-- The conversion of identifiers. -/
def parseId (t : BaseType) (s : Str) : R (Option Datum) :=
  match t with
  | .identifier => .ok (some (.str s))
  | _ => .error .value

theorem parseId_ok : ParseOk parseId := by
  intro bt s d h
  unfold parseId at h
  split at h
  · cases h; trivial
  · cases h

theorem quiz_clean {n : Str} (c : Card) (ad : Bool) (h1 : 46 ∉ n) (h2 : n ≠ [83])
    (h3 : n ≠ nNumAttempts ∧ n ≠ nDuration ∧ n ≠ nCompletion) : (quiz n c ad).clean := by
  refine ⟨by simp [quiz, h2], ?_, ?_⟩
  · intro p hp
    simp only [quiz, List.mem_cons, List.not_mem_nil, or_false] at hp
    rcases hp with rfl | rfl
    · exact h1
    · decide
  · intro p hp
    simp only [quiz, List.mem_cons, List.not_mem_nil, or_false] at hp
    rcases hp with rfl | rfl
    · exact h3
    · decide

theorem quiz_typed (n : Str) (c : Card) (ad : Bool) (hc : c ≠ .record) : (quiz n c ad).typed := by
  intro p hp
  simp only [quiz, List.mem_cons, List.not_mem_nil, or_false] at hp
  rcases hp with rfl | rfl
  · have := newVal_fits ⟨.response, c, some .identifier, newVal c (some .identifier), newVal c (some .identifier), none, none⟩
    exact ⟨this, this⟩
  · have := newVal_fits ⟨.outcome, .single, some .float, .single (some .float) none, .single (some .float) none, none, none⟩
    exact ⟨this, this⟩

/-- The hypotheses of the theorems are met by a quiz with the response "R". -/
example : (quiz [82] .multiple false).clean ∧ (quiz [82] .multiple false).typed ∧
    Sess (quiz [82] .multiple false) ((quiz [82] .multiple false).init id) ∧
    (quiz [82] .multiple false).rpOk := by
  have h1 := quiz_clean (n := [82]) .multiple false (by decide) (by decide) (by decide)
  have h2 := quiz_typed [82] .multiple false (by decide)
  refine ⟨h1, h2, (C97_init _ id h1 h2).1, ?_⟩
  intro rs hrs
  cases hrs
  refine ⟨?_, by simp [Rules.kinds, Rule.kinds]⟩
  refine ⟨?_, trivial⟩
  intro x hx
  cases hx
  simp [Expr.lits, Expr.litsAll, Leaf.lits, Datum.ok]

def started (it : Item) : State := (beginAttempt (beginSession (it.init id)).1).1

/-- Two submissions to a quiz that is not adaptive: the score is 1 after each.  To an adaptive quiz: 2
after the second. -/
example : ([false, true].map fun ad =>
    let it := quiz [82] .single ad
    let go := fun st => (submit parseId it [] [([82], .one [65])] st).1
    (dget [83] (go (go (started it))).map, dget [82] (go (go (started it))).map)) =
    [(some (.single (some .float) (some (.num 1))), some (.single (some .identifier) (some (.str [65])))),
      (some (.single (some .float) (some (.num 2))), some (.single (some .identifier) (some (.str [65]))))] := by
  decide +kernel

/-- C97: a value submitted twice for a multiple response is counted once. -/
theorem C97_violation_multiplicity :
    (let it := quiz [82] .multiple false
     dget [82] (submit parseId it [] [([82], .many [[65], [65]])] (started it)).1.map) =
      some (.multiple (some .identifier) (some [(.str [65], 1)])) ∧
    (let it := quiz [82] .multiple false
     dget ([82] ++ sufSaved) (saveParams parseId [] [([82], .many [[65], [65]])] (started it)).1.map) =
      some (.multiple (some .identifier) (some [(.str [65], 2)])) := by
  decide +kernel

/-- C97: an ordered response cannot be submitted: with a rank in the name ("R.1") it is an
AttributeError, without one the response becomes NULL. -/
theorem C97_violation_ordered :
    (let it := quiz [82] .ordered false
     (submit parseId it [] [([82, 46, 49], .one [65])] (started it)).2) = some .attribute ∧
    (let it := quiz [82] .ordered false
     let r := submit parseId it [] [([82], .many [[65], [66]])] (started it)
     (r.2, dget [82] r.1.map)) = (none, some (.ordered (some .identifier) none)) := by
  decide +kernel

/-- C97: a response whose identifier holds a '.', here "R.1", cannot be submitted: KeyError. -/
theorem C97_violation_dot :
    (let it := quiz [82, 46, 49] .single false
     ((submit parseId it [] [([82, 46, 49], .one [65])] (started it)).2,
      dget [82, 46, 49] (started it).map)) = (some .key, some (.single (some .identifier) none)) := by
  decide +kernel

/-- C97: an attempt cannot begin before the session does: TypeError. -/
theorem C97_violation_not_begun :
    (beginAttempt ((quiz [82] .single false).init id)).2 = some .type := by
  decide +kernel

end Verif.Qti

import Verif.Qti.Process
import Mathlib.Tactic.Tauto
import Mathlib.Tactic.ByContra
/-
C96: response and template processing.
-/
namespace Verif.Qti

/-! ## Lemmas -/

theorem setVal_shape {v x w : Val} (h : setVal v x = .ok w) : w.card = v.card ∧ w.bt = v.bt := by
  cases v with
  | null => simp only [setVal] at h; split at h <;> cases h; exact ⟨rfl, rfl⟩
  | container t => simp only [setVal] at h; split at h <;> cases h; exact ⟨rfl, rfl⟩
  | single t o =>
    simp only [setVal] at h
    split at h
    · split at h
      · cases h
      · rename_i d _ bt
        cases hc : coerce bt d with
        | error e => rw [hc] at h; cases h
        | ok o => rw [hc] at h; cases h; exact ⟨rfl, rfl⟩
    · cases h; exact ⟨rfl, rfl⟩
  | ordered t o =>
    simp only [setVal] at h
    split at h
    · simp only [setOrdered, bind_ok, pure_ok] at h
      obtain ⟨r, _, rfl⟩ := h
      exact ⟨rfl, rfl⟩
    · cases h; exact ⟨rfl, rfl⟩
  | multiple t o =>
    simp only [setVal] at h
    split at h
    · simp only [setMultiple, bind_ok, pure_ok] at h
      obtain ⟨r, _, rfl⟩ := h
      exact ⟨rfl, rfl⟩
    · cases h; exact ⟨rfl, rfl⟩
  | record o =>
    simp only [setVal] at h
    split at h <;> cases h <;> exact ⟨rfl, rfl⟩

theorem setVal_wf {v x w : Val} (hx : x.wf) (h : setVal v x = .ok w) : w.wf := by
  cases v with
  | null => simp only [setVal] at h; split at h <;> cases h; trivial
  | container t => simp only [setVal] at h; split at h <;> cases h; trivial
  | single t o =>
    simp only [setVal] at h
    split at h
    · rename_i d
      split at h
      · cases h
      · rename_i bt
        exact newSingle_wf (t := some bt) (d := some d) h
    · cases h; exact singleNull_wf _
  | ordered t o =>
    simp only [setVal] at h
    split at h
    · exact setOrdered_wf h
    · cases h; intro l hl; cases hl
  | multiple t o =>
    simp only [setVal] at h
    split at h
    · exact setMultiple_wf h
    · cases h; intro l hl; cases hl
  | record o =>
    simp only [setVal] at h
    split at h
    · rename_i r
      cases h
      obtain ⟨h1, h2, h3⟩ := hx r rfl
      rw [if_neg h1]
      intro r' hr; cases hr
      exact ⟨h1, h2, h3⟩
    · cases h; intro l hl; cases hl

/-- A setting that passes the checks does not fail for a well-formed value. -/
theorem setVal_ok {v x : Val} (hx : x.wf) (hc : x.card = none ∨ x.card = v.card)
    (hb : x.bt = none ∨ x.bt = v.bt) : ∃ w, setVal v x = .ok w := by
  cases v with
  | null =>
    cases x <;> simp [Val.card] at hc <;> exact ⟨_, rfl⟩
  | container t =>
    cases x <;> simp [Val.card] at hc <;> exact ⟨_, rfl⟩
  | single t o =>
    cases x with
    | single t' o' =>
      cases o' with
      | none => exact ⟨_, rfl⟩
      | some d =>
        obtain ⟨bt, rfl, hd⟩ := hx d rfl
        simp only [Val.bt, reduceCtorEq, false_or] at hb
        subst hb
        refine ⟨.single (some bt) (some d), ?_⟩
        simp only [setVal, coerce_id hd]
        rfl
    | _ => exact ⟨_, rfl⟩
  | ordered t o =>
    cases x with
    | ordered t' o' =>
      cases o' with
      | none => exact ⟨_, rfl⟩
      | some l =>
        obtain ⟨hn, bt, rfl, hd⟩ := hx l rfl
        simp only [Val.bt, reduceCtorEq, false_or] at hb
        subst hb
        refine ⟨.ordered (some bt) (if l = [] then none else some l), ?_⟩
        · simp only [setVal, setOrdered, coerceAll_id hd]
          rfl
    | _ => exact ⟨_, rfl⟩
  | multiple t o =>
    cases x with
    | multiple t' o' =>
      cases o' with
      | none => exact ⟨_, rfl⟩
      | some m =>
        obtain ⟨hn, _, bt, rfl, hd⟩ := hx m rfl
        simp only [Val.bt, reduceCtorEq, false_or] at hb
        subst hb
        have hall : ∀ d ∈ m.map (·.1), d.ok bt := by
          intro d hdm
          obtain ⟨p, hp, rfl⟩ := List.mem_map.1 hdm
          exact (hd p hp).1
        refine ⟨.multiple (some bt) (if countAll (m.map (·.1)) = [] then none else some (countAll (m.map (·.1)))), ?_⟩
        · simp only [setVal, setMultiple, coerceAll_id hall]
          rfl
    | _ => exact ⟨_, rfl⟩
  | record o =>
    cases x with
    | record o' => cases o' <;> exact ⟨_, rfl⟩
    | _ => exact ⟨_, rfl⟩

theorem set_ok {st st' : State} {n : Str} {x : Val} (h : st.set n x = .ok st') :
    ∃ v w, dget n st.map = some v ∧ (x.card = none ∨ x.card = v.card) ∧
      (x.bt = none ∨ x.bt = v.bt) ∧ setVal v x = .ok w ∧ st' = { st with map := dset n w st.map } := by
  simp only [State.set, bind_ok] at h
  obtain ⟨v, hv, h⟩ := h
  rw [get_ok] at hv
  split at h
  · cases h
  · rename_i h1
    split at h
    · cases h
    · rename_i h2
      simp only [bind_ok, pure_ok] at h
      obtain ⟨w, hw, rfl⟩ := h
      exact ⟨v, w, hv, by tauto, by tauto, hw, rfl⟩

/-- What a run of rules leaves alone. -/
structure Keeps (P : Str → Prop) (st st' : State) : Prop where
  decls : st'.decls = st.decls
  lower : st'.lower = st.lower
  keys : st'.map.map (·.1) = st.map.map (·.1)
  other : ∀ n, ¬ P n → dget n st'.map = dget n st.map
  shape : ∀ n v, dget n st.map = some v → ∃ v', dget n st'.map = some v' ∧
    v'.card = v.card ∧ v'.bt = v.bt

theorem Keeps.rfl' {P : Str → Prop} {st : State} : Keeps P st st :=
  ⟨rfl, rfl, rfl, fun _ _ => rfl, fun _ v h => ⟨v, h, rfl, rfl⟩⟩

theorem Keeps.trans {P : Str → Prop} {a b c : State} (h1 : Keeps P a b) (h2 : Keeps P b c) :
    Keeps P a c :=
  ⟨h2.decls.trans h1.decls, h2.lower.trans h1.lower, h2.keys.trans h1.keys,
    fun n hn => (h2.other n hn).trans (h1.other n hn), fun n v h => by
      obtain ⟨v', h', e1, e2⟩ := h1.shape n v h
      obtain ⟨v'', h'', f1, f2⟩ := h2.shape n v' h'
      exact ⟨v'', h'', f1.trans e1, f2.trans e2⟩⟩

theorem dset_keys_of_mem {α β : Type} [DecidableEq α] {k : α} {v w : β} : ∀ {m : List (α × β)},
    dget k m = some v → (dset k w m).map (·.1) = m.map (·.1)
  | [], h => by simp [dget] at h
  | (a, b) :: l, h => by
    simp only [dset]
    by_cases he : a = k
    · rw [if_pos he]; simp [he]
    · rw [if_neg he]
      simp only [dget, if_neg he] at h
      simp [dset_keys_of_mem h]

theorem set_keeps {P : Str → Prop} {st st' : State} {n : Str} {x : Val} (hP : P n)
    (h : st.set n x = .ok st') : Keeps P st st' := by
  obtain ⟨v, w, hv, _, _, hw, rfl⟩ := set_ok h
  refine ⟨rfl, rfl, dset_keys_of_mem hv, ?_, ?_⟩
  · intro m hm
    dsimp only
    rw [dget_dset, if_neg]
    rintro rfl; exact hm hP
  · intro m u hu
    dsimp only
    rw [dget_dset]
    by_cases he : n = m
    · subst he
      rw [if_pos rfl]
      rw [hv] at hu; cases hu
      exact ⟨w, rfl, setVal_shape hw⟩
    · rw [if_neg he]
      exact ⟨u, hu, rfl, rfl⟩

theorem set_wf {st st' : State} {n : Str} {x : Val} (hs : st.wf) (hx : x.wf)
    (h : st.set n x = .ok st') : st'.wf := by
  obtain ⟨v, w, hv, _, _, hw, rfl⟩ := set_ok h
  intro m u hu
  dsimp only at hu
  rw [dget_dset] at hu
  split at hu
  · cases hu; exact setVal_wf hx hw
  · exact hs m u hu

theorem runSet_ok {k : SetKind} {n : Str} {e : Option Expr} {st st' : State}
    (h : runSet k n e st = .ok st') : ∃ x v, e = some x ∧ eval st x = .ok v ∧
      match k with
      | .outcome => st.isOutcome n = .ok true ∧ st.set n v = .ok st'
      | .template => st.isTemplate n = .ok true ∧ st.set n v = .ok st'
      | .correct => ∃ d, st.getDecl n = .ok (some d) ∧ d.kind = .response ∧ st.set (n ++ sufCorrect) v = .ok st'
      | .default => ∃ d, st.getDecl n = .ok (some d) ∧ (d.kind = .response ∨ d.kind = .outcome) ∧
          st.set (n ++ sufDefault) v = .ok st' := by
  cases e with
  | none => simp [runSet] at h
  | some x =>
    simp only [runSet, bind_ok] at h
    obtain ⟨v, hv, h⟩ := h
    refine ⟨x, v, rfl, hv, ?_⟩
    cases k with
    | outcome =>
      simp only [bind_ok] at h
      obtain ⟨b, hb, h⟩ := h
      cases b with
      | true => exact ⟨hb, h⟩
      | false => cases h
    | template =>
      simp only [bind_ok] at h
      obtain ⟨b, hb, h⟩ := h
      cases b with
      | true => exact ⟨hb, h⟩
      | false => cases h
    | correct =>
      simp only [bind_ok] at h
      obtain ⟨b, hb, h⟩ := h
      cases b with
      | none => cases h
      | some d =>
        dsimp only at h
        split at h
        · rename_i hk; exact ⟨d, hb, hk, h⟩
        · cases h
    | default =>
      simp only [bind_ok] at h
      obtain ⟨b, hb, h⟩ := h
      cases b with
      | none => cases h
      | some d =>
        dsimp only at h
        split at h
        · rename_i hk; exact ⟨d, hb, hk, h⟩
        · cases h

/-- The variables that a setting rule may change. -/
def mayChange (decls : List (Str × Decl)) (k : SetKind) (m : Str) : Prop :=
  match k with
  | .outcome => (∃ d, dget m decls = some d ∧ d.kind = .outcome) ∨
      (dget m decls = none ∧ m = nCompletion)
  | .template => ∃ d, dget m decls = some d ∧ d.kind = .template
  | .correct => ∃ n d, dget n decls = some d ∧ d.kind = .response ∧ m = n ++ sufCorrect
  | .default => ∃ n d, dget n decls = some d ∧ (d.kind = .response ∨ d.kind = .outcome) ∧
      m = n ++ sufDefault

theorem getDecl_ok {st : State} {n : Str} {o : Option Decl} (h : st.getDecl n = .ok o) :
    o = dget n st.decls := by
  simp only [State.getDecl] at h
  split at h
  · cases h; rfl
  · cases h

theorem runSet_keeps {k : SetKind} {n : Str} {e : Option Expr} {st st' : State}
    (h : runSet k n e st = .ok st') : Keeps (mayChange st.decls k) st st' := by
  obtain ⟨x, v, rfl, hv, h⟩ := runSet_ok h
  cases k with
  | outcome =>
    refine set_keeps ?_ h.2
    have h1 := h.1
    simp only [State.isOutcome, bind_ok] at h1
    obtain ⟨o, ho, h1⟩ := h1
    have ho := getDecl_ok ho
    cases o with
    | none =>
      simp only [pure_ok, decide_eq_true_eq] at h1
      exact Or.inr ⟨ho.symm, h1⟩
    | some d =>
      simp only [pure_ok, decide_eq_true_eq] at h1
      exact Or.inl ⟨d, ho.symm, h1⟩
  | template =>
    refine set_keeps ?_ h.2
    have h1 := h.1
    simp only [State.isTemplate, bind_ok] at h1
    obtain ⟨o, ho, h1⟩ := h1
    have ho := getDecl_ok ho
    cases o with
    | none => cases h1
    | some d =>
      simp only [pure_ok, decide_eq_true_eq] at h1
      exact ⟨d, ho.symm, h1⟩
  | correct =>
    obtain ⟨d, hd, hk, h⟩ := h
    exact set_keeps ⟨n, d, (getDecl_ok hd).symm, hk, rfl⟩ h
  | default =>
    obtain ⟨d, hd, hk, h⟩ := h
    exact set_keeps ⟨n, d, (getDecl_ok hd).symm, hk, rfl⟩ h

theorem runSet_wf {k : SetKind} {n : Str} {e : Option Expr} {st st' : State} (hs : st.wf)
    (hl : ∀ x, e = some x → x.lits) (h : runSet k n e st = .ok st') : st'.wf := by
  obtain ⟨x, v, rfl, hv, h⟩ := runSet_ok h
  have hw := C91_evaluate_wf st x v hs (hl x rfl) hv
  cases k with
  | outcome => exact set_wf hs hw h.2
  | template => exact set_wf hs hw h.2
  | correct => obtain ⟨d, hd, hk, h⟩ := h; exact set_wf hs hw h
  | default => obtain ⟨d, hd, hk, h⟩ := h; exact set_wf hs hw h

theorem keeps_mono {P Q : Str → Prop} (hPQ : ∀ n, P n → Q n) {a b : State} (h : Keeps P a b) :
    Keeps Q a b :=
  ⟨h.decls, h.lower, h.keys, fun n hn => h.other n fun hp => hn (hPQ n hp), h.shape⟩

mutual
theorem Rule.run_keeps : ∀ (r : Rule) (st : State),
    Keeps (fun m => ∃ k ∈ r.kinds, mayChange st.decls k m) st (r.run st).1
  | .set k n e, st => by
    simp only [Rule.run]
    split
    · rename_i st' h
      exact keeps_mono (fun m hm => ⟨k, by simp [Rule.kinds], hm⟩) (runSet_keeps h)
    · exact Keeps.rfl'
  | .cond b, st => by
    simp only [Rule.run, Rule.kinds]
    exact Branches.run_keeps b st
  | .exit, st => Keeps.rfl'
theorem Rules.run_keeps : ∀ (rs : Rules) (st : State),
    Keeps (fun m => ∃ k ∈ rs.kinds, mayChange st.decls k m) st (rs.run st).1
  | .nil, st => Keeps.rfl'
  | .cons r rs, st => by
    have h1 := Rule.run_keeps r st
    simp only [Rules.run, Rules.kinds]
    split
    · rename_i st' he
      rw [he] at h1
      have h2 := Rules.run_keeps rs st'
      have hd := h1.decls
      dsimp only at hd
      rw [hd] at h2
      exact (keeps_mono (fun m ⟨k, hk, hm⟩ => ⟨k, by simp [hk], hm⟩) h1).trans
        (keeps_mono (fun m ⟨k, hk, hm⟩ => ⟨k, by simp [hk], hm⟩) h2)
    · rename_i st' x he
      rw [he] at h1
      exact keeps_mono (fun m ⟨k, hk, hm⟩ => ⟨k, by simp [hk], hm⟩) h1
theorem Branches.run_keeps : ∀ (b : Branches) (st : State),
    Keeps (fun m => ∃ k ∈ b.kinds, mayChange st.decls k m) st (b.run st).1
  | .none, st => Keeps.rfl'
  | .els rs, st => by
    simp only [Branches.run, Branches.kinds]
    exact Rules.run_keeps rs st
  | .ite e rs rest, st => by
    simp only [Branches.run, Branches.kinds]
    split
    · exact Keeps.rfl'
    · exact keeps_mono (fun m ⟨k, hk, hm⟩ => ⟨k, by simp [hk], hm⟩) (Rules.run_keeps rs st)
    · exact keeps_mono (fun m ⟨k, hk, hm⟩ => ⟨k, by simp [hk], hm⟩) (Branches.run_keeps rest st)
end

mutual
theorem Rule.run_wf : ∀ (r : Rule) (st : State), st.wf → r.lits → (r.run st).1.wf
  | .set k n e, st, hs, hl => by
    simp only [Rule.run]
    split
    · rename_i st' h; exact runSet_wf hs hl h
    · exact hs
  | .cond b, st, hs, hl => Branches.run_wf b st hs hl
  | .exit, st, hs, hl => hs
theorem Rules.run_wf : ∀ (rs : Rules) (st : State), st.wf → rs.lits → (rs.run st).1.wf
  | .nil, st, hs, hl => hs
  | .cons r rs, st, hs, hl => by
    have h1 := Rule.run_wf r st hs hl.1
    simp only [Rules.run]
    split
    · rename_i st' he
      rw [he] at h1
      exact Rules.run_wf rs st' h1 hl.2
    · rename_i st' x he
      rw [he] at h1
      exact h1
theorem Branches.run_wf : ∀ (b : Branches) (st : State), st.wf → b.lits → (b.run st).1.wf
  | .none, st, hs, hl => hs
  | .els rs, st, hs, hl => Rules.run_wf rs st hs hl
  | .ite e rs rest, st, hs, hl => by
    simp only [Branches.run]
    split
    · exact hs
    · exact Rules.run_wf rs st hs hl.2.1
    · exact Branches.run_wf rest st hs hl.2.2
end

theorem process_fst (rs : Rules) (st : State) : (process rs st).1 = (rs.run st).1 := by
  unfold process
  split
  · rename_i h; rw [h]
  · rfl

/-! ## Theorems -/

/-- C96: a run of response processing, whether it ends normally or with an exception, changes only
outcome variables; no variable is added, removed, or given another cardinality or base type; and
well-formed values stay well-formed. -/
theorem C96_response (rs : Rules) (st : State) (hr : ∀ k ∈ rs.kinds, k = .outcome) :
    (∀ n, ¬ ((∃ d, dget n st.decls = some d ∧ d.kind = .outcome) ∨
        (dget n st.decls = none ∧ n = nCompletion)) →
      dget n (process rs st).1.map = dget n st.map) ∧
    (process rs st).1.map.map (·.1) = st.map.map (·.1) ∧
    (∀ n v, dget n st.map = some v → ∃ v', dget n (process rs st).1.map = some v' ∧
      v'.card = v.card ∧ v'.bt = v.bt) ∧
    (st.wf → rs.lits → (process rs st).1.wf) := by
  have h := Rules.run_keeps rs st
  rw [process_fst]
  refine ⟨fun n hn => h.other n ?_, h.keys, h.shape, Rules.run_wf rs st⟩
  rintro ⟨k, hk, hm⟩
  obtain rfl := hr k hk
  exact hn hm

/-- C96: a run of template processing changes only template variables, and the values kept as the
defaults of response and outcome variables and as correct responses. -/
theorem C96_template (rs : Rules) (st : State) (hr : ∀ k ∈ rs.kinds, k ≠ .outcome) :
    (∀ n, dget n (process rs st).1.map ≠ dget n st.map →
      (∃ d, dget n st.decls = some d ∧ d.kind = .template) ∨
      (∃ v d, dget v st.decls = some d ∧ d.kind = .response ∧ n = v ++ sufCorrect) ∨
      (∃ v d, dget v st.decls = some d ∧ (d.kind = .response ∨ d.kind = .outcome) ∧
        n = v ++ sufDefault)) ∧
    (process rs st).1.map.map (·.1) = st.map.map (·.1) ∧
    (∀ n v, dget n st.map = some v → ∃ v', dget n (process rs st).1.map = some v' ∧
      v'.card = v.card ∧ v'.bt = v.bt) ∧
    (st.wf → rs.lits → (process rs st).1.wf) := by
  have h := Rules.run_keeps rs st
  rw [process_fst]
  refine ⟨fun n hn => ?_, h.keys, h.shape, Rules.run_wf rs st⟩
  by_contra hc
  refine hn (h.other n ?_)
  rintro ⟨k, hk, hm⟩
  have := hr k hk
  cases k with
  | outcome => exact this rfl
  | template => exact hc (Or.inl hm)
  | correct => exact hc (Or.inr (Or.inl hm))
  | default => exact hc (Or.inr (Or.inr hm))

/-- The branches of a condition as a list: the if and the else-ifs, and the else. -/
def Branches.list : Branches → List (Option Expr × Rules)
  | .none => []
  | .els _ => []
  | .ite e rs rest => (e, rs) :: rest.list

def Branches.otherwise : Branches → Rules
  | .none => .nil
  | .els rs => rs
  | .ite _ _ rest => rest.otherwise

/-- C96: at most one branch of a condition runs.  When the conditions before it are false or NULL
and its own is true, it is that branch; when all are false or NULL, the else; and the branch starts
from the state in which the condition was reached. -/
theorem C96_branch (b : Branches) (st : State) :
    (∀ pre e rs post, b.list = pre ++ (e, rs) :: post → (∀ p ∈ pre, testCond st p.1 = .ok false) →
      testCond st e = .ok true → (Rule.cond b).run st = rs.run st) ∧
    ((∀ p ∈ b.list, testCond st p.1 = .ok false) → (Rule.cond b).run st = b.otherwise.run st) ∧
    (∀ pre e rs post x, b.list = pre ++ (e, rs) :: post → (∀ p ∈ pre, testCond st p.1 = .ok false) →
      testCond st e = .error x → (Rule.cond b).run st = (st, some x)) := by
  simp only [Rule.run]
  refine ⟨?_, ?_, ?_⟩
  · intro pre
    induction pre generalizing b with
    | nil =>
      intro e rs post hb _ he
      cases b with
      | none => cases hb
      | els rs => cases hb
      | ite e' rs' rest =>
        simp only [Branches.list, List.nil_append, List.cons.injEq, Prod.mk.injEq] at hb
        obtain ⟨⟨rfl, rfl⟩, _⟩ := hb
        simp only [Branches.run, he]
    | cons p pre ih =>
      intro e rs post hb hp he
      cases b with
      | none => cases hb
      | els rs => cases hb
      | ite e' rs' rest =>
        simp only [Branches.list, List.cons_append, List.cons.injEq] at hb
        obtain ⟨rfl, hb⟩ := hb
        have := hp (e', rs') (by simp)
        simp only [Branches.run, this]
        exact ih rest e rs post hb (fun p hp' => hp p (by simp [hp'])) he
  · intro hp
    match b with
    | .none => rfl
    | .els rs => rfl
    | .ite e' rs' rest =>
      have := hp (e', rs') (by simp [Branches.list])
      simp only [Branches.run, this, Branches.otherwise]
      exact aux rest st (fun p hp' => hp p (by simp [Branches.list, hp']))
  · intro pre
    induction pre generalizing b with
    | nil =>
      intro e rs post x hb _ he
      cases b with
      | none => cases hb
      | els rs => cases hb
      | ite e' rs' rest =>
        simp only [Branches.list, List.nil_append, List.cons.injEq, Prod.mk.injEq] at hb
        obtain ⟨⟨rfl, rfl⟩, _⟩ := hb
        simp only [Branches.run, he]
    | cons p pre ih =>
      intro e rs post x hb hp he
      cases b with
      | none => cases hb
      | els rs => cases hb
      | ite e' rs' rest =>
        simp only [Branches.list, List.cons_append, List.cons.injEq] at hb
        obtain ⟨rfl, hb⟩ := hb
        have := hp (e', rs') (by simp)
        simp only [Branches.run, this]
        exact ih rest e rs post x hb (fun p hp' => hp p (by simp [hp'])) he
where
  aux : ∀ (b : Branches) (st : State), (∀ p ∈ b.list, testCond st p.1 = .ok false) →
      b.run st = b.otherwise.run st
    | .none, _, _ => rfl
    | .els rs, _, _ => rfl
    | .ite e' rs' rest, st, hp => by
      have := hp (e', rs') (by simp [Branches.list])
      simp only [Branches.run, this, Branches.otherwise]
      exact aux rest st (fun p hp' => hp p (by simp [Branches.list, hp']))

/-- The meaning of a condition: a NULL value counts as false. -/
theorem C96_condition (st : State) (e : Expr) (v : Val) (h : eval st e = .ok v) (hw : v.wf) :
    (testCond st (some e) = .ok true ↔ v = boolVal (some true)) ∧
    (v.isSet = false → (v.bt = none ∨ v.bt = some .boolean) → (v.card = none ∨ v.card = some .single) →
      testCond st (some e) = .ok false) ∧
    (v = boolVal (some false) → testCond st (some e) = .ok false) := by
  simp only [testCond, h]
  refine ⟨⟨?_, ?_⟩, ?_, ?_⟩
  · intro hh
    simp only [bind_ok, Except.ok.injEq] at hh
    obtain ⟨_, rfl, _, hb, _, hc, hh⟩ := hh
    split at hh
    · rename_i t b
      cases hh
      obtain ⟨bt, rfl, hd⟩ := hw _ rfl
      cases bt <;> simp only [Datum.ok] at hd
      rfl
    · cases hh
    · cases hh
  · rintro rfl; rfl
  · intro hs hb hc
    cases v with
    | null => rfl
    | container t =>
      simp only [Val.bt] at hb
      rcases hb with rfl | rfl <;> rfl
    | single t o =>
      cases o with
      | some d => cases hs
      | none =>
        simp only [Val.bt] at hb
        rcases hb with rfl | rfl <;> rfl
    | ordered t l => simp [Val.card] at hc
    | multiple t l => simp [Val.card] at hc
    | record l => simp [Val.card] at hc
  · rintro rfl; rfl

theorem append_run : ∀ (rs ts : Rules) (st : State), (rs.append ts).run st =
    match rs.run st with
    | (st', none) => ts.run st'
    | r => r
  | .nil, ts, st => rfl
  | .cons r rs, ts, st => by
    simp only [Rules.append, Rules.run]
    rcases h : r.run st with ⟨st', _ | x⟩
    · exact append_run rs ts st'
    · rfl

/-- C96: nothing runs after an exit rule.  When the rules before it (or an exit inside them) end
the run, the rules after have no effect. -/
theorem C96_exit (pre post : Rules) (st : State) :
    process (pre.append (.cons .exit post)) st = process pre st := by
  unfold process
  rw [append_run]
  rcases h : pre.run st with ⟨st', _ | x⟩
  · rfl
  · rfl

/-- C96: an exit inside a condition ends the whole run, not only the condition. -/
theorem C96_exit_nested (r : Rule) (post : Rules) (st st' : State) (h : r.run st = (st', some .stop)) :
    process (.cons r post) st = (st', none) := by
  simp only [process, Rules.run, h]

/-- The value as a set: each element of a multiple container once. -/
def Val.once : Val → Val
  | .multiple t (some m) => .multiple t (some (m.map fun p => (p.1, 1)))
  | v => v

theorem bump_notMem {d : Datum} : ∀ {m : List (Datum × Nat)}, d ∉ m.map (·.1) → bump d m = m ++ [(d, 1)]
  | [], _ => rfl
  | (a, b) :: l, h => by
    simp only [List.map_cons, List.mem_cons, not_or] at h
    have h1 : a ≠ d := fun e => h.1 e.symm
    have ih := bump_notMem (m := l) h.2
    simp only [bump, dget, dset, if_neg h1, List.cons_append] at ih ⊢
    rw [ih]

theorem countFold_nodup : ∀ (l : List Datum) (m : List (Datum × Nat)), l.Nodup →
    (∀ d ∈ l, d ∉ m.map (·.1)) →
    l.foldl (fun m d => bump d m) m = m ++ l.map fun d => (d, 1)
  | [], m, _, _ => by simp
  | d :: l, m, hn, hd => by
    rw [List.nodup_cons] at hn
    rw [List.foldl_cons, bump_notMem (hd d (by simp)), countFold_nodup l _ hn.2]
    · simp
    · intro x hx
      simp only [List.map_append, List.map_cons, List.map_nil, List.mem_append, List.mem_singleton, not_or]
      exact ⟨hd x (by simp [hx]), fun e => hn.1 (e ▸ hx)⟩

/-- C96: after `setOutcomeValue` (or a template rule) the variable holds the value of the
expression, taken with each element of a multiple container once; a value that is NULL makes the
variable NULL. -/
theorem C96_set_partial (k : SetKind) (n : Str) (e : Expr) (st st' : State) (v : Val) (hs : st.wf)
    (hl : e.lits) (hk : k = .outcome ∨ k = .template)
    (hv : eval st e = .ok v) (h : runSet k n (some e) st = .ok st') :
    (v.isSet = true → dget n st'.map = some v.once) ∧
    (v.isSet = false → ∃ w, dget n st'.map = some w ∧ w.isSet = false) := by
  have hw := C91_evaluate_wf st e v hs hl hv
  obtain ⟨x, v', hx, hv', h⟩ := runSet_ok h
  cases hx
  rw [hv] at hv'; cases hv'
  have h : st.set n v = .ok st' := by
    rcases hk with rfl | rfl <;> exact h.2
  obtain ⟨u, w, hu, hc, hb, hset, rfl⟩ := set_ok h
  dsimp only
  rw [dget_dset, if_pos rfl]
  refine ⟨fun hset' => ?_, fun hset' => ⟨w, rfl, ?_⟩⟩
  · congr 1
    cases v with
    | null => cases hset'
    | container t => cases hset'
    | single t o =>
      cases o with
      | none => cases hset'
      | some d =>
        obtain ⟨bt, rfl, hd⟩ := hw d rfl
        cases u <;> simp [Val.card] at hc
        simp only [Val.bt, reduceCtorEq, false_or] at hb
        subst hb
        simp only [setVal, coerce_id hd] at hset
        cases hset; rfl
    | ordered t o =>
      cases o with
      | none => cases hset'
      | some l =>
        obtain ⟨hne, bt, rfl, hd⟩ := hw l rfl
        cases u <;> simp [Val.card] at hc
        simp only [Val.bt, reduceCtorEq, false_or] at hb
        subst hb
        simp only [setVal, setOrdered, coerceAll_id hd] at hset
        cases hset
        change Val.ordered (some bt) (if l = [] then none else some l) = _
        rw [if_neg hne]; rfl
    | multiple t o =>
      cases o with
      | none => cases hset'
      | some m =>
        obtain ⟨hne, hnd, bt, rfl, hd⟩ := hw m rfl
        have hall : ∀ d ∈ m.map (·.1), d.ok bt := by
          intro d hdm
          obtain ⟨p, hp, rfl⟩ := List.mem_map.1 hdm
          exact (hd p hp).1
        cases u <;> simp [Val.card] at hc
        simp only [Val.bt, reduceCtorEq, false_or] at hb
        subst hb
        simp only [setVal, setMultiple, coerceAll_id hall] at hset
        cases hset
        have hca : countAll (m.map (·.1)) = m.map fun p => (p.1, 1) := by
          unfold countAll
          rw [countFold_nodup _ [] hnd (by simp)]
          simp
        change Val.multiple (some bt) (if countAll (m.map (·.1)) = [] then none else some (countAll (m.map (·.1)))) = _
        rw [hca, if_neg (by simpa using hne)]
        rfl
    | record o =>
      cases o with
      | none => cases hset'
      | some r =>
        obtain ⟨hne, _, _⟩ := hw r rfl
        cases u <;> simp [Val.card] at hc
        simp only [setVal] at hset
        cases hset
        rw [if_neg hne]; rfl
  · cases u <;> cases v <;> simp [Val.card] at hc <;> simp [Val.isSet] at hset' <;>
      (try subst hset') <;> (cases hset; rfl)

/-! ## Witnesses -/

/-- "A" -/
def nA : Str := [65]
/-- "R" -/
def nR : Str := [82]

def plainDecl (k : Kind) (c : Card) (t : BaseType) : Decl := ⟨k, c, some t, .null, .null, none, none⟩

/-- An outcome A and a response R, both multiple identifiers; the response is {x, x}. -/
def procState : State where
  decls := [(nA, plainDecl .outcome .multiple .identifier), (nR, plainDecl .response .multiple .identifier)]
  map := [(nCompletion, .single (some .identifier) none), (nA, .multiple (some .identifier) none),
    (nR, .multiple (some .identifier) (some [(.str [120], 2)]))]
  lower := id

/-- The full statement fails for multiple containers: copying the response {x, x} to the outcome
gives {x}. -/
theorem C96_violation_multiplicity :
    (dget nR procState.map, dget nA (process (.cons (.set .outcome nA (some (.leaf (.variable nR)))) .nil)
      procState).1.map) =
    (some (.multiple (some .identifier) (some [(.str [120], 2)])),
      some (.multiple (some .identifier) (some [(.str [120], 1)]))) := by decide +kernel

/-- An item with a response R and an outcome named "R.CORRECT" (a legal identifier). -/
def clashState : State where
  decls := [(nR, plainDecl .response .single .identifier), (nR ++ sufCorrect, plainDecl .outcome .single .identifier)]
  map := [(nR ++ sufCorrect, .single (some .identifier) (some (.str [97]))), (nR, .single (some .identifier) (some (.str [98])))]
  lower := id

/-- Setting that outcome changes the correct response of R. -/
theorem C96_violation_name_clash :
    (eval clashState (.leaf (.correct nR)),
      eval (process (.cons (.set .outcome (nR ++ sufCorrect) (some (.leaf (.variable nR)))) .nil) clashState).1
        (.leaf (.correct nR))) =
    (.ok (.single (some .identifier) (some (.str [97]))), .ok (.single (some .identifier) (some (.str [98])))) := by
  decide +kernel

example : procState.wf := by
  intro n v h
  simp only [procState, dget] at h
  repeat' split at h
  · cases h; exact singleNull_wf _
  · cases h; intro m hm; cases hm
  · cases h
    intro m hm
    cases hm
    refine ⟨by simp, by simp, .identifier, rfl, ?_⟩
    intro p hp
    simp at hp
    subst hp
    exact ⟨trivial, by decide⟩
  · cases h

example : (process (.cons (.cond (.ite (some (.un .isNull (.leaf (.variable nR)))) .nil
      (.ite (some (.un .isNull (.leaf (.variable nA)))) (.cons (.set .outcome nA (some (.leaf (.variable nR)))) (.cons .exit .nil)) .none)))
    (.cons (.set .outcome nA (some (.leaf .null))) .nil)) procState).1.map.map (·.2) =
    [.single (some .identifier) none, .multiple (some .identifier) (some [(.str [120], 1)]),
      .multiple (some .identifier) (some [(.str [120], 2)])] := by decide +kernel

end Verif.Qti

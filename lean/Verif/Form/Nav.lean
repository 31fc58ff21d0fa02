import Mathlib.Tactic.ByContra
import Mathlib.Data.List.Perm.Subperm

/-!
# C115: moving through a test

Model of `TestSessionState._branch_target`, `_next_question`
(`/repo/pyslet/qtiv2/variables.py` 2266-2361) and of the pre-conditions and branch
rules of test parts and section parts (`/repo/pyslet/qtiv2/tests.py` 241-271,
388-429).

A test form is a list of identifiers (lists of character codes).  A condition
is an arbitrary function of the state of the session that may fail (a
`ProcessingError` of the expression).  Preparing the item (template defaults,
clones, `begin_session` of the item) is not modelled.
-/

namespace Verif.Form

/-- Exceptions: `core.ProcessingError`, `KeyError` (`GetPart`), `IndexError`
(`id[0]` of an empty identifier), `TypeError`; `loops` would be a loop that does not end. -/
inductive NavErr
  | processing | key | index | type | loops
  deriving DecidableEq, Repr

/-- Which class a part of the test is an instance of. -/
inductive Kind
  | part | sect | item
  deriving DecidableEq, Repr

/-- A condition evaluated against the session state (processing.py:618-631). -/
abbrev Cond (σ : Type) := σ → Option Bool

/-- A test part, section or item reference: its kind, whether the test part it is in
is linear, the identifier of that test part, its pre-conditions and its branch
rules with their targets (tests.py:210-220, 363-371). -/
structure Part (σ : Type) where
  kind : Kind
  linear : Bool
  tp : List Nat
  pre : List (Cond σ)
  rules : List (Cond σ × List Nat)

/-- `self.test.GetPart`. -/
abbrev Parts (σ : Type) := List Nat → Option (Part σ)

/-- The characters of "EXIT_TEST". -/
def exitTest : List Nat := [69, 88, 73, 84, 95, 84, 69, 83, 84]
/-- The characters of "EXIT_SECTION". -/
def exitSection : List Nat := [69, 88, 73, 84, 95, 83, 69, 67, 84, 73, 79, 78]
/-- The characters of "EXIT_TESTPART". -/
def exitTestPart : List Nat := [69, 88, 73, 84, 95, 84, 69, 83, 84, 80, 65, 82, 84]

/-- The loop over the pre-conditions (tests.py:244-247, 394-397). -/
def checkAll {σ} (st : σ) : List (Cond σ) → Except NavErr Bool
  | [] => .ok true
  | c :: cs =>
    match c st with
    | none => .error .processing
    | some false => .ok false
    | some true => checkAll st cs

/-- `check_pre_conditions` (tests.py:241-247, 388-397): for a section part in a
non-linear test part it returns None, which counts as false. -/
def checkPre {σ} (st : σ) (p : Part σ) : Except NavErr Bool :=
  if p.kind ≠ .part ∧ p.linear = false then .ok false else checkAll st p.pre

/-- The check of the target of a branch rule of a test part (tests.py:259-271) or of
a section part (tests.py:412-429). -/
def checkTarget {σ} (ps : Parts σ) (p : Part σ) (target : List Nat) : Except NavErr Unit :=
  if target = exitTest then .ok ()
  else if p.kind ≠ .part ∧ (target = exitSection ∨ target = exitTestPart) then .ok ()
  else
    match ps target with
    | none => .error .processing
    | some q =>
      if p.kind = .part then
        if q.kind = .part then .ok () else .error .processing
      else if q.kind = .part then .error .processing
      else if q.tp = p.tp then .ok () else .error .processing

/-- The loop over the branch rules. -/
def firstRule {σ} (ps : Parts σ) (st : σ) (p : Part σ) :
    List (Cond σ × List Nat) → Except NavErr (Option (List Nat))
  | [] => .ok none
  | (c, target) :: rs =>
    match c st with
    | none => .error .processing
    | some false => firstRule ps st p rs
    | some true =>
      match checkTarget ps p target with
      | .error e => .error e
      | .ok _ => .ok (some target)

/-- `get_branch_target` (tests.py:249-271, 399-429). -/
def getBranchTarget {σ} (ps : Parts σ) (st : σ) (p : Part σ) :
    Except NavErr (Option (List Nat)) :=
  if p.kind ≠ .part ∧ p.linear = false then .ok none else firstRule ps st p p.rules

/-- The search for the target, from the position `pos`; the list is the form
from that position on (variables.py:2277-2293). -/
def scan {σ} (ps : Parts σ) (target : List Nat) : List (List Nat) → Nat → Except NavErr Nat
  | [], pos => .ok pos
  | id :: r, pos =>
    if target = id then .ok pos
    else
      match id with
      | [] => .error .index
      | 45 :: name =>
        if target = exitSection then .ok (pos + 1)
        else if target = exitTestPart then
          match ps name with
          | none => .error .key
          | some p => if p.kind = .part then .ok (pos + 1) else scan ps target r (pos + 1)
        else scan ps target r (pos + 1)
      | _ :: _ => scan ps target r (pos + 1)

/-- `id[1:]` when the identifier starts with "-" (variables.py:2267-2269). -/
def stripDash : List Nat → Except NavErr (List Nat)
  | [] => .error .index
  | 45 :: name => .ok name
  | id => .ok id

/-- `_branch_target(qpos)` (variables.py:2266-2293). -/
def branchTarget {σ} (ps : Parts σ) (f : List (List Nat)) (st : σ) (qpos : Nat) :
    Except NavErr Nat :=
  match f[qpos]? with
  | none => .error .index
  | some id =>
    match stripDash id with
    | .error e => .error e
    | .ok name =>
      match ps name with
      | none => .error .key
      | some p =>
        match getBranchTarget ps st p with
        | .error e => .error e
        | .ok none => .ok (qpos + 1)
        | .ok (some target) =>
          if target = exitTest then .ok f.length
          else scan ps target (f.drop (qpos + 1)) (qpos + 1)

/-- Does the identifier start with "-"? -/
def isClose : List Nat → Bool
  | 45 :: _ => true
  | _ => false

/-- The loop of `_next_question` from position `iq`; the result is the new value of
`cQuestion` (variables.py:2306-2361).  The first argument bounds the number of
turns; C115_terminates shows that the bound used is never reached. -/
def nextLoop {σ} (ps : Parts σ) (f : List (List Nat)) (st : σ) : Nat → Nat →
    Except NavErr (Option Nat)
  | 0, _ => .error .loops
  | n + 1, iq =>
    match f[iq]? with
    | none => .ok none
    | some [] => .error .index
    | some id =>
      if isClose id then
        match branchTarget ps f st iq with
        | .error e => .error e
        | .ok iq => nextLoop ps f st n iq
      else
        match ps id with
        | none => .error .key
        | some p =>
          match checkPre st p with
          | .error e => .error e
          | .ok true =>
            match p.kind with
            | .part => nextLoop ps f st n (iq + 1)
            | .sect => nextLoop ps f st n (iq + 1)
            | .item => .ok (some iq)
          | .ok false => nextLoop ps f st n (iq + 1)

/-- `_next_question` (variables.py:2295-2361): from `cQuestion`, which is 0 before the
first question and None at the end, to its next value. -/
def nextQuestion {σ} (ps : Parts σ) (f : List (List Nat)) (st : σ) :
    Option Nat → Except NavErr (Option Nat)
  | none => .ok none
  | some 0 => nextLoop ps f st (f.length + 1) 1
  | some q =>
    match branchTarget ps f st q with
    | .error e => .error e
    | .ok iq => nextLoop ps f st (f.length + 1) iq

/-! ## Forward -/

theorem scan_ge {σ} (ps : Parts σ) (target : List Nat) : ∀ (l : List (List Nat)) (pos r : Nat),
    scan ps target l pos = .ok r → pos ≤ r ∧ r ≤ pos + l.length := by
  intro l
  induction l with
  | nil => intro pos r h; simp only [scan, Except.ok.injEq] at h; simp [h]
  | cons id l ih =>
    intro pos r h
    unfold scan at h
    simp only [List.length_cons]
    split at h
    · simp only [Except.ok.injEq] at h; omega
    · split at h
      · cases h
      · split at h
        · simp only [Except.ok.injEq] at h; omega
        · split at h
          · split at h
            · cases h
            · split at h
              · simp only [Except.ok.injEq] at h; omega
              · have := ih _ _ h; omega
          · have := ih _ _ h; omega
      · have := ih _ _ h; omega

theorem branch_gt {σ} {ps : Parts σ} {f : List (List Nat)} {st : σ} {q r : Nat}
    (h : branchTarget ps f st q = .ok r) : q < r ∧ r ≤ f.length := by
  unfold branchTarget at h
  split at h
  · cases h
  · rename_i id hid
    have hq : q < f.length := by
      by_contra hn
      rw [List.getElem?_eq_none (by omega)] at hid
      cases hid
    split at h
    · cases h
    · split at h
      · cases h
      · split at h
        · cases h
        · simp only [Except.ok.injEq] at h; omega
        · split at h
          · simp only [Except.ok.injEq] at h; omega
          · have := scan_ge _ _ _ _ _ h
            simp only [List.length_drop] at this
            omega

/-- A position at which an item is presented: an item reference, in a linear part,
whose pre-conditions all hold. -/
def Presentable {σ} (ps : Parts σ) (f : List (List Nat)) (st : σ) (q : Nat) : Prop :=
  ∃ id p, f[q]? = some id ∧ ps id = some p ∧ p.kind = .item ∧ p.linear = true ∧
    ∀ c ∈ p.pre, c st = some true

theorem checkAll_true {σ} {st : σ} {l : List (Cond σ)} (h : checkAll st l = .ok true) :
    ∀ c ∈ l, c st = some true := by
  induction l with
  | nil => intro c hc; cases hc
  | cons c l ih =>
    unfold checkAll at h
    split at h
    · cases h
    · simp at h
    · rename_i hc
      intro d hd
      rcases List.mem_cons.1 hd with e | e
      · exact e ▸ hc
      · exact ih h d e

theorem nextLoop_spec {σ} (ps : Parts σ) (f : List (List Nat)) (st : σ) :
    ∀ (n iq : Nat), 0 < n → f.length < n + iq →
    (nextLoop ps f st n iq ≠ .error .loops ∨ ∃ p, branchTarget ps f st p = .error .loops) ∧
    ∀ q, nextLoop ps f st n iq = .ok (some q) → iq ≤ q ∧ Presentable ps f st q := by
  intro n
  induction n with
  | zero => intro iq h; omega
  | succ n ih =>
    intro iq _ h
    have step : ∀ iq', iq < iq' → iq' ≤ f.length →
        (nextLoop ps f st n iq' ≠ .error .loops ∨ ∃ p, branchTarget ps f st p = .error .loops) ∧
        ∀ q, nextLoop ps f st n iq' = .ok (some q) → iq ≤ q ∧ Presentable ps f st q := by
      intro iq' h1 h2
      obtain ⟨a, b⟩ := ih iq' (by omega) (by omega)
      refine ⟨a, fun q hq => ?_⟩
      have := b q hq
      exact ⟨by omega, this.2⟩
    have hlt : ∀ id, f[iq]? = some id → iq + 1 ≤ f.length := by
      intro id hid
      by_contra hn
      rw [List.getElem?_eq_none (by omega)] at hid
      cases hid
    unfold nextLoop
    split
    · simp
    · simp
    · rename_i id hne hid
      split
      · cases hb : branchTarget ps f st iq with
        | error e =>
          dsimp only
          by_cases he : e = .loops
          · exact ⟨Or.inr ⟨iq, by rw [hb, he]⟩, by simp⟩
          · exact ⟨Or.inl (by simp [he]), by simp⟩
        | ok iq' =>
          dsimp only
          have := branch_gt hb
          exact step iq' this.1 this.2
      · split
        · simp
        · rename_i p hp
          split
          · rename_i e he
            refine ⟨Or.inl ?_, by simp⟩
            unfold checkPre at he
            split at he
            · cases he
            · clear hp
              generalize p.pre = cs at he
              induction cs with
              | nil => cases he
              | cons c cs ihc =>
                unfold checkAll at he
                split at he
                · cases he; simp
                · cases he
                · exact ihc he
          · rename_i hc
            split
            · exact step _ (by omega) (hlt _ hid)
            · exact step _ (by omega) (hlt _ hid)
            · rename_i hk
              refine ⟨Or.inl (by simp), ?_⟩
              intro q hq
              simp only [Except.ok.injEq, Option.some.injEq] at hq
              subst hq
              refine ⟨Nat.le_refl _, id, p, hid, hp, hk, ?_⟩
              unfold checkPre at hc
              split at hc
              · cases hc
              · rename_i hx
                refine ⟨?_, checkAll_true hc⟩
                cases hl : p.linear with
                | true => rfl
                | false => exact absurd ⟨by rw [hk]; decide, hl⟩ hx
          · exact step _ (by omega) (hlt _ hid)

theorem scan_not_loops {σ} (ps : Parts σ) (target : List Nat) : ∀ (l : List (List Nat)) (pos : Nat),
    scan ps target l pos ≠ .error .loops := by
  intro l
  induction l with
  | nil => intro pos h; cases h
  | cons id l ih =>
    intro pos h
    unfold scan at h
    split at h
    · cases h
    · split at h
      · cases h
      · split at h
        · cases h
        · split at h
          · split at h
            · cases h
            · split at h
              · cases h
              · exact ih _ h
          · exact ih _ h
      · exact ih _ h

theorem getBranchTarget_not_loops {σ} (ps : Parts σ) (st : σ) (p : Part σ) :
    getBranchTarget ps st p ≠ .error .loops := by
  unfold getBranchTarget
  split
  · simp
  · generalize p.rules = rs
    induction rs with
    | nil => simp [firstRule]
    | cons r rs ih =>
      obtain ⟨c, t⟩ := r
      unfold firstRule
      split
      · simp
      · exact ih
      · split
        · rename_i e he
          unfold checkTarget at he
          intro h
          cases h
          split at he
          · cases he
          · split at he
            · cases he
            · split at he
              · cases he
              · split at he
                · split at he <;> cases he
                · split at he
                  · cases he
                  · split at he <;> cases he
        · simp

theorem branch_not_loops {σ} (ps : Parts σ) (f : List (List Nat)) (st : σ) (q : Nat) :
    branchTarget ps f st q ≠ .error .loops := by
  intro h
  unfold branchTarget at h
  split at h
  · cases h
  · split at h
    · rename_i e he
      cases h
      unfold stripDash at he
      split at he <;> cases he
    · split at h
      · cases h
      · split at h
        · rename_i e he
          cases h
          exact getBranchTarget_not_loops _ _ _ he
        · cases h
        · split at h
          · cases h
          · exact scan_not_loops _ _ _ _ h

/-- C115. Looking for the next question ends, for every test, form, session state
and position. -/
theorem C115_terminates {σ} (ps : Parts σ) (f : List (List Nat)) (st : σ) (c : Option Nat) :
    nextQuestion ps f st c ≠ .error .loops := by
  unfold nextQuestion
  split
  · simp
  · rcases (nextLoop_spec ps f st (f.length + 1) 1 (by omega) (by omega)).1 with h | ⟨p, h⟩
    · exact h
    · exact absurd h (branch_not_loops _ _ _ _)
  · split
    · rename_i e he
      intro h
      cases h
      exact branch_not_loops _ _ _ _ he
    · rename_i iq hb
      rcases (nextLoop_spec ps f st (f.length + 1) iq (by omega) (by omega)).1 with h | ⟨p, h⟩
      · exact h
      · exact absurd h (branch_not_loops _ _ _ _)

/-- C115. The next question is always further on in the form, and it is an item
of a linear part all of whose pre-conditions hold. -/
theorem C115_forward {σ} (ps : Parts σ) (f : List (List Nat)) (st : σ) (q r : Nat)
    (h : nextQuestion ps f st (some q) = .ok (some r)) : q < r ∧ Presentable ps f st r := by
  unfold nextQuestion at h
  split at h
  · rename_i heq; cases heq
  · rename_i heq
    simp only [Option.some.injEq] at heq
    subst heq
    have := (nextLoop_spec ps f st (f.length + 1) 1 (by omega) (by omega)).2 r h
    exact ⟨by omega, this.2⟩
  · rename_i q' heq
    simp only [Option.some.injEq] at heq
    subst heq
    split at h
    · cases h
    · rename_i iq hb
      have h1 := branch_gt hb
      have := (nextLoop_spec ps f st (f.length + 1) iq (by omega) (by omega)).2 r h
      exact ⟨by omega, this.2⟩

/-- The questions presented in a session: `sts` are the states of the session
each time the next question is looked for. -/
def questions {σ} (ps : Parts σ) (f : List (List Nat)) : List σ → Nat → List Nat
  | [], _ => []
  | st :: sts, q =>
    match nextQuestion ps f st (some q) with
    | .ok (some r) => r :: questions ps f sts r
    | _ => []

/-- Is there an item at the position? -/
def itemAt {σ} (ps : Parts σ) (f : List (List Nat)) (i : Nat) : Bool :=
  match f[i]? with
  | none => false
  | some id =>
    match ps id with
    | none => false
    | some p => p.kind = .item

theorem presentable_item {σ} {ps : Parts σ} {f : List (List Nat)} {st : σ} {q : Nat}
    (h : Presentable ps f st q) : itemAt ps f q = true ∧ q < f.length := by
  obtain ⟨id, p, h1, h2, h3, -⟩ := h
  refine ⟨by unfold itemAt; rw [h1]; dsimp only; rw [h2]; simp [h3], ?_⟩
  by_contra hn
  rw [List.getElem?_eq_none (by omega)] at h1
  cases h1

theorem questions_spec {σ} (ps : Parts σ) (f : List (List Nat)) (sts : List σ) : ∀ q,
    (q :: questions ps f sts q).Pairwise (· < ·) ∧
    ∀ r ∈ questions ps f sts q, itemAt ps f r = true ∧ r < f.length := by
  induction sts with
  | nil => intro q; simp [questions]
  | cons st sts ih =>
    intro q
    unfold questions
    split
    · rename_i r hr
      obtain ⟨h1, h2⟩ := C115_forward ps f st q r hr
      obtain ⟨i1, i2⟩ := ih r
      refine ⟨List.pairwise_cons.2 ⟨?_, i1⟩, ?_⟩
      · intro x hx
        rcases List.mem_cons.1 hx with e | e
        · omega
        · have := (List.pairwise_cons.1 i1).1 x e; omega
      · intro x hx
        rcases List.mem_cons.1 hx with e | e
        · exact e ▸ presentable_item h2
        · exact i2 x e
    · simp

/-- C115. However the candidate's answers change the state of the session, the
questions presented are at different, increasing positions of the form, so a
session ends after at most as many questions as the form has items. -/
theorem C115_session_ends {σ} (ps : Parts σ) (f : List (List Nat)) (sts : List σ) :
    (questions ps f sts 0).Pairwise (· < ·) ∧
    (questions ps f sts 0).length ≤ ((List.range f.length).filter (itemAt ps f)).length := by
  obtain ⟨h1, h2⟩ := questions_spec ps f sts 0
  have h3 := (List.pairwise_cons.1 h1).2
  refine ⟨h3, ?_⟩
  have hn : (questions ps f sts 0).Nodup := h3.imp (fun h => by omega)
  apply List.Subperm.length_le
  apply hn.subperm
  intro x hx
  have := h2 x hx
  exact List.mem_filter.2 ⟨List.mem_range.2 this.2, this.1⟩

/-! ## Plain linear tests -/

/-- The test has no pre-conditions or branch rules and is linear, all entries of
the form after the first are identifiers of its parts, plain or closing, and
identifiers do not start with "-". -/
def PlainNav {σ} (ps : Parts σ) (f : List (List Nat)) : Prop :=
  ∀ i, 0 < i → ∀ id, f[i]? = some id →
    ∃ name p, name ≠ [] ∧ isClose name = false ∧ (id = name ∨ id = 45 :: name) ∧
      ps name = some p ∧ p.linear = true ∧ p.pre = [] ∧ p.rules = [] ∧
      (id = 45 :: name → p.kind ≠ .item ∧ ps id = none)

theorem plain_branch {σ} {ps : Parts σ} {f : List (List Nat)} (h : PlainNav ps f) (st : σ)
    {q : Nat} (h0 : 0 < q) (hq : q < f.length) : branchTarget ps f st q = .ok (q + 1) := by
  obtain ⟨name, p, h1, h2, h3, h4, h5, h6, h7, -⟩ := h q h0 _ (List.getElem?_eq_getElem hq)
  unfold branchTarget
  rw [List.getElem?_eq_getElem hq]
  dsimp only
  have hs : stripDash f[q] = .ok name := by
    rcases h3 with e | e
    · rw [e]
      unfold stripDash
      split
      · exact absurd rfl h1
      · simp [isClose] at h2
      · rfl
    · rw [e]; rfl
  rw [hs]
  dsimp only
  rw [h4]
  have hg : getBranchTarget ps st p = .ok none := by
    unfold getBranchTarget
    rw [if_neg (by simp [h5]), h7]
    rfl
  dsimp only
  rw [hg]

theorem plain_loop {σ} {ps : Parts σ} {f : List (List Nat)} (h : PlainNav ps f) (st : σ) :
    ∀ n iq, 0 < iq → 0 < n → f.length < n + iq →
    ∃ r, nextLoop ps f st n iq = .ok r ∧
      (∀ q, r = some q → iq ≤ q ∧ itemAt ps f q = true ∧ ∀ j, iq ≤ j → j < q → itemAt ps f j = false) ∧
      (r = none → ∀ j, iq ≤ j → itemAt ps f j = false) := by
  intro n
  induction n with
  | zero => intro iq _ h; omega
  | succ n ih =>
    intro iq h0 _ hlen
    rcases Nat.lt_or_ge iq f.length with hlt | hge
    · have hget := List.getElem?_eq_getElem hlt
      obtain ⟨name, p, h1, h2, h3, h4, h5, h6, h7, h8⟩ := h iq h0 _ hget
      -- one step on, when there is no item here
      have step : itemAt ps f iq = false →
          ∃ r, nextLoop ps f st n (iq + 1) = .ok r ∧
          (∀ q, r = some q → iq ≤ q ∧ itemAt ps f q = true ∧
            ∀ j, iq ≤ j → j < q → itemAt ps f j = false) ∧
          (r = none → ∀ j, iq ≤ j → itemAt ps f j = false) := by
        intro hi
        obtain ⟨r, a, b, c⟩ := ih (iq + 1) (by omega) (by omega) (by omega)
        refine ⟨r, a, ?_, ?_⟩
        · intro q hq
          obtain ⟨b1, b2, b3⟩ := b q hq
          refine ⟨by omega, b2, ?_⟩
          intro j hj1 hj2
          rcases Nat.eq_or_lt_of_le hj1 with e | e
          · exact e ▸ hi
          · exact b3 j e hj2
        · intro hr j hj
          rcases Nat.eq_or_lt_of_le hj with e | e
          · exact e ▸ hi
          · exact c hr j e
      unfold nextLoop
      rw [hget]
      rcases h3 with e | e
      · -- an opening identifier or an item
        rw [e]
        cases hn : name with
        | nil => exact absurd hn h1
        | cons a as =>
          rw [← hn]
          have hpre : checkPre st p = .ok true := by
            unfold checkPre
            rw [if_neg (by simp [h5]), h6]; rfl
          have hcl : isClose name = false := h2
          subst hn
          simp only [hcl, Bool.false_eq_true, if_false, h4, hpre]
          have hia : itemAt ps f iq = decide (p.kind = .item) := by
            unfold itemAt; rw [hget, e]; dsimp only; rw [h4]
          cases hk : p.kind with
          | part => exact step (by rw [hia, hk]; decide)
          | sect => exact step (by rw [hia, hk]; decide)
          | item =>
            refine ⟨_, rfl, ?_, by simp⟩
            intro q hq
            simp only [Option.some.injEq] at hq
            subst hq
            exact ⟨Nat.le_refl _, by rw [hia, hk]; decide, fun j a b => by omega⟩
      · rw [e]
        have hcl : isClose (45 :: name) = true := rfl
        simp only [hcl, if_true]
        rw [plain_branch h st h0 hlt]
        apply step
        unfold itemAt
        rw [hget, e]
        dsimp only
        rw [e] at h8
        rw [(h8 rfl).2]
    · unfold nextLoop
      rw [List.getElem?_eq_none hge]
      refine ⟨none, rfl, by simp, ?_⟩
      intro _ j hj
      unfold itemAt
      rw [List.getElem?_eq_none (by omega)]

/-- C115. In a linear test without pre-conditions and branch rules the questions
come in the order of the form: the next question is the first item after the
current position, and the test is over just when no item is left. -/
theorem C115_linear_order {σ} (ps : Parts σ) (f : List (List Nat)) (h : PlainNav ps f) (st : σ)
    (q : Nat) (hq : q < f.length) :
    ∃ r, nextQuestion ps f st (some q) = .ok r ∧
      (∀ x, r = some x → q < x ∧ itemAt ps f x = true ∧
        ∀ j, q < j → j < x → itemAt ps f j = false) ∧
      (r = none → ∀ j, q < j → itemAt ps f j = false) := by
  cases q with
  | zero =>
    obtain ⟨r, a, b, c⟩ := plain_loop h st (f.length + 1) 1 (by omega) (by omega) (by omega)
    exact ⟨r, a, b, c⟩
  | succ q =>
    obtain ⟨r, a, b, c⟩ := plain_loop h st (f.length + 1) (q + 2) (by omega) (by omega) (by omega)
    refine ⟨r, ?_, b, c⟩
    simp only [nextQuestion, plain_branch h st (show 0 < q + 1 by omega) hq]
    exact a

/-! ## Branching -/

/-- C115. A branch to an identifier goes to its first occurrence ahead, and ends
the test when it is not ahead. -/
theorem C115_branch_to_identifier {σ} (ps : Parts σ) (target : List Nat)
    (h1 : target ≠ exitSection) (h2 : target ≠ exitTestPart) :
    ∀ (l : List (List Nat)) (pos r : Nat), scan ps target l pos = .ok r →
    (target ∈ l → ∃ a b, l = a ++ target :: b ∧ target ∉ a ∧ r = pos + a.length) ∧
    (target ∉ l → r = pos + l.length) := by
  intro l
  induction l with
  | nil => intro pos r h; simp only [scan, Except.ok.injEq] at h; simp [h]
  | cons id l ih =>
    intro pos r h
    unfold scan at h
    by_cases he : target = id
    · rw [if_pos he, Except.ok.injEq] at h
      exact ⟨fun _ => ⟨[], l, by simp [he], by simp, by simp [h]⟩, fun hn => by simp [he] at hn⟩
    · rw [if_neg he] at h
      have go : scan ps target l (pos + 1) = .ok r →
          (target ∈ id :: l → ∃ a b, id :: l = a ++ target :: b ∧ target ∉ a ∧
            r = pos + a.length) ∧ (target ∉ id :: l → r = pos + (id :: l).length) := by
        intro hs
        obtain ⟨a, b⟩ := ih _ _ hs
        refine ⟨?_, ?_⟩
        · intro hm
          obtain ⟨x, y, e1, e2, e3⟩ := a (by simpa [he] using hm)
          refine ⟨id :: x, y, by simp [e1], ?_, by simp [e3]; omega⟩
          simp [he, e2]
        · intro hm
          have := b (fun h => hm (List.mem_cons_of_mem _ h))
          simp [this]; omega
      split at h
      · cases h
      · rw [if_neg h1, if_neg h2] at h
        exact go h
      · exact go h

/-- C115. EXIT_TESTPART goes just behind the next closing identifier of a test
part. -/
theorem C115_exit_testpart {σ} (ps : Parts σ) (name : List Nat) (p : Part σ)
    (hp : ps name = some p) (hk : p.kind = .part) (post : List (List Nat)) :
    ∀ (mid : List (List Nat)) (pos : Nat),
    (∀ id ∈ mid, id ≠ [] ∧ id ≠ exitTestPart ∧
      ∀ n, id = 45 :: n → ∃ q, ps n = some q ∧ q.kind ≠ .part) →
    scan ps exitTestPart (mid ++ (45 :: name) :: post) pos = .ok (pos + mid.length + 1) := by
  intro mid
  induction mid with
  | nil =>
    intro pos _
    rw [List.nil_append]
    unfold scan
    rw [if_neg (by simp [exitTestPart])]
    simp [exitTestPart, exitSection, hp, hk]
  | cons id mid ih =>
    intro pos h
    have := ih (pos + 1) (fun x hx => h x (List.mem_cons_of_mem _ hx))
    obtain ⟨g1, g2, g3⟩ := h id (by simp)
    rw [List.cons_append]
    unfold scan
    rw [if_neg (fun e => g2 e.symm)]
    have e2 : pos + 1 + mid.length + 1 = pos + (id :: mid).length + 1 := by simp; omega
    split
    · exact absurd rfl g1
    · rename_i n
      obtain ⟨q, q1, q2⟩ := g3 n rfl
      rw [if_neg (by decide), if_pos rfl, q1]
      dsimp only
      rw [if_neg q2, this, e2]
    · rw [this, e2]

/-- C115, partial. EXIT_SECTION goes just behind the next closing identifier: this is
the end of the section when no sub-section lies ahead in it. -/
theorem C115_exit_section_partial {σ} (ps : Parts σ) (name : List Nat) (post : List (List Nat)) :
    ∀ (mid : List (List Nat)) (pos : Nat),
    (∀ id ∈ mid, id ≠ [] ∧ id ≠ exitSection ∧ isClose id = false) →
    scan ps exitSection (mid ++ (45 :: name) :: post) pos = .ok (pos + mid.length + 1) := by
  intro mid
  induction mid with
  | nil =>
    intro pos _
    rw [List.nil_append]
    unfold scan
    rw [if_neg (by simp [exitSection])]
    simp
  | cons id mid ih =>
    intro pos h
    have := ih (pos + 1) (fun x hx => h x (List.mem_cons_of_mem _ hx))
    obtain ⟨g1, g2, g3⟩ := h id (by simp)
    rw [List.cons_append]
    unfold scan
    rw [if_neg (fun e => g2 e.symm)]
    have e2 : pos + 1 + mid.length + 1 = pos + (id :: mid).length + 1 := by simp; omega
    split
    · exact absurd rfl g1
    · simp [isClose] at g3
    · rw [this, e2]

/-! ## What goes wrong -/

/-- A condition that always has the same value. -/
def const (b : Bool) : Cond Unit := fun _ => some b

/-- Parts of the sample tests: P (80) a part, S (83) and T (84) sections, Q1..Q3
items. -/
def navParts (linear : Bool) (sPre : List (Cond Unit)) (rules : List (Cond Unit × List Nat)) :
    Parts Unit := fun id =>
  if id = [80] then some ⟨.part, linear, [80], [], []⟩
  else if id = [83] then some ⟨.sect, linear, [80], sPre, []⟩
  else if id = [84] then some ⟨.sect, linear, [80], [], []⟩
  else if id = [81, 1] then some ⟨.item, linear, [80], [], rules⟩
  else if id = [81, 2] then some ⟨.item, linear, [80], [], []⟩
  else if id = [81, 3] then some ⟨.item, linear, [80], [], []⟩
  else none

/-- The form P S Q1 T Q2 -T Q3 -S -P. -/
def navForm : List (List Nat) :=
  [[], [80], [83], [81, 1], [84], [81, 2], [45, 84], [81, 3], [45, 83], [45, 80]]

/-- C115, violated. EXIT_SECTION from Q1 in the section S goes to Q3, which is
in the same section S, when a sub-section T lies between them. -/
theorem C115_exit_section_violated :
    nextQuestion (navParts true [] [(const true, exitSection)]) navForm () (some 3) =
      .ok (some 7) := by decide +kernel

/-- C115, violated. A section whose pre-condition is false is entered all the
same: the first question of the test is its item Q1. -/
theorem C115_section_precondition_violated :
    nextQuestion (navParts true [const false] []) navForm () (some 0) = .ok (some 3) := by
  decide +kernel

/-- C115, violated. A test with a non-linear part ends before any of its questions:
whatever the form, no item of a non-linear part is ever presented. -/
theorem C115_nonlinear_violated {σ} (ps : Parts σ) (f : List (List Nat)) (st : σ) (q r : Nat)
    (h : nextQuestion ps f st (some q) = .ok (some r)) :
    ∃ id p, f[r]? = some id ∧ ps id = some p ∧ p.linear = true := by
  obtain ⟨id, p, h1, h2, -, h4, -⟩ := (C115_forward ps f st q r h).2
  exact ⟨id, p, h1, h2, h4⟩

example : nextQuestion (navParts false [] []) navForm () (some 0) = .ok none := by decide +kernel

/-! ## Examples -/

example : questions (navParts true [] []) navForm [(), (), (), ()] 0 = [3, 5, 7] := by
  decide +kernel

example : questions (navParts true [] [(const true, [81, 3])]) navForm [(), (), (), ()] 0 =
    [3, 7] := by decide +kernel

example : scan (navParts true [] []) exitTestPart (navForm.drop 4) 4 = .ok 10 := by decide +kernel

example : PlainNav (navParts true [] []) navForm := by
  intro i hi id hid
  have hlt : i < 10 := by
    by_contra hn
    rw [List.getElem?_eq_none (by simp [navForm]; omega)] at hid
    cases hid
  have hcases : i = 1 ∨ i = 2 ∨ i = 3 ∨ i = 4 ∨ i = 5 ∨ i = 6 ∨ i = 7 ∨ i = 8 ∨ i = 9 := by omega
  rcases hcases with e | e | e | e | e | e | e | e | e <;> subst e <;>
    simp [navForm] at hid <;> subst hid
  · exact ⟨[80], _, by simp, rfl, Or.inl rfl, rfl, rfl, rfl, rfl, by simp⟩
  · exact ⟨[83], _, by simp, rfl, Or.inl rfl, rfl, rfl, rfl, rfl, by simp⟩
  · exact ⟨[81, 1], _, by simp, rfl, Or.inl rfl, rfl, rfl, rfl, rfl, by simp⟩
  · exact ⟨[84], _, by simp, rfl, Or.inl rfl, rfl, rfl, rfl, rfl, by simp⟩
  · exact ⟨[81, 2], _, by simp, rfl, Or.inl rfl, rfl, rfl, rfl, rfl, by simp⟩
  · exact ⟨[84], _, by simp, rfl, Or.inr rfl, rfl, rfl, rfl, rfl, by simp [navParts]⟩
  · exact ⟨[81, 3], _, by simp, rfl, Or.inl rfl, rfl, rfl, rfl, rfl, by simp⟩
  · exact ⟨[83], _, by simp, rfl, Or.inr rfl, rfl, rfl, rfl, rfl, by simp [navParts]⟩
  · exact ⟨[80], _, by simp, rfl, Or.inr rfl, rfl, rfl, rfl, rfl, by simp [navParts]⟩

end Verif.Form

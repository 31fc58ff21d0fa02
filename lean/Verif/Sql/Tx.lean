/-
C100, C101: transactions of the SQL data services (pyslet/odata2/sqlds.py:219-384 and the methods
written with them).
-/
namespace Verif.Sql

/-! ### Model -/

/-- What the server does with a request: carry it out, report OperationalError (the connection is
lost), or report another error. -/
inductive Outcome
  | ok
  | operational
  | other
  deriving DecidableEq, Repr

/-- The exception raised. -/
inductive TxErr
  | operational
  | other
  deriving DecidableEq, Repr

/-- The environment: what happens to the n-th request, and the check that the server does when the
work is committed. -/
structure TxEnv (σ : Type) where
  sched : Nat → Outcome
  check : σ → Bool

/-- A database connection of a thread: the contents of the database that are durable, the contents as
seen on the connection, with the work that is not committed, and the number of requests so far.  All
collections a thread opens share its connection (sqlds.py:4641-4645). -/
structure Conn (σ : Type) where
  committed : σ
  pending : σ
  n : Nat

/-- sqlds.py:283-290 the attributes of `SQLTransaction`. -/
structure Tx where
  cursor : Bool
  noCommit : Nat
  queryCount : Nat
  deriving DecidableEq, Repr

/-- sqlds.py:283-290 `SQLTransaction.__init__`. -/
def Tx.new : Tx := ⟨false, 0, 0⟩

variable {σ : Type}

/-- One request: `f` is the effect of the statement, `none` when the statement fails (a constraint
that does not hold, or a count of rows for which the method raises an exception).  A statement that
fails has no effect. -/
def attempt (env : TxEnv σ) (f : σ → Option σ) (c : Conn σ) : Except TxErr Unit × Conn σ :=
  match env.sched c.n with
  | .ok =>
    match f c.pending with
    | some s => (.ok (), { c with pending := s, n := c.n + 1 })
    | none => (.error .other, { c with n := c.n + 1 })
  | .operational => (.error .operational, { c with n := c.n + 1 })
  | .other => (.error .other, { c with n := c.n + 1 })

/-- sqlds.py:238-242: the connection is closed and opened again; work that was not committed is lost. -/
def reopen (c : Conn σ) : Conn σ := { c with pending := c.committed }

/-- sqlds.py:226-244: the loop of `retry_decorator`; the argument is the number of strikes left. -/
def retryLoop (env : TxEnv σ) (f : σ → Option σ) : Nat → Conn σ → Except TxErr Unit × Conn σ
  | 0, c => (.error .operational, c)
  | k + 1, c =>
    match attempt env f c with
    | (.error .operational, c) => if k = 0 then (.error .operational, c) else retryLoop env f k (reopen c)
    | r => r

/-- sqlds.py:219-247 `retry_decorator`. -/
def retrying (env : TxEnv σ) (f : σ → Option σ) (t : Tx) (c : Conn σ) : Except TxErr Unit × Conn σ :=
  if t.queryCount ≠ 0 then attempt env f c else retryLoop env f 3 c

/-- sqlds.py:292-301 `SQLTransaction.begin`. -/
def txBegin (env : TxEnv σ) (t : Tx) (c : Conn σ) : Except TxErr Unit × Tx × Conn σ :=
  if t.cursor then (.ok (), { t with noCommit := t.noCommit + 1 }, c)
  else
    match retrying env some t c with
    | (.ok (), c) => (.ok (), { t with cursor := true }, c)
    | (.error e, c) => (.error e, t, c)

/-- sqlds.py:303-315 `SQLTransaction.execute`. -/
def txExecute (env : TxEnv σ) (f : σ → Option σ) (t : Tx) (c : Conn σ) : Except TxErr Unit × Tx × Conn σ :=
  match retrying env f t c with
  | (.ok (), c) => (.ok (), { t with queryCount := t.queryCount + 1 }, c)
  | (.error e, c) => (.error e, t, c)

/-- sqlds.py:317-323 `SQLTransaction.commit`. -/
def txCommit (env : TxEnv σ) (t : Tx) (c : Conn σ) : Except TxErr Unit × Conn σ :=
  if t.noCommit ≠ 0 then (.ok (), c)
  else if env.check c.pending then (.ok (), { c with committed := c.pending })
  else (.error .other, c)

/-- sqlds.py:325-372 `SQLTransaction.rollback`; raising the exception again is left to the caller.
Databases without transactions are not modelled. -/
def txRollback (t : Tx) (c : Conn σ) : Conn σ :=
  if t.noCommit = 0 then { c with pending := c.committed } else c

/-- sqlds.py:374-384 `SQLTransaction.close`. -/
def txClose (t : Tx) : Tx :=
  if t.noCommit ≠ 0 then { t with noCommit := t.noCommit - 1 }
  else if t.cursor then ⟨false, t.noCommit, 0⟩
  else t

/-- What a method does between `begin` and `commit`: statements, whose results may decide what follows,
and calls of other methods, to which the transaction is passed (`shared`) or not. -/
inductive Prog (σ : Type)
  | done
  | exec (f : σ → Option σ) (k : σ → Prog σ)
  | call (shared : Bool) (body : Prog σ) (k : σ → Prog σ)

/-- The frame of all methods (for example sqlds.py:2180-2348, 2455-2645, 2771-2849): begin, run the
body, commit; roll back when an exception is raised, and raise it; close in any case. -/
def frame (env : TxEnv σ) (body : Tx → Conn σ → Except TxErr Unit × Tx × Conn σ) (t : Tx) (c : Conn σ) :
    Except TxErr Unit × Tx × Conn σ :=
  match txBegin env t c with
  | (.error e, t, c) => (.error e, txClose t, txRollback t c)
  | (.ok (), t, c) =>
    match body t c with
    | (.error e, t, c) => (.error e, txClose t, txRollback t c)
    | (.ok (), t, c) =>
      match txCommit env t c with
      | (.error e, c) => (.error e, txClose t, txRollback t c)
      | (.ok (), c) => (.ok (), txClose t, c)

/-- The body of a method.  A method called without the transaction makes its own
(for example sqlds.py:2171-2172). -/
def Prog.run (env : TxEnv σ) : Prog σ → Tx → Conn σ → Except TxErr Unit × Tx × Conn σ
  | .done, t, c => (.ok (), t, c)
  | .exec f k, t, c =>
    match txExecute env f t c with
    | (.error e, t, c) => (.error e, t, c)
    | (.ok (), t, c) => (k c.pending).run env t c
  | .call true body k, t, c =>
    match frame env (body.run env) t c with
    | (.error e, t, c) => (.error e, t, c)
    | (.ok (), t, c) => (k c.pending).run env t c
  | .call false body k, t, c =>
    match frame env (body.run env) .new c with
    | (.error e, _, c) => (.error e, t, c)
    | (.ok (), _, c) => (k c.pending).run env t c

/-- A method called by the user: it makes its transaction. -/
def method (env : TxEnv σ) (p : Prog σ) (c : Conn σ) : Except TxErr Unit × Tx × Conn σ :=
  frame env (p.run env) .new c

/-! ### Specification -/

/-- The effect of all the statements of a method, one after the other, with no thought of transactions
and lost connections. -/
def Prog.effect : Prog σ → σ → Option σ
  | .done, s => some s
  | .exec f k, s => (f s).bind fun s' => (k s').effect s'
  | .call _ body k, s => (body.effect s).bind fun s' => (k s').effect s'

/-- The transaction is passed to all methods called. -/
inductive Prog.Shared : Prog σ → Prop
  | done : Shared .done
  | exec {f k} : (∀ s, (k s).Shared) → Shared (.exec f k)
  | call {body k} : body.Shared → (∀ s, (k s).Shared) → Shared (.call true body k)

/-! ### Lemmas -/

theorem attempt_spec (env : TxEnv σ) (f : σ → Option σ) (c : Conn σ) :
    (attempt env f c).2.committed = c.committed ∧
    ((attempt env f c).1 = .ok () → f c.pending = some (attempt env f c).2.pending) ∧
    (∀ e, (attempt env f c).1 = .error e → (attempt env f c).2.pending = c.pending) := by
  unfold attempt
  cases env.sched c.n with
  | ok => cases h : f c.pending <;> simp
  | operational => simp
  | other => simp

theorem retryLoop_spec (env : TxEnv σ) (f : σ → Option σ) : ∀ k (c : Conn σ), c.pending = c.committed →
    (retryLoop env f k c).2.committed = c.committed ∧
    ((retryLoop env f k c).1 = .ok () → f c.committed = some (retryLoop env f k c).2.pending) ∧
    (∀ e, (retryLoop env f k c).1 = .error e → (retryLoop env f k c).2.pending = c.committed) := by
  intro k
  induction k with
  | zero => intro c hc; simp [retryLoop, hc]
  | succ k ih =>
    intro c hc
    unfold retryLoop
    have hs := attempt_spec env f c
    rcases h : attempt env f c with ⟨r, c'⟩
    rw [h] at hs
    simp only at hs
    cases r with
    | ok u => simp only; exact ⟨hs.1, fun _ => hc ▸ hs.2.1 rfl, by simp⟩
    | error e =>
      cases e with
      | other => simp only; exact ⟨hs.1, by simp, fun e' _ => by rw [hs.2.2 _ rfl, hc]⟩
      | operational =>
        simp only
        split
        · exact ⟨hs.1, by simp, fun e' _ => by simp only; rw [hs.2.2 _ rfl, hc]⟩
        · have := ih (reopen c') rfl
          rw [show (reopen c').committed = c.committed from hs.1] at this
          exact this

/-- Either the connection holds no work that is not committed, or statements have been counted. -/
def TxOk (t : Tx) (c : Conn σ) : Prop := t.queryCount ≠ 0 ∨ c.pending = c.committed

theorem retrying_spec (env : TxEnv σ) (f : σ → Option σ) (t : Tx) (c : Conn σ) (h : TxOk t c) :
    (retrying env f t c).2.committed = c.committed ∧
    ((retrying env f t c).1 = .ok () → f c.pending = some (retrying env f t c).2.pending) ∧
    (∀ e, (retrying env f t c).1 = .error e → (retrying env f t c).2.pending = c.pending) := by
  unfold retrying
  split
  · exact attempt_spec env f c
  · rename_i hq
    have hp : c.pending = c.committed := h.resolve_left hq
    rw [hp]
    exact retryLoop_spec env f 3 c hp

/-- What a body, in a transaction that is open, does. -/
def BodySpec (eff : σ → Option σ) (t : Tx) (c : Conn σ) (r : Except TxErr Unit × Tx × Conn σ) : Prop :=
  r.2.2.committed = c.committed ∧ r.2.1.cursor = true ∧ r.2.1.noCommit = t.noCommit ∧ TxOk r.2.1 r.2.2 ∧
  (r.1 = .ok () → eff c.pending = some r.2.2.pending)

theorem run_spec (env : TxEnv σ) (p : Prog σ) (hp : p.Shared) :
    ∀ (t : Tx) (c : Conn σ), t.cursor = true → TxOk t c → BodySpec p.effect t c (p.run env t c) := by
  induction hp with
  | done => intro t c ht ho; exact ⟨rfl, ht, rfl, ho, fun _ => rfl⟩
  | @exec f k _ ih =>
    intro t c ht ho
    have hs := retrying_spec env f t c ho
    unfold Prog.run txExecute
    rcases h : retrying env f t c with ⟨r, c'⟩
    rw [h] at hs
    cases r with
    | error e =>
      simp only
      refine ⟨hs.1, ht, rfl, ?_, by simp⟩
      rcases ho with h1 | h1
      · exact Or.inl h1
      · right; simp only at hs ⊢; rw [hs.2.2 e rfl, hs.1, h1]
    | ok u =>
      simp only
      have := ih c'.pending { t with queryCount := t.queryCount + 1 } c' ht (Or.inl (Nat.succ_ne_zero _))
      obtain ⟨h1, h2, h3, h4, h5⟩ := this
      refine ⟨h1.trans hs.1, h2, h3, h4, fun hr => ?_⟩
      have hf : f c.pending = some c'.pending := hs.2.1 rfl
      simp only [Prog.effect, hf, Option.bind_some]
      exact h5 hr
  | @call body k _ _ ihb ihk =>
    intro t c ht ho
    unfold Prog.run frame txBegin
    rw [if_pos ht]
    dsimp only
    have hb := ihb { t with noCommit := t.noCommit + 1 } c ht ho
    rcases h : body.run env { t with noCommit := t.noCommit + 1 } c with ⟨r, t', c'⟩
    rw [h] at hb
    obtain ⟨h1, h2, h3, h4, h5⟩ := hb
    simp only at h1 h2 h3 h4 h5
    have hn : t'.noCommit ≠ 0 := by omega
    have hcl : txClose t' = { t' with noCommit := t.noCommit } := by
      unfold txClose; rw [if_pos hn, h3]; rfl
    cases r with
    | error e =>
      simp only [hcl]
      have hr : txRollback t' c' = c' := by unfold txRollback; rw [if_neg hn]
      rw [hr]
      exact ⟨h1, h2, rfl, h4, by simp⟩
    | ok u =>
      simp only [txCommit, if_pos hn, hcl]
      have := ihk c'.pending { t' with noCommit := t.noCommit } c' h2 h4
      obtain ⟨k1, k2, k3, k4, k5⟩ := this
      refine ⟨k1.trans h1, k2, k3, k4, fun hr => ?_⟩
      simp only [Prog.effect, h5 rfl, Option.bind_some]
      exact k5 hr

theorem run_frame (env : TxEnv σ) (p : Prog σ) (hp : p.Shared) :
    ∀ (t : Tx) (c : Conn σ), t.cursor = true →
      (p.run env t c).2.1.cursor = true ∧ (p.run env t c).2.1.noCommit = t.noCommit := by
  induction hp with
  | done => intro t c ht; exact ⟨ht, rfl⟩
  | @exec f k _ ih =>
    intro t c ht
    unfold Prog.run txExecute
    rcases h : retrying env f t c with ⟨r, c'⟩
    cases r with
    | error e => exact ⟨ht, rfl⟩
    | ok u => exact ih c'.pending { t with queryCount := t.queryCount + 1 } c' ht
  | @call body k _ _ ihb ihk =>
    intro t c ht
    unfold Prog.run frame txBegin
    rw [if_pos ht]
    dsimp only
    have hb := ihb { t with noCommit := t.noCommit + 1 } c ht
    rcases h : body.run env { t with noCommit := t.noCommit + 1 } c with ⟨r, t', c'⟩
    rw [h] at hb
    simp only at hb
    have hn : t'.noCommit ≠ 0 := by omega
    have hcl : txClose t' = { t' with noCommit := t.noCommit } := by
      unfold txClose; rw [if_pos hn, hb.2]; rfl
    cases r with
    | error e => simp only [hcl]; exact ⟨hb.1, trivial⟩
    | ok u =>
      simp only [txCommit, if_pos hn, hcl]
      exact ihk c'.pending { t' with noCommit := t.noCommit } c' hb.1

/-! ### Theorems -/

/-- C100: a method that passes its transaction on is atomic, whatever requests fail and however often
the connection is lost: when it returns, all its statements have taken effect exactly once, in order,
and are durable; when it raises an exception, the database is as before.  Nothing is left pending on the
connection and the transaction is closed. -/
theorem C100_atomic_partial (env : TxEnv σ) (p : Prog σ) (hp : p.Shared) (c : Conn σ)
    (hc : c.pending = c.committed) :
    let r := method env p c
    (r.1 = .ok () → p.effect c.committed = some r.2.2.committed ∧ env.check r.2.2.committed = true) ∧
    (∀ e, r.1 = .error e → r.2.2.committed = c.committed) ∧
    r.2.2.pending = r.2.2.committed ∧ r.2.1 = .new := by
  unfold method frame txBegin
  simp only [Tx.new, Bool.false_eq_true, if_false]
  have hs := retrying_spec env some .new c (Or.inr hc)
  rcases h : retrying env some .new c with ⟨r, c1⟩
  rw [Tx.new] at h
  rw [Tx.new, h] at hs
  rw [h]
  simp only at hs
  cases r with
  | error e =>
    simp only [txRollback, txClose]
    refine ⟨by simp, fun _ _ => hs.1, rfl, ?_⟩
    simp
  | ok u =>
    have hp1 : c.pending = c1.pending := by have := hs.2.1 rfl; exact Option.some.inj this
    have hb := run_spec env p hp ⟨true, 0, 0⟩ c1 rfl (Or.inr (by rw [← hp1, hc, hs.1]))
    simp only
    rcases h2 : p.run env ⟨true, 0, 0⟩ c1 with ⟨r, t', c2⟩
    rw [h2] at hb
    obtain ⟨b1, b2, b3, b4, b5⟩ := hb
    simp only at b1 b2 b3 b4 b5
    have hcl : txClose t' = ⟨false, 0, 0⟩ := by
      unfold txClose; rw [if_neg (by omega), if_pos b2, b3]
    cases r with
    | error e =>
      simp only [hcl, txRollback, b3, if_true]
      exact ⟨by simp, fun _ _ => b1.trans hs.1, trivial, trivial⟩
    | ok u =>
      simp only [txCommit, b3, ne_eq, not_true, if_false]
      by_cases hk : env.check c2.pending = true
      · simp only [hk, if_true, hcl]
        refine ⟨fun _ => ⟨?_, trivial⟩, by simp, trivial, trivial⟩
        have := b5 rfl
        rw [← hp1, hc] at this
        exact this
      · simp only [hk, Bool.false_eq_true, if_false, hcl, txRollback, b3, if_true]
        exact ⟨by simp, fun _ _ => b1.trans hs.1, trivial, trivial⟩

theorem retrying_ok (env : TxEnv σ) (f : σ → Option σ) (t : Tx) (c : Conn σ) (s : σ)
    (hok : env.sched c.n = .ok) (hf : f c.pending = some s) :
    retrying env f t c = (.ok (), { c with pending := s, n := c.n + 1 }) := by
  have ha : attempt env f c = (.ok (), { c with pending := s, n := c.n + 1 }) := by
    unfold attempt; rw [hok]; simp only [hf]
  unfold retrying
  split
  · exact ha
  · unfold retryLoop; rw [ha]

theorem run_ok (env : TxEnv σ) (p : Prog σ) (hp : p.Shared) :
    ∀ (t : Tx) (c : Conn σ) (s : σ), t.cursor = true → (∀ n, c.n ≤ n → env.sched n = .ok) →
      p.effect c.pending = some s →
      ∃ t' c', p.run env t c = (.ok (), t', c') ∧ c'.pending = s ∧ c.n ≤ c'.n := by
  induction hp with
  | done => intro t c s _ _ he; exact ⟨t, c, rfl, Option.some.inj he, Nat.le_refl _⟩
  | @exec f k _ ih =>
    intro t c s ht hn he
    simp only [Prog.effect] at he
    cases hf : f c.pending with
    | none => rw [hf] at he; simp at he
    | some s1 =>
      rw [hf] at he
      simp only [Option.bind_some] at he
      unfold Prog.run txExecute
      rw [retrying_ok env f t c s1 (hn _ (Nat.le_refl _)) hf]
      simp only
      obtain ⟨t', c', h1, h2, h3⟩ := ih s1 { t with queryCount := t.queryCount + 1 }
        { c with pending := s1, n := c.n + 1 } s ht (fun n h => hn n (Nat.le_of_succ_le h)) he
      exact ⟨t', c', h1, h2, Nat.le_of_succ_le h3⟩
  | @call body k hb _ ihb ihk =>
    intro t c s ht hn he
    simp only [Prog.effect] at he
    cases hf : body.effect c.pending with
    | none => rw [hf] at he; simp at he
    | some s1 =>
      rw [hf] at he
      simp only [Option.bind_some] at he
      obtain ⟨t1, c1, h1, h2, h3⟩ := ihb { t with noCommit := t.noCommit + 1 } c s1 ht hn hf
      unfold Prog.run frame txBegin
      rw [if_pos ht]
      dsimp only
      rw [h1]
      have hnc : t1.noCommit ≠ 0 ∧ t1.cursor = true := by
        -- the body leaves the transaction as it found it
        have := run_frame env body hb { t with noCommit := t.noCommit + 1 } c ht
        rw [h1] at this
        simp only at this
        exact ⟨by omega, this.1⟩
      simp only [txCommit, if_pos hnc.1]
      have hcl : txClose t1 = { t1 with noCommit := t1.noCommit - 1 } := by
        unfold txClose; rw [if_pos hnc.1]
      rw [hcl]
      obtain ⟨t', c', k1, k2, k3⟩ := ihk c1.pending { t1 with noCommit := t1.noCommit - 1 } c1 s hnc.2
        (fun n h => hn n (Nat.le_trans h3 h)) (by rw [h2]; exact he)
      exact ⟨t', c', k1, k2, Nat.le_trans h3 k3⟩

/-- C100: a method fails only for a reason: if none of its statements fails and the server carries out
the requests, all but at most two of which are answered by the loss of the connection, and these before
the first statement, the method returns. -/
theorem C100_succeeds (env : TxEnv σ) (p : Prog σ) (hp : p.Shared) (c : Conn σ) (s : σ)
    (hc : c.pending = c.committed) (he : p.effect c.committed = some s) (hk : env.check s = true)
    (hn : ∀ n, c.n + 2 ≤ n → env.sched n = .ok)
    (h0 : env.sched c.n ≠ .other) (h1 : env.sched (c.n + 1) = .ok ∨ env.sched (c.n + 1) = .operational ∧ env.sched c.n = .operational) :
    (method env p c).1 = .ok () ∧ (method env p c).2.2.committed = s := by
  -- `begin` succeeds
  have hbegin : ∃ m, c.n ≤ m ∧ (∀ n, m ≤ n → env.sched n = .ok) ∧
      retrying env some .new c = (.ok (), { c with n := m }) := by
    have e : ∀ c : Conn σ, c.pending = c.committed → reopen c = c := by
      intro c h; unfold reopen; cases c; simp only at h; subst h; rfl
    by_cases hs0 : env.sched c.n = .ok
    · have h1' : env.sched (c.n + 1) = .ok := by
        rcases h1 with h | h
        · exact h
        · rw [hs0] at h; exact absurd h.2 (by decide)
      refine ⟨c.n + 1, by omega, ?_, by rw [retrying_ok env some .new c c.pending hs0 rfl]⟩
      intro n hle
      by_cases hn1 : n = c.n + 1
      · rw [hn1]; exact h1'
      · exact hn n (by omega)
    · have hs0' : env.sched c.n = .operational := by
        cases hh : env.sched c.n <;> simp_all
      have a0 : attempt env some c = (.error .operational, { c with n := c.n + 1 }) := by
        unfold attempt; rw [hs0']
      by_cases hs1 : env.sched (c.n + 1) = .ok
      · refine ⟨c.n + 2, by omega, hn, ?_⟩
        have a1 : attempt env some { c with n := c.n + 1 } = (.ok (), { c with n := c.n + 2 }) := by
          unfold attempt; simp only [hs1]
        unfold retrying
        simp only [Tx.new, ne_eq, not_true, if_false]
        unfold retryLoop
        rw [a0]
        simp only [Nat.reduceEqDiff, if_false]
        rw [e _ (by exact hc)]
        unfold retryLoop
        rw [a1]
      · have hs1' : env.sched (c.n + 1) = .operational := by
          rcases h1 with h | h
          · exact absurd h hs1
          · exact h.1
        refine ⟨c.n + 3, by omega, fun n h => hn n (by omega), ?_⟩
        have a1 : attempt env some { c with n := c.n + 1 } = (.error .operational, { c with n := c.n + 2 }) := by
          unfold attempt; simp only [hs1']
        have a2 : attempt env some { c with n := c.n + 2 } = (.ok (), { c with n := c.n + 3 }) := by
          unfold attempt; simp only [hn (c.n + 2) (by omega)]
        unfold retrying
        simp only [Tx.new, ne_eq, not_true, if_false]
        unfold retryLoop
        rw [a0]
        simp only [Nat.reduceEqDiff, if_false]
        rw [e _ (by exact hc)]
        unfold retryLoop
        rw [a1]
        simp only [Nat.reduceEqDiff, if_false]
        rw [e _ (by exact hc)]
        unfold retryLoop
        rw [a2]
  obtain ⟨m, hm, hsm, hb⟩ := hbegin
  obtain ⟨t', c', hr, hpd, _⟩ := run_ok env p hp ⟨true, 0, 0⟩ { c with n := m } s rfl hsm (by simpa [hc] using he)
  have hfr := run_frame env p hp ⟨true, 0, 0⟩ { c with n := m } rfl
  rw [hr] at hfr
  simp only at hfr
  have hm : method env p c = (.ok (), txClose t', { c' with committed := c'.pending }) := by
    unfold method frame txBegin
    rw [if_neg (by simp [Tx.new]), hb]
    simp only [Tx.new]
    rw [hr]
    simp only [txCommit, hfr.2, ne_eq, not_true, if_false, hpd, hk, if_true]
  rw [hm]
  exact ⟨rfl, hpd⟩

/-- A read inside a method, by a collection that makes its own transaction. -/
def ownRead : Prog σ := .exec some fun _ => .done

/-- sqlds.py:2790-2800, 2833-2839 `delete_entity` with a cascade: the dependents (here their number) are
deleted, the collection that lists them ends its own transaction, and then the entity itself is deleted,
which may fail. -/
def cascade (last : Nat → Option Nat) : Prog Nat :=
  .exec (fun n => some (n - 1)) fun _ => .call false ownRead fun _ => .exec last fun _ => .done

/-- C100 is violated where a method is called without the transaction: `delete_entity` with a cascade
raises an exception, yet dependents are gone for good. -/
theorem C100_violation_cascade :
    (method ⟨fun _ => .ok, fun _ => true⟩ (cascade fun _ => none) ⟨5, 5, 0⟩).1 = .error .other ∧
    (method ⟨fun _ => .ok, fun _ => true⟩ (cascade fun _ => none) ⟨5, 5, 0⟩).2.2.committed = 4 := by
  exact ⟨rfl, rfl⟩

/-- The frame of `new_stream` and `update_stream` (sqlds.py:845-873, 2048-2090): there is no commit. -/
def frameNoCommit (env : TxEnv σ) (p : Prog σ) (c : Conn σ) : Except TxErr Unit × Tx × Conn σ :=
  match txBegin env .new c with
  | (.error e, t, c) => (.error e, txClose t, txRollback t c)
  | (.ok (), t, c) =>
    match p.run env t c with
    | (.error e, t, c) => (.error e, txClose t, txRollback t c)
    | (.ok (), t, c) => (.ok (), txClose t, c)

/-- C100 is violated by `new_stream` and `update_stream`: whatever they do, nothing is durable when they
return, and the next method of the thread that fails undoes it. -/
theorem C100_violation_stream (env : TxEnv σ) (p : Prog σ) (hp : p.Shared) (c : Conn σ)
    (hc : c.pending = c.committed) : (frameNoCommit env p c).2.2.committed = c.committed := by
  unfold frameNoCommit txBegin
  simp only [Tx.new, Bool.false_eq_true, if_false]
  have hs := retrying_spec env some .new c (Or.inr hc)
  rcases h : retrying env some .new c with ⟨r, c1⟩
  rw [Tx.new] at h
  rw [Tx.new, h] at hs
  rw [h]
  simp only at hs
  cases r with
  | error e => simp only [txRollback]; exact hs.1
  | ok u =>
    have hp1 : c.pending = c1.pending := by have := hs.2.1 rfl; exact Option.some.inj this
    have hb := run_spec env p hp ⟨true, 0, 0⟩ c1 rfl (Or.inr (by rw [← hp1, hc, hs.1]))
    simp only
    rcases h2 : p.run env ⟨true, 0, 0⟩ c1 with ⟨r, t', c2⟩
    rw [h2] at hb
    cases r with
    | error e =>
      simp only [txRollback]
      split
      · exact hb.1.trans hs.1
      · exact hb.1.trans hs.1
    | ok u => exact hb.1.trans hs.1

theorem C100_violation_stream_lost :
    let env : TxEnv Nat := ⟨fun _ => .ok, fun _ => true⟩
    let r := frameNoCommit env (.exec (fun _ => some 7) fun _ => .done) ⟨0, 0, 0⟩
    r.1 = .ok () ∧ r.2.2.pending = 7 ∧
    (method env (.exec (fun _ => none) fun _ => .done) r.2.2).2.2.pending = 0 := ⟨rfl, rfl, rfl⟩

/-- A method that inserts an entity, calls another one to insert a second, then links them. -/
def exInsert : Prog (List Nat) :=
  .exec (fun s => some (1 :: s)) fun _ =>
    .call true (.exec (fun s => some (2 :: s)) fun _ => .done) fun s =>
      .exec (fun s' => if s.length = 2 then some (3 :: s') else none) fun _ => .done

theorem exInsert_shared : exInsert.Shared :=
  .exec fun _ => .call (.exec fun _ => .done) fun _ => .exec fun _ => .done

/-- Two lost connections, then none. -/
example : (method ⟨fun n => if n < 2 then .operational else .ok, fun _ => true⟩ exInsert ⟨[], [], 0⟩).2.2.committed
    = [3, 2, 1] := rfl
example : (method ⟨fun n => if n = 2 then .operational else .ok, fun _ => true⟩ exInsert ⟨[9], [9], 0⟩).2.2.committed
    = [9] := rfl
example : exInsert.effect [] = some [3, 2, 1] := rfl

end Verif.Sql

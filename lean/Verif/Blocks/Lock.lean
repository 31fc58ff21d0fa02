/-!
# Model of `LockStore`, `pyslet/blockstore.py:242-400`: C33

The lock entities are rows of an entity set keyed by the hash; rows of different keys do not interact, so the model has
the row of one key.  Any number of clients (a client is a thread of a process; `owner` identifies it) call `lock` and
`unlock`; every access to the entity set is one atomic action, and so is reading the clock.  Times are in microseconds;
all clients read the same clock.

`update_entity` is that of the SQL entity collection (sqlds.py:2420-2645): it fails with ConcurrencyError when `created`
is not the value that was read, and sets `created` to a new token (csdl.py:2747-2811): the time now, or a second later if
that is the old value.  `memory := true` is the in-memory collection (memds.py:165-191, 476-481), which neither compares
nor changes `created`.
-/
namespace Verif.Blocks.Lock

/-- A second. -/
def sec : Nat := 1000000

/-- A lock entity, blockstore.py:309-312. -/
structure Row where
  owner : Nat
  created : Nat
  deriving DecidableEq, Repr

/-- Where a client is. -/
inductive Pc where
  /-- outside `lock` and `unlock`, without the lock -/
  | idle
  /-- blockstore.py:308-314, about to insert; `tnow` was read before -/
  | trying (tnow : Nat)
  /-- blockstore.py:318-319, about to read the row -/
  | failed (tnow : Nat)
  /-- blockstore.py:329-331, about to take over the stale lock it read -/
  | stealing (created : Nat)
  /-- `lock` returned; `created` (of the row it wrote) is not known to the client and here for the specification only -/
  | holding (created : Nat)
  /-- blockstore.py:375, about to read the row -/
  | unlocking
  /-- blockstore.py:381-383, about to read the clock -/
  | checking (created : Nat)
  /-- blockstore.py:387, about to renew the lock -/
  | refreshing (created : Nat)
  /-- blockstore.py:388, about to delete the row; it read the clock (or renewed the lock) at `since` -/
  | deleting (created since : Nat)
  deriving DecidableEq, Repr

structure State where
  now : Nat
  row : Option Row
  pc : Nat → Pc

/-- `lock_timeout` in microseconds; the kind of entity set; whether every client deletes the row within a second of
having read the clock in `unlock`. -/
structure Cfg where
  timeout : Nat
  memory : Bool := false
  prompt : Bool := true

inductive Action where
  /-- time passes -/
  | tick (d : Nat)
  /-- `c` calls `lock` -/
  | lock (c : Nat)
  /-- `c` calls `unlock` -/
  | unlock (c : Nat)
  /-- the time out of `lock` is over, blockstore.py:343-344 -/
  | giveUp (c : Nat)
  /-- `c` makes its next access; `token` is the value of `created` written, if any -/
  | act (c : Nat) (token : Nat)
  deriving DecidableEq, Repr

def State.set (s : State) (c : Nat) (p : Pc) : State := { s with pc := fun x => if x = c then p else s.pc x }

/-- A value of `created` the entity set may write now: csdl.py:2795-2803, blockstore.py:312. -/
def tokenOk (s : State) (token : Nat) : Bool := s.now ≤ token && token ≤ s.now + sec

/-- The next access of a client, blockstore.py:307-342 and 373-400; `none`: the token is not possible. -/
def act (cfg : Cfg) (s : State) (c token : Nat) : Option State :=
  match s.pc c with
  | .trying tnow =>
    match s.row with
    | none => if tokenOk s token then some { (s.set c (.holding token)) with row := some ⟨c, token⟩ } else none
    | some _ => some (s.set c (.failed tnow))
  | .failed tnow =>
    match s.row with
    | none => some (s.set c (.trying s.now))
    | some r => if r.created + cfg.timeout < tnow then some (s.set c (.stealing r.created)) else some (s.set c (.trying s.now))
  | .stealing created =>
    match s.row with
    | none => some (s.set c (.trying s.now))
    | some r =>
      if cfg.memory then some { (s.set c (.holding created)) with row := some ⟨c, created⟩ }
      else if r.created = created then
        if tokenOk s token && token != created then some { (s.set c (.holding token)) with row := some ⟨c, token⟩ } else none
      else some (s.set c (.trying s.now))
  | .unlocking =>
    match s.row with
    | none => some (s.set c .idle)
    | some r => if r.owner = c then some (s.set c (.checking r.created)) else some (s.set c .idle)
  | .checking created =>
    if created + cfg.timeout < s.now + sec then some (s.set c (.refreshing created)) else some (s.set c (.deleting created s.now))
  | .refreshing created =>
    match s.row with
    | none => some (s.set c .idle)
    | some r =>
      if cfg.memory then some { (s.set c (.deleting created s.now)) with row := some ⟨c, created⟩ }
      else if r.created = created then
        if tokenOk s token && token != created then
          some { (s.set c (.deleting token s.now)) with row := some ⟨c, token⟩ } else none
      else some (s.set c .idle)
  | .deleting _ since =>
    if cfg.prompt && decide (since + sec < s.now) then none else some { (s.set c .idle) with row := none }
  | .idle => none
  | .holding _ => none

/-- One action; `none`: it is not possible in this state. -/
def step (cfg : Cfg) (s : State) : Action → Option State
  | .tick d => some { s with now := s.now + d }
  | .lock c => if s.pc c = .idle then some (s.set c (.trying s.now)) else none
  | .unlock c => match s.pc c with
    | .holding _ => some (s.set c .unlocking)
    | _ => none
  | .giveUp c => match s.pc c with
    | .trying _ => some (s.set c .idle)
    | _ => none
  | .act c token => act cfg s c token

/-- An execution. -/
def run (cfg : Cfg) (s : State) : List Action → Option State
  | [] => some s
  | a :: as => (step cfg s a).bind fun s => run cfg s as

/-- Nobody has the lock. -/
def init (now : Nat) : State := { now, row := none, pc := fun _ => .idle }

/-! ### C33 -/

/-- The client holds a lock that has not expired. -/
def Holds (cfg : Cfg) (s : State) (c : Nat) : Prop := ∃ created, s.pc c = .holding created ∧ s.now ≤ created + cfg.timeout

/-- A row the client read is still there, or it expired and was replaced. -/
def Mine (cfg : Cfg) (s : State) (c created : Nat) : Prop :=
  s.row = some ⟨c, created⟩ ∨ (created + cfg.timeout < s.now ∧ ∀ r, s.row = some r → r.created ≠ created)

structure Inv (cfg : Cfg) (s : State) : Prop where
  holding : ∀ c created, s.pc c = .holding created → s.now ≤ created + cfg.timeout → s.row = some ⟨c, created⟩
  trying : ∀ c t, s.pc c = .trying t ∨ s.pc c = .failed t → t ≤ s.now
  stealing : ∀ c created, s.pc c = .stealing created → created + cfg.timeout < s.now
  mine : ∀ c created, s.pc c = .checking created ∨ s.pc c = .refreshing created → Mine cfg s c created
  deleting : ∀ c created since, s.pc c = .deleting created since → since + sec ≤ created + cfg.timeout ∧
    (s.now ≤ created + cfg.timeout → s.row = some ⟨c, created⟩)

theorem set_self (s : State) (c : Nat) (p : Pc) : (s.set c p).pc c = p := by simp [State.set]
theorem set_other (s : State) {c x : Nat} (p : Pc) (h : x ≠ c) : (s.set c p).pc x = s.pc x := by simp [State.set, h]

/-- A client moves without writing. -/
theorem move_inv {cfg : Cfg} {s : State} (h : Inv cfg s) (c : Nat) (p : Pc)
    (h1 : ∀ x, p ≠ .holding x) (h2 : ∀ t, p = .trying t ∨ p = .failed t → t ≤ s.now)
    (h3 : ∀ x, p = .stealing x → x + cfg.timeout < s.now)
    (h4 : ∀ x, p = .checking x ∨ p = .refreshing x → Mine cfg s c x)
    (h5 : ∀ x y, p = .deleting x y → y + sec ≤ x + cfg.timeout ∧ (s.now ≤ x + cfg.timeout → s.row = some ⟨c, x⟩)) :
    Inv cfg (s.set c p) := by
  refine { holding := ?_, trying := ?_, stealing := ?_, mine := ?_, deleting := ?_ }
  · intro x cr hx hn
    by_cases e : x = c
    · subst e; rw [set_self] at hx; exact absurd hx (h1 cr)
    · rw [set_other _ _ e] at hx; exact h.holding x cr hx hn
  · intro x t hx
    by_cases e : x = c
    · subst e; rw [set_self] at hx; exact h2 t hx
    · rw [set_other _ _ e] at hx; exact h.trying x t hx
  · intro x t hx
    by_cases e : x = c
    · subst e; rw [set_self] at hx; exact h3 t hx
    · rw [set_other _ _ e] at hx; exact h.stealing x t hx
  · intro x t hx
    by_cases e : x = c
    · subst e; rw [set_self] at hx; exact h4 t hx
    · rw [set_other _ _ e] at hx; exact h.mine x t hx
  · intro x t u hx
    by_cases e : x = c
    · subst e; rw [set_self] at hx; exact h5 t u hx
    · rw [set_other _ _ e] at hx; exact h.deleting x t u hx

/-- A client writes the row: no other client has a row, except expired ones with another `created`. -/
theorem write_inv {cfg : Cfg} {s : State} (h : Inv cfg s) (c : Nat) (p : Pc) (row : Option Row)
    (h0 : ∀ x cr, x ≠ c → s.row = some ⟨x, cr⟩ → cr + cfg.timeout < s.now ∧ ∀ r, row = some r → r.created ≠ cr)
    (ht : ∀ r, row = some r → s.now ≤ r.created)
    (h1 : ∀ x, p = .holding x → row = some ⟨c, x⟩) (h2 : ∀ t, p = .trying t ∨ p = .failed t → t ≤ s.now)
    (h3 : ∀ x, p ≠ .stealing x) (h4 : ∀ x, p ≠ .checking x ∧ p ≠ .refreshing x)
    (h5 : ∀ x y, p = .deleting x y → y + sec ≤ x + cfg.timeout ∧ row = some ⟨c, x⟩) :
    Inv cfg { (s.set c p) with row := row } := by
  refine { holding := ?_, trying := ?_, stealing := ?_, mine := ?_, deleting := ?_ }
  · intro x cr hx hn
    by_cases e : x = c
    · subst e
      have hx : (s.set x p).pc x = .holding cr := hx
      rw [set_self] at hx; exact h1 cr hx
    · have hx : (s.set c p).pc x = .holding cr := hx
      rw [set_other _ _ e] at hx
      have := h.holding x cr hx hn
      have := (h0 x cr e this).1
      have hn : s.now ≤ cr + cfg.timeout := hn
      omega
  · intro x t hx
    have hx : (s.set c p).pc x = .trying t ∨ (s.set c p).pc x = .failed t := hx
    by_cases e : x = c
    · subst e; rw [set_self] at hx; exact h2 t hx
    · rw [set_other _ _ e] at hx; exact h.trying x t hx
  · intro x t hx
    have hx : (s.set c p).pc x = .stealing t := hx
    by_cases e : x = c
    · subst e; rw [set_self] at hx; exact absurd hx (h3 t)
    · rw [set_other _ _ e] at hx; exact h.stealing x t hx
  · intro x t hx
    have hx : (s.set c p).pc x = .checking t ∨ (s.set c p).pc x = .refreshing t := hx
    by_cases e : x = c
    · subst e; rw [set_self] at hx; rcases hx with hx | hx
      · exact absurd hx (h4 t).1
      · exact absurd hx (h4 t).2
    · rw [set_other _ _ e] at hx
      right
      rcases h.mine x t hx with hm | ⟨hm, _⟩
      · exact h0 x t e hm
      · refine ⟨hm, fun r hr => ?_⟩
        have := ht r hr
        omega
  · intro x t u hx
    have hx : (s.set c p).pc x = .deleting t u := hx
    by_cases e : x = c
    · subst e; rw [set_self] at hx; exact ⟨(h5 t u hx).1, fun _ => (h5 t u hx).2⟩
    · rw [set_other _ _ e] at hx
      obtain ⟨k1, k2⟩ := h.deleting x t u hx
      refine ⟨k1, fun hn => ?_⟩
      have hn : s.now ≤ t + cfg.timeout := hn
      have := (h0 x t e (k2 hn)).1
      omega

theorem act_inv {cfg : Cfg} (hp : cfg.prompt = true) (hm : cfg.memory = false) (hT : sec ≤ cfg.timeout) {s s' : State}
    (h : Inv cfg s) (c token : Nat) (he : act cfg s c token = some s') : Inv cfg s' := by
  unfold act at he
  cases hpc : s.pc c with
  | idle => rw [hpc] at he; simp at he
  | holding _ => rw [hpc] at he; simp at he
  | trying tnow =>
    rw [hpc] at he
    dsimp only at he
    cases hr : s.row with
    | none =>
      rw [hr] at he
      dsimp only at he
      split at he
      next ht =>
        simp only [Option.some.injEq] at he
        subst he
        simp only [tokenOk, Bool.and_eq_true, decide_eq_true_eq] at ht
        refine write_inv h c _ _ ?_ ?_ ?_ ?_ ?_ ?_ ?_
        · intro x cr _ hx; rw [hr] at hx; simp at hx
        · intro r e; simp only [Option.some.injEq] at e; subst e; exact ht.1
        · intro x e; simp only [Pc.holding.injEq] at e; rw [e]
        · simp
        · simp
        · simp
        · simp
      · simp at he
    | some r =>
      rw [hr] at he
      simp only [Option.some.injEq] at he
      subst he
      refine move_inv h c _ (by simp) ?_ (by simp) (by simp) (by simp)
      intro t e
      simp only [reduceCtorEq, Pc.failed.injEq, false_or] at e
      subst e
      exact h.trying c tnow (.inl hpc)
  | failed tnow =>
    rw [hpc] at he
    dsimp only at he
    have ht := h.trying c tnow (.inr hpc)
    have mv : Inv cfg (s.set c (.trying s.now)) := move_inv h c _ (by simp) (by simp) (by simp) (by simp) (by simp)
    cases hr : s.row with
    | none =>
      rw [hr] at he
      simp only [Option.some.injEq] at he
      subst he
      exact mv
    | some r =>
      rw [hr] at he
      dsimp only at he
      split at he
      · simp only [Option.some.injEq] at he
        subst he
        refine move_inv h c _ (by simp) (by simp) ?_ (by simp) (by simp)
        intro x e
        simp only [Pc.stealing.injEq] at e
        omega
      · simp only [Option.some.injEq] at he
        subst he
        exact mv
  | stealing created =>
    rw [hpc] at he
    dsimp only at he
    have hst := h.stealing c created hpc
    have mv : Inv cfg (s.set c (.trying s.now)) := move_inv h c _ (by simp) (by simp) (by simp) (by simp) (by simp)
    cases hr : s.row with
    | none =>
      rw [hr] at he
      simp only [Option.some.injEq] at he
      subst he
      exact mv
    | some r =>
      rw [hr] at he
      simp only [hm, Bool.false_eq_true, if_false] at he
      split at he
      next hc =>
        split at he
        next ht =>
          simp only [Option.some.injEq] at he
          subst he
          simp only [tokenOk, Bool.and_eq_true, decide_eq_true_eq, bne_iff_ne] at ht
          refine write_inv h c _ _ ?_ ?_ ?_ ?_ ?_ ?_ ?_
          · intro x cr _ hx
            rw [hr] at hx
            simp only [Option.some.injEq] at hx
            subst hx
            dsimp only at hc
            subst hc
            refine ⟨hst, ?_⟩
            intro r e; simp only [Option.some.injEq] at e; subst e; exact ht.2
          · intro r e; simp only [Option.some.injEq] at e; subst e; exact ht.1.1
          · intro x e; simp only [Pc.holding.injEq] at e; rw [e]
          · simp
          · simp
          · simp
          · simp
        · simp at he
      · simp only [Option.some.injEq] at he
        subst he
        exact mv
  | unlocking =>
    rw [hpc] at he
    dsimp only at he
    have mv : Inv cfg (s.set c .idle) := move_inv h c _ (by simp) (by simp) (by simp) (by simp) (by simp)
    cases hr : s.row with
    | none =>
      rw [hr] at he
      simp only [Option.some.injEq] at he
      subst he
      exact mv
    | some r =>
      rw [hr] at he
      dsimp only at he
      split at he
      next ho =>
        simp only [Option.some.injEq] at he
        subst he
        refine move_inv h c _ (by simp) (by simp) (by simp) ?_ (by simp)
        intro x e
        simp only [Pc.checking.injEq, reduceCtorEq, or_false] at e
        left
        rw [hr, ← e, ← ho]
      · simp only [Option.some.injEq] at he
        subst he
        exact mv
  | checking created =>
    rw [hpc] at he
    dsimp only at he
    have hmi := h.mine c created (.inl hpc)
    split at he
    · simp only [Option.some.injEq] at he
      subst he
      refine move_inv h c _ (by simp) (by simp) (by simp) ?_ (by simp)
      intro x e
      simp only [Pc.refreshing.injEq, reduceCtorEq, false_or] at e
      rw [← e]
      exact hmi
    next hlt =>
      simp only [Option.some.injEq] at he
      subst he
      refine move_inv h c _ (by simp) (by simp) (by simp) (by simp) ?_
      intro x y e
      simp only [Pc.deleting.injEq] at e
      obtain ⟨e1, e2⟩ := e
      subst e1; subst e2
      refine ⟨by omega, fun hn => ?_⟩
      rcases hmi with hmi | ⟨hmi, _⟩
      · exact hmi
      · omega
  | refreshing created =>
    rw [hpc] at he
    dsimp only at he
    have hmi := h.mine c created (.inr hpc)
    have mv : Inv cfg (s.set c .idle) := move_inv h c _ (by simp) (by simp) (by simp) (by simp) (by simp)
    cases hr : s.row with
    | none =>
      rw [hr] at he
      simp only [Option.some.injEq] at he
      subst he
      exact mv
    | some r =>
      rw [hr] at he
      simp only [hm, Bool.false_eq_true, if_false] at he
      split at he
      next hc =>
        split at he
        next ht =>
          simp only [Option.some.injEq] at he
          subst he
          simp only [tokenOk, Bool.and_eq_true, decide_eq_true_eq, bne_iff_ne] at ht
          have hrow : r.owner = c := by
            rcases hmi with hmi | ⟨_, hmi⟩
            · rw [hr] at hmi
              simp only [Option.some.injEq] at hmi
              rw [hmi]
            · exact absurd hc (hmi r hr)
          refine write_inv h c _ _ ?_ ?_ ?_ ?_ ?_ ?_ ?_
          · intro x cr hx hxr
            rw [hr] at hxr
            simp only [Option.some.injEq] at hxr
            rw [hxr] at hrow
            exact absurd hrow hx
          · intro r e; simp only [Option.some.injEq] at e; subst e; exact ht.1.1
          · simp
          · simp
          · simp
          · simp
          · intro x y e
            simp only [Pc.deleting.injEq] at e
            obtain ⟨e1, e2⟩ := e
            subst e1; subst e2
            exact ⟨by omega, rfl⟩
        · simp at he
      · simp only [Option.some.injEq] at he
        subst he
        exact mv
  | deleting created since =>
    rw [hpc] at he
    simp only [hp, Bool.true_and, decide_eq_true_eq] at he
    obtain ⟨k1, k2⟩ := h.deleting c created since hpc
    split at he
    · simp at he
    · simp only [Option.some.injEq] at he
      subst he
      have hrow := k2 (by omega)
      refine write_inv h c _ _ ?_ (by simp) (by simp) (by simp) (by simp) (by simp) (by simp)
      intro x cr hx hxr
      rw [hrow] at hxr
      simp only [Option.some.injEq, Row.mk.injEq] at hxr
      exact absurd hxr.1.symm hx

theorem step_inv {cfg : Cfg} (hp : cfg.prompt = true) (hm : cfg.memory = false) (hT : sec ≤ cfg.timeout) {s s' : State}
    (h : Inv cfg s) (a : Action) (he : step cfg s a = some s') : Inv cfg s' := by
  cases a with
  | tick d =>
    simp only [step, Option.some.injEq] at he
    subst he
    refine { holding := ?_, trying := ?_, stealing := ?_, mine := ?_, deleting := ?_ }
    · intro c cr hc hn
      have hn : s.now + d ≤ cr + cfg.timeout := hn
      exact h.holding c cr hc (by omega)
    · intro c t hc
      have := h.trying c t hc
      dsimp only
      omega
    · intro c t hc
      have := h.stealing c t hc
      dsimp only
      omega
    · intro c t hc
      rcases h.mine c t hc with k | ⟨k1, k2⟩
      · exact .inl k
      · exact .inr ⟨by dsimp only; omega, k2⟩
    · intro c t u hc
      obtain ⟨k1, k2⟩ := h.deleting c t u hc
      refine ⟨k1, fun hn => ?_⟩
      have hn : s.now + d ≤ t + cfg.timeout := hn
      exact k2 (by omega)
  | lock c =>
    simp only [step] at he
    split at he
    · simp only [Option.some.injEq] at he
      subst he
      exact move_inv h c _ (by simp) (by simp) (by simp) (by simp) (by simp)
    · simp at he
  | unlock c =>
    simp only [step] at he
    split at he
    · simp only [Option.some.injEq] at he
      subst he
      exact move_inv h c _ (by simp) (by simp) (by simp) (by simp) (by simp)
    · simp at he
  | giveUp c =>
    simp only [step] at he
    split at he
    · simp only [Option.some.injEq] at he
      subst he
      exact move_inv h c _ (by simp) (by simp) (by simp) (by simp) (by simp)
    · simp at he
  | act c token => exact act_inv hp hm hT h c token he

theorem run_inv {cfg : Cfg} (hp : cfg.prompt = true) (hm : cfg.memory = false) (hT : sec ≤ cfg.timeout) :
    ∀ (as : List Action) {s s' : State}, Inv cfg s → run cfg s as = some s' → Inv cfg s' := by
  intro as
  induction as with
  | nil => intro s s' h he; simp only [run, Option.some.injEq] at he; subst he; exact h
  | cons a as ih =>
    intro s s' h he
    simp only [run, Option.bind_eq_some_iff] at he
    obtain ⟨s1, e1, e2⟩ := he
    exact ih (step_inv hp hm hT h a e1) e2

theorem init_inv (cfg : Cfg) (now : Nat) : Inv cfg (init now) := by
  refine { holding := ?_, trying := ?_, stealing := ?_, mine := ?_, deleting := ?_ } <;> simp [init]

/-- **C33**: in every execution of any number of clients in which clients delete their row within a second of the check
in `unlock`, at most one client holds a lock that has not expired. -/
theorem C33_exclusive (timeout : Nat) (hT : sec ≤ timeout) (now : Nat) (as : List Action) (s : State)
    (he : run { timeout } (init now) as = some s) (c d : Nat) (hc : Holds { timeout } s c) (hd : Holds { timeout } s d) : c = d := by
  have h := run_inv (cfg := { timeout }) rfl rfl hT as (init_inv _ now) he
  obtain ⟨x, h1, h2⟩ := hc
  obtain ⟨y, h3, h4⟩ := hd
  have e1 := h.holding c x h1 h2
  have e2 := h.holding d y h3 h4
  rw [e1] at e2
  simp only [Option.some.injEq, Row.mk.injEq] at e2
  exact e2.1

/-- **C33**: a lock that `lock` has just returned has not expired, so no other client held one. -/
theorem C33_fresh (timeout : Nat) (s s' : State) (c token created : Nat) (he : step { timeout } s (.act c token) = some s')
    (hh : s'.pc c = .holding created) : s'.now ≤ created ∧ s'.row = some ⟨c, created⟩ := by
  simp only [step, act] at he
  have fin : ∀ p, some (s.set c p) = some s' → (∀ x, p ≠ .holding x) → s'.now ≤ created ∧ s'.row = some ⟨c, created⟩ := by
    intro p e hp
    simp only [Option.some.injEq] at e
    subst e
    rw [set_self] at hh
    exact absurd hh (hp created)
  have acq : ∀ tk, s.now ≤ tk → some { (s.set c (.holding tk)) with row := some ⟨c, tk⟩ } = some s' →
      s'.now ≤ created ∧ s'.row = some ⟨c, created⟩ := by
    intro tk htk e
    simp only [Option.some.injEq] at e
    subst e
    have hh : (s.set c (.holding tk)).pc c = .holding created := hh
    rw [set_self] at hh
    simp only [Pc.holding.injEq] at hh
    subst hh
    exact ⟨htk, rfl⟩
  split at he
  · split at he
    · split at he
      next ht =>
        simp only [tokenOk, Bool.and_eq_true, decide_eq_true_eq] at ht
        exact acq _ ht.1 he
      · simp at he
    · exact fin _ he (by simp)
  · split at he
    · exact fin _ he (by simp)
    · split at he
      · exact fin _ he (by simp)
      · exact fin _ he (by simp)
  · split at he
    · exact fin _ he (by simp)
    · simp only [Bool.false_eq_true, if_false] at he
      split at he
      · split at he
        next ht =>
          simp only [tokenOk, Bool.and_eq_true, decide_eq_true_eq] at ht
          exact acq _ ht.1.1 he
        · simp at he
      · exact fin _ he (by simp)
  · split at he
    · exact fin _ he (by simp)
    · split at he
      · exact fin _ he (by simp)
      · exact fin _ he (by simp)
  · split at he
    · exact fin _ he (by simp)
    · exact fin _ he (by simp)
  · split at he
    · exact fin _ he (by simp)
    · simp only [Bool.false_eq_true, if_false] at he
      split at he
      · split at he
        · simp only [Option.some.injEq] at he
          subst he
          have hh : (s.set c (.deleting token s.now)).pc c = .holding created := hh
          rw [set_self] at hh
          simp at hh
        · simp at he
      · exact fin _ he (by simp)
  · split at he
    · simp at he
    · simp only [Option.some.injEq] at he
      subst he
      have hh : (s.set c .idle).pc c = .holding created := hh
      rw [set_self] at hh
      simp at hh
  · simp at he
  · simp at he

/-- **C33**: `unlock` of a client whose lock another client took over before does nothing, however slow clients are. -/
theorem C33_stale_unlock (cfg : Cfg) (s : State) (c token : Nat) (hc : s.pc c = .unlocking) (r : Row) (hr : s.row = some r)
    (ho : r.owner ≠ c) : step cfg s (.act c token) = some (s.set c .idle) ∧ (s.set c .idle).row = s.row := by
  refine ⟨?_, rfl⟩
  simp [step, act, hc, hr, ho]

/-- **C33**: a lock that expired can be taken over: a client calling `lock` with nobody else acting gets it. -/
theorem C33_recovers (timeout : Nat) (s : State) (c : Nat) (hc : s.pc c = .idle) (r : Row) (hr : s.row = some r)
    (hx : r.created + timeout < s.now) :
    ∃ s', run { timeout } s [.lock c, .act c 0, .act c 0, .act c s.now] = some s' ∧ Holds { timeout } s' c ∧
      s'.row = some ⟨c, s.now⟩ := by
  refine ⟨{ ((((s.set c (.trying s.now)).set c (.failed s.now)).set c (.stealing r.created)).set c (.holding s.now)) with
    row := some ⟨c, s.now⟩ }, ?_, ⟨s.now, by simp [State.set], by simp [State.set]⟩, rfl⟩
  have hne : r.created ≠ s.now := by omega
  simp [run, step, act, hc, hr, State.set, hx, tokenOk, Ne.symm hne]

/-- **C33**: `unlock` releases a lock that has not expired: with nobody else acting there is no lock afterwards, and another
client gets it at once. -/
theorem C33_release (timeout : Nat) (s : State) (c d : Nat) (created : Nat) (hc : s.pc c = .holding created)
    (hr : s.row = some ⟨c, created⟩) (hn : s.now + sec ≤ created + timeout) (hd : s.pc d = .idle) :
    ∃ s1 s2, run { timeout } s [.unlock c, .act c 0, .act c 0, .act c 0] = some s1 ∧ s1.row = none ∧ s1.pc c = .idle ∧
      run { timeout } s1 [.lock d, .act d s.now] = some s2 ∧ Holds { timeout } s2 d := by
  have hne : d ≠ c := by rintro rfl; rw [hc] at hd; cases hd
  let s1 : State := { ((((s.set c .unlocking).set c (.checking created)).set c (.deleting created s.now)).set c .idle) with row := none }
  refine ⟨s1, { ((s1.set d (.trying s.now)).set d (.holding s.now)) with row := some ⟨d, s.now⟩ }, ?_, rfl,
    by simp [s1, State.set], ?_, ?_⟩
  · simp [run, step, act, hc, hr, State.set, s1, Nat.not_lt.mpr hn, Nat.not_lt.mpr (Nat.le_add_right s.now sec)]
  · simp [run, step, act, hd, hne, State.set, s1, tokenOk]
  · exact ⟨s.now, by simp [State.set], by simp [State.set, s1]⟩

/-- C33 is violated by a client that is slow in `unlock`: client 0 sees that its lock is good for more than a second,
client 1 takes over the lock after it expired, then client 0 deletes the row of client 1, and client 2 gets the lock too. -/
theorem C33_slow_violation : ∃ s, run { timeout := 180 * sec, prompt := false } (init 0)
    [.lock 0, .act 0 0, .tick (100 * sec), .unlock 0, .act 0 0, .act 0 0, .tick (81 * sec), .lock 1, .act 1 0, .act 1 0,
     .act 1 (181 * sec), .act 0 0, .lock 2, .act 2 (181 * sec)] = some s ∧
    Holds { timeout := 180 * sec } s 1 ∧ Holds { timeout := 180 * sec } s 2 :=
  ⟨_, rfl, ⟨181 * sec, by decide, by decide⟩, ⟨181 * sec, by decide, by decide⟩⟩

/-- C33 is violated by the in-memory entity set: two clients take over the same stale lock. -/
theorem C33_memory_violation : ∃ s, run { timeout := 180 * sec, memory := true } (init 0)
    [.lock 0, .act 0 0, .tick (181 * sec), .lock 1, .act 1 0, .act 1 0, .act 1 0, .lock 2, .act 2 0, .act 2 0, .act 2 0] = some s ∧
    s.pc 1 = .holding 0 ∧ s.pc 2 = .holding 0 :=
  ⟨_, rfl, by decide, by decide⟩

/-- An execution of C33 in which a stale lock is taken over and released. -/
example : ∃ s, run { timeout := 180 * sec } (init 0)
    [.lock 0, .act 0 0, .lock 1, .act 1 0, .tick (181 * sec), .act 1 0, .giveUp 1, .lock 1, .act 1 0, .act 1 0,
     .act 1 (181 * sec), .unlock 0, .act 0 0] = some s ∧ Holds { timeout := 180 * sec } s 1 ∧ s.pc 0 = .idle :=
  ⟨_, rfl, ⟨181 * sec, by decide, by decide⟩, by decide⟩

end Verif.Blocks.Lock

import Verif.Blocks.Store

namespace Verif.Blocks.Store

/-! ## Which locks a thread has -/

/-- The thread has the lock of `h`. -/
def holds (cfg : Cfg) : Pc → Nat → Prop
  | .idle, _ | .dead, _ | .sLock _ _, _ | .uLock _ _ _, _ | .dLock _ _, _ => False
  | .sCheck _ d, h | .sMove _ d, h | .sUnlock _ d, h => h = cfg.hash d
  | .uLock2 _ old _, h | .uUnlock _ old, h => h = old
  | .uCheck _ old d, h | .uMove _ old d, h | .uEntity _ old d, h | .uCount _ old d, h | .uDelete _ old d, h
  | .uUnlock2 _ old d, h => h = old ∨ h = cfg.hash d
  | .dEntity _ old, h | .dCount _ old, h | .dDelete _ old, h | .dUnlock _ old, h => h = old

/-- `update_block` goes on with a hash other than the old one only. -/
def distinct (cfg : Cfg) : Pc → Prop
  | .uLock _ old d | .uLock2 _ old d | .uCheck _ old d | .uMove _ old d | .uEntity _ old d | .uCount _ old d
  | .uDelete _ old d | .uUnlock2 _ old d => cfg.hash d ≠ old
  | _ => True

/-- The thread is about to delete the block `h`. -/
def deleting : Pc → Nat → Prop
  | .uDelete _ old _, h | .dDelete _ old, h => h = old
  | _, _ => False

/-- The thread is about to make an entity refer to the block `h`, which it has stored. -/
def readies (cfg : Cfg) : Pc → Nat → Prop
  | .uEntity _ _ d, h => h = cfg.hash d
  | _, _ => False

structure Inv (cfg : Cfg) (s : State) : Prop where
  locked : ∀ t h, holds cfg (s.pc t) h → s.locks h = some t
  hashed : ∀ h d, s.data h = some d → cfg.hash d = h
  present : ∀ id h, (id, h) ∈ s.refs → s.stored id h = true → s.data h ≠ none
  ready : ∀ t h, readies cfg (s.pc t) h → s.data h ≠ none
  unused : ∀ t h, deleting (s.pc t) h → ∀ id, (id, h) ∈ s.refs → s.stored id h = false
  differs : ∀ t, distinct cfg (s.pc t)

theorem init_inv (cfg : Cfg) : Inv cfg init where
  locked := by intro t h hh; exact absurd hh (by simp [holds, init])
  hashed := by intro h d e; simp [init] at e
  present := by intro id h e; simp [init] at e
  ready := by intro t h e; simp [init, readies] at e
  unused := by intro t h e; simp [init, deleting] at e
  differs := by intro t; simp [init, distinct]

theorem deleting_holds {cfg : Cfg} {p : Pc} {h : Nat} (e : deleting p h) : holds cfg p h := by
  cases p <;> simp_all [deleting, holds]

theorem ready_holds {cfg : Cfg} {p : Pc} {h : Nat} (e : readies cfg p h) : holds cfg p h := by
  cases p <;> simp_all [readies, holds]

/-- A thread moves on, with the shared state unchanged. -/
theorem Inv.goto {cfg : Cfg} {s : State} (i : Inv cfg s) (t : Nat) (p : Pc) (h1 : ∀ h, holds cfg p h → s.locks h = some t)
    (h2 : ∀ h, readies cfg p h → s.data h ≠ none) (h3 : ∀ h, deleting p h → ∀ id, (id, h) ∈ s.refs → s.stored id h = false)
    (h4 : distinct cfg p) : Inv cfg (s.setPc t p) where
  locked := by
    intro t' h e
    simp only [State.setPc] at e ⊢
    split at e
    · subst t'; exact h1 h e
    · exact i.locked t' h e
  hashed := i.hashed
  present := i.present
  ready := by
    intro t' h e
    simp only [State.setPc] at e ⊢
    split at e
    · exact h2 h e
    · exact i.ready t' h e
  unused := by
    intro t' h e
    simp only [State.setPc] at e ⊢
    split at e
    · exact h3 h e
    · exact i.unused t' h e
  differs := by
    intro t'
    simp only [State.setPc]
    split
    · exact h4
    · exact i.differs t'

theorem Inv.takeLock {cfg : Cfg} {s : State} (i : Inv cfg s) (h t : Nat) (e : s.locks h = none) : Inv cfg (s.lock h t) where
  locked := by
    intro t' h' e'
    have := i.locked t' h' e'
    simp only [State.lock]
    split
    · subst h'; rw [e] at this; cases this
    · exact this
  hashed := i.hashed
  present := i.present
  ready := i.ready
  unused := i.unused
  differs := i.differs

theorem Inv.dropLock {cfg : Cfg} {s : State} (i : Inv cfg s) (h : Nat) (e : ∀ t, ¬ holds cfg (s.pc t) h) :
    Inv cfg (s.unlock h) where
  locked := by
    intro t' h' e'
    have := i.locked t' h' e'
    simp only [State.unlock]
    split
    · subst h'; exact absurd e' (e t')
    · exact this
  hashed := i.hashed
  present := i.present
  ready := i.ready
  unused := i.unused
  differs := i.differs

theorem Inv.putData {cfg : Cfg} {s : State} (i : Inv cfg s) (d : Bytes) : Inv cfg (s.put (cfg.hash d) d) where
  locked := i.locked
  hashed := by
    intro h d' e
    simp only [State.put] at e
    split at e
    · simp only [Option.some.injEq] at e; subst e; simp [*]
    · exact i.hashed h d' e
  present := by
    intro id h e1 e2
    simp only [State.put]
    split
    · simp
    · exact i.present id h e1 e2
  ready := by
    intro t h e
    simp only [State.put]
    split
    · simp
    · exact i.ready t h e
  unused := i.unused
  differs := i.differs

theorem Inv.delData {cfg : Cfg} {s : State} (i : Inv cfg s) (h : Nat) (e : ∀ t, ¬ readies cfg (s.pc t) h)
    (e2 : ∀ id, (id, h) ∈ s.refs → s.stored id h = false) : Inv cfg (s.del h) where
  locked := i.locked
  hashed := by
    intro h' d' e
    simp only [State.del] at e
    split at e
    · cases e
    · exact i.hashed h' d' e
  present := by
    intro id h' f1 f2
    simp only [State.del]
    split
    · subst h'; exact absurd (show s.stored id h = true from f2) (by rw [e2 id f1]; simp)
    · exact i.present id h' f1 f2
  ready := by
    intro t h' f
    simp only [State.del]
    split
    · subst h'; exact absurd f (e t)
    · exact i.ready t h' f
  unused := i.unused
  differs := i.differs

theorem Inv.markStored {cfg : Cfg} {s : State} (i : Inv cfg s) (id h : Nat) (e : s.data h ≠ none)
    (e2 : ∀ t, ¬ deleting (s.pc t) h) : Inv cfg (s.mark id h) where
  locked := i.locked
  hashed := i.hashed
  present := by
    intro id' h' f1 f2
    simp only [State.mark] at f2 ⊢
    split at f2
    · rename_i hc; rw [hc.2]; exact e
    · exact i.present id' h' f1 f2
  ready := i.ready
  unused := by
    intro t h' f id' f1
    simp only [State.mark]
    split
    · rename_i hc; rw [hc.2] at f; exact absurd f (e2 t)
    · exact i.unused t h' f id' f1
  differs := i.differs

theorem Inv.insertRef {cfg : Cfg} {s : State} (i : Inv cfg s) (id h : Nat) : Inv cfg (s.insert id h) where
  locked := i.locked
  hashed := i.hashed
  present := by
    intro id' h' f1 f2
    simp only [State.insert, List.mem_cons, Prod.mk.injEq] at f1 f2 ⊢
    split at f2
    · cases f2
    · rename_i hc
      rcases f1 with f1 | f1
      · exact absurd f1 hc
      · exact i.present id' h' f1 f2
  ready := i.ready
  unused := by
    intro t h' f id' f1
    simp only [State.insert, List.mem_cons, Prod.mk.injEq] at f1 ⊢
    split
    · rfl
    · rename_i hc
      rcases f1 with f1 | f1
      · exact absurd f1 hc
      · exact i.unused t h' f id' f1
  differs := i.differs

theorem mem_updateRef {s : State} {id h i k : Nat} (e : (i, k) ∈ (s.updateRef id h).refs) :
    (i = id ∧ k = h) ∨ (i ≠ id ∧ (i, k) ∈ s.refs) := by
  simp only [State.updateRef, List.mem_map] at e
  obtain ⟨⟨a, b⟩, h1, h2⟩ := e
  by_cases ha : a = id
  · simp [ha] at h2; exact .inl ⟨h2.1.symm, h2.2.symm⟩
  · simp [ha] at h2; exact .inr ⟨by rw [← h2.1]; exact ha, by rw [← h2.1, ← h2.2]; exact h1⟩

theorem mem_deleteRef {s : State} {id i k : Nat} : (i, k) ∈ (s.deleteRef id).refs ↔ i ≠ id ∧ (i, k) ∈ s.refs := by
  simp only [State.deleteRef, List.mem_filter, decide_eq_true_eq]
  exact And.comm

/-- `update_entity` for a block that is in the store and that no other thread is deleting. -/
theorem Inv.updRef {cfg : Cfg} {s : State} (i : Inv cfg s) (id h : Nat) (e : s.data h ≠ none)
    (e2 : ∀ t, ¬ deleting (s.pc t) h) : Inv cfg (s.updateRef id h) where
  locked := i.locked
  hashed := i.hashed
  present := by
    intro id' h' f1 f2
    rcases mem_updateRef f1 with g | g
    · rw [g.2]; exact e
    · exact i.present id' h' g.2 f2
  ready := i.ready
  unused := by
    intro t h' f id' f1
    rcases mem_updateRef f1 with g | g
    · rw [g.2] at f; exact absurd f (e2 t)
    · exact i.unused t h' f id' g.2
  differs := i.differs

theorem Inv.delRef {cfg : Cfg} {s : State} (i : Inv cfg s) (id : Nat) : Inv cfg (s.deleteRef id) where
  locked := i.locked
  hashed := i.hashed
  present := by
    intro id' h' f1 f2
    exact i.present id' h' (mem_deleteRef.mp f1).2 f2
  ready := i.ready
  unused := by
    intro t h' f id' f1
    exact i.unused t h' f id' (mem_deleteRef.mp f1).2
  differs := i.differs

theorem used_false {s : State} {h : Nat} (e : s.used h = false) (id : Nat) : (id, h) ∉ s.refs := by
  intro hm
  simp only [State.used, List.any_eq_false] at e
  exact e _ hm (by simp)

theorem used_true {s : State} {h : Nat} : s.used h = true ↔ ∃ id, (id, h) ∈ s.refs := by
  simp only [State.used, List.any_eq_true]
  constructor
  · rintro ⟨⟨a, b⟩, h1, h2⟩
    simp at h2
    exact ⟨a, h2 ▸ h1⟩
  · rintro ⟨id, h1⟩; exact ⟨_, h1, by simp⟩

theorem has_true {s : State} {id : Nat} : s.has id = true ↔ ∃ h, (id, h) ∈ s.refs := by
  simp only [State.has, List.any_eq_true]
  constructor
  · rintro ⟨⟨a, b⟩, h1, h2⟩
    simp at h2
    exact ⟨b, h2 ▸ h1⟩
  · rintro ⟨id, h1⟩; exact ⟨_, h1, by simp⟩

theorem has_false {s : State} {id : Nat} (e : s.has id = false) (h : Nat) : (id, h) ∉ s.refs := by
  intro hm
  have := has_true.mpr ⟨h, hm⟩
  rw [e] at this
  cases this

/-- A thread that has the lock of `h` is the only one that has it. -/
theorem Inv.only {cfg : Cfg} {s : State} (i : Inv cfg s) {t t' h : Nat} (e : holds cfg (s.pc t) h)
    (e' : holds cfg (s.pc t') h) : t' = t := by
  have h1 := i.locked t h e
  have h2 := i.locked t' h e'
  rw [h1] at h2
  simpa using h2.symm

/-- A thread that has the lock of `h` and is not deleting it knows that nobody is. -/
theorem Inv.noDelete {cfg : Cfg} {s : State} (i : Inv cfg s) {t h : Nat} (e : holds cfg (s.pc t) h)
    (e' : ¬ deleting (s.pc t) h) (t' : Nat) : ¬ deleting (s.pc t') h := by
  intro hd
  have := i.only e (deleting_holds hd)
  subst this
  exact e' hd

theorem Inv.noReady {cfg : Cfg} {s : State} (i : Inv cfg s) {t h : Nat} (e : holds cfg (s.pc t) h)
    (e' : ¬ readies cfg (s.pc t) h) (t' : Nat) : ¬ readies cfg (s.pc t') h := by
  intro hd
  have := i.only e (ready_holds hd)
  subst this
  exact e' hd

theorem setPc_self (s : State) (t : Nat) (p : Pc) : (s.setPc t p).pc t = p := by simp [State.setPc]
theorem setPc_ne (s : State) {t t' : Nat} (p : Pc) (h : t' ≠ t) : (s.setPc t p).pc t' = s.pc t' := by simp [State.setPc, h]

/-- `x.setPc t p` commutes with unlocking. -/
theorem unlock_setPc (s : State) (h t : Nat) (p : Pc) : (s.unlock h).setPc t p = (s.setPc t p).unlock h := rfl

/-- A thread goes on to a state without the lock of `h` and drops the lock. -/
theorem Inv.release {cfg : Cfg} {s : State} (i : Inv cfg s) (t h : Nat) (p : Pc) (hh : holds cfg (s.pc t) h)
    (hp : ¬ holds cfg p h) (h1 : ∀ h, holds cfg p h → s.locks h = some t) (h2 : ∀ h, ¬ readies cfg p h)
    (h3 : ∀ h, ¬ deleting p h) (h4 : distinct cfg p) : Inv cfg ((s.unlock h).setPc t p) := by
  rw [unlock_setPc]
  refine (i.goto t p h1 (fun h e => absurd e (h2 h)) (fun h e => absurd e (h3 h)) h4).dropLock h fun t' e => ?_
  by_cases ht : t' = t
  · subst ht; rw [setPc_self] at e; exact hp e
  · rw [setPc_ne _ _ ht] at e
    exact ht (i.only hh e)

theorem act_inv {cfg : Cfg} {s s' : State} {t : Nat} (i : Inv cfg s) (he : act cfg s t = some s') : Inv cfg s' := by
  have hdf := i.differs t
  have hlk := i.locked t
  have hrd := i.ready t
  have hun := i.unused t
  unfold act at he
  split at he <;> rename_i hpc <;> rw [hpc] at hdf hlk hrd hun
  · cases he
  · cases he
  · split at he <;> cases he
    refine (i.takeLock _ t (by assumption)).goto t _ ?_ ?_ ?_ ?_ <;> simp_all [holds, readies, deleting, distinct, State.lock]
  · rename_i id d
    have hh : holds cfg (s.pc t) (cfg.hash d) := by rw [hpc]; simp [holds]
    split at he
    · cases he
      rename_i hs
      refine (i.markStored id _ (by intro e; simp [e] at hs) (i.noDelete hh (by rw [hpc]; simp [deleting]))).goto t _ ?_ ?_ ?_ ?_ <;>
        simp_all [holds, readies, deleting, distinct, State.mark]
    · split at he <;> cases he <;> refine i.goto t _ ?_ ?_ ?_ ?_ <;> simp_all [holds, readies, deleting, distinct]
  · rename_i id d
    have hh : holds cfg (s.pc t) (cfg.hash d) := by rw [hpc]; simp [holds]
    cases he
    refine ((i.putData d).markStored id _ (by simp [State.put]) (i.noDelete hh (by rw [hpc]; simp [deleting]))).goto t _ ?_ ?_ ?_ ?_ <;>
        simp_all [holds, readies, deleting, distinct, State.mark, State.put]
  · cases he
    refine i.release t _ _ (by rw [hpc]; simp [holds]) ?_ ?_ ?_ ?_ ?_ <;> simp_all [holds, readies, deleting, distinct]
  · split at he <;> cases he
    refine (i.takeLock _ t (by assumption)).goto t _ ?_ ?_ ?_ ?_ <;> simp_all [holds, readies, deleting, distinct, State.lock]
  · split at he <;> cases he
    refine (i.takeLock _ t (by assumption)).goto t _ ?_ ?_ ?_ ?_ <;> simp_all [holds, readies, deleting, distinct, State.lock]
  · rename_i id old d
    split at he
    · cases he
      rename_i hs
      refine i.goto t _ ?_ ?_ ?_ ?_
      · simp_all [holds]
      · intro h e
        simp only [readies] at e
        subst e
        intro e
        simp [e] at hs
      · simp [deleting]
      · simp_all [distinct]
    · split at he <;> cases he <;> refine i.goto t _ ?_ ?_ ?_ ?_ <;> simp_all [holds, readies, deleting, distinct]
  · cases he
    refine (i.putData _).goto t _ ?_ ?_ ?_ ?_ <;> simp_all [holds, readies, deleting, distinct, State.put]
  · rename_i id old d
    have hh : holds cfg (s.pc t) (cfg.hash d) := by rw [hpc]; simp [holds]
    have hnd := i.noDelete hh (by rw [hpc]; simp [deleting])
    have hdd : s.data (cfg.hash d) ≠ none := hrd _ (by simp [readies])
    split at he
    · cases he
      refine (Inv.markStored (i.updRef id _ hdd hnd) id _ hdd hnd).goto t _ ?_ ?_ ?_ ?_ <;>
        simp_all [holds, readies, deleting, distinct, State.mark, State.updateRef]
    · cases he
      refine i.goto t _ ?_ ?_ ?_ ?_ <;> simp_all [holds, readies, deleting, distinct]
  · split at he
    · cases he
      refine i.goto t _ ?_ ?_ ?_ ?_ <;> simp_all [holds, readies, deleting, distinct]
    · cases he
      rename_i hu
      have hu' := used_false (by simpa using hu)
      refine i.goto t _ ?_ ?_ ?_ ?_
      · simp_all [holds]
      · simp [readies]
      · intro h e id' hm
        simp only [deleting] at e
        subst e
        exact absurd hm (hu' id')
      · simp_all [distinct]
  · rename_i id old d
    have hh : holds cfg (s.pc t) old := by rw [hpc]; simp [holds]
    cases he
    refine (i.delData old (i.noReady hh (by rw [hpc]; simp [readies])) (hun old (by simp [deleting]))).goto t _ ?_ ?_ ?_ ?_ <;>
      simp_all [holds, readies, deleting, distinct, State.del]
  · cases he
    refine i.release t _ _ (by rw [hpc]; simp [holds]) ?_ ?_ ?_ ?_ ?_ <;> simp_all [holds, readies, deleting, distinct]
  · cases he
    refine i.release t _ _ (by rw [hpc]; simp [holds]) ?_ ?_ ?_ ?_ ?_ <;> simp_all [holds, readies, deleting, distinct]
  · split at he <;> cases he
    refine (i.takeLock _ t (by assumption)).goto t _ ?_ ?_ ?_ ?_ <;> simp_all [holds, readies, deleting, distinct, State.lock]
  · split at he
    · cases he
      refine (i.delRef _).goto t _ ?_ ?_ ?_ ?_ <;> simp_all [holds, readies, deleting, distinct, State.deleteRef]
    · cases he
      refine i.goto t _ ?_ ?_ ?_ ?_ <;> simp_all [holds, readies, deleting, distinct]
  · split at he
    · cases he
      refine i.goto t _ ?_ ?_ ?_ ?_ <;> simp_all [holds, readies, deleting, distinct]
    · cases he
      rename_i hu
      have hu' := used_false (by simpa using hu)
      refine i.goto t _ ?_ ?_ ?_ ?_
      · simp_all [holds]
      · simp [readies]
      · intro h e id' hm
        simp only [deleting] at e
        subst e
        exact absurd hm (hu' id')
      · simp_all [distinct]
  · rename_i id old
    have hh : holds cfg (s.pc t) old := by rw [hpc]; simp [holds]
    cases he
    refine (i.delData old (i.noReady hh (by rw [hpc]; simp [readies])) (hun old (by simp [deleting]))).goto t _ ?_ ?_ ?_ ?_ <;>
      simp_all [holds, readies, deleting, distinct, State.del]
  · cases he
    refine i.release t _ _ (by rw [hpc]; simp [holds]) ?_ ?_ ?_ ?_ ?_ <;> simp_all [holds, readies, deleting, distinct]

theorem step_inv {cfg : Cfg} {s s' : State} {a : Action} (i : Inv cfg s) (he : step cfg s a = some s') : Inv cfg s' := by
  cases a with
  | store t id d =>
    simp only [step] at he
    split at he <;> cases he
    refine (i.insertRef _ _).goto t _ ?_ ?_ ?_ ?_ <;> simp_all [holds, readies, deleting, distinct]
  | update t id old d =>
    simp only [step] at he
    split at he
    · split at he <;> cases he
      · exact i
      · refine i.goto t _ ?_ ?_ ?_ ?_ <;> simp_all [holds, readies, deleting, distinct]
    · cases he
  | delete t id old =>
    simp only [step] at he
    split at he <;> cases he
    refine i.goto t _ ?_ ?_ ?_ ?_ <;> simp_all [holds, readies, deleting, distinct]
  | act t => exact act_inv i he
  | giveUp t =>
    have hlk := i.locked t
    simp only [step] at he
    split at he <;> rename_i hpc <;> cases he <;> rw [hpc] at hlk <;> refine i.goto t _ ?_ ?_ ?_ ?_ <;>
      simp_all [holds, readies, deleting, distinct]
  | crash t =>
    cases he
    refine i.goto t _ ?_ ?_ ?_ ?_ <;> simp [holds, readies, deleting, distinct]
  | expire h =>
    simp only [step] at he
    split at he
    · cases he
    · rename_i t hl
      split at he <;> cases he
      rename_i hd
      refine i.dropLock h fun t' e => ?_
      have := i.locked t' h e
      rw [hl] at this
      simp only [Option.some.injEq] at this
      subst this
      rw [hd] at e
      exact e

theorem run_inv {cfg : Cfg} : ∀ (as : List Action) {s s' : State}, Inv cfg s → run cfg s as = some s' → Inv cfg s' := by
  intro as
  induction as with
  | nil => intro s s' i he; cases he; exact i
  | cons a as ih =>
    intro s s' i he
    simp only [run, Option.bind_eq_some_iff] at he
    obtain ⟨s1, h1, h2⟩ := he
    exact ih (step_inv i h1) h2

end Verif.Blocks.Store

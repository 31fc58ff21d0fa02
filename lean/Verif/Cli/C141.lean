import Verif.Cli.PoolStep
/-!
# C141-C143: theorems about the pool of connections of an HTTP client
-/
namespace Verif.Cli

/-! ## C141: bounded, exclusive, consistent -/

/-- No event is `active_cleanup`. -/
def NoCleanup (_ : Pool) : Ev → Prop
  | .activeCleanup _ _ => False
  | _ => True

/-- A connection that has a thread is in use. -/
def Owned (p : Pool) : Prop := ∀ c t, (p.conn c).thread = some t → ((t, (p.conn c).target), c) ∈ p.active

theorem safe_of_owned {p : Pool} (h : Inv p) (ho : Owned p) (e : Ev) (hl : Legal p e) : Safe p e := by
  have key : ∀ c t, (p.conn c).thread = some t → ¬ Overtaken p c := by
    rintro c t ht ⟨k, c', h1, h2, h3⟩
    simp only [Pool.key, ht, Option.map_some, Option.some.injEq] at h1
    subst h1
    exact h3 (active_unique h h2 (ho c t ht))
  cases e with
  | release c => obtain ⟨t, ht, -⟩ := hl; exact key c t ht
  | upgrade c => obtain ⟨t, ht, -⟩ := hl; exact key c t ht
  | _ => trivial

theorem acquire_owned {p : Pool} (h : Inv p) (ho : Owned p) (t g : Nat) {p' : Pool} {o : Option Nat} (ha : acquire p t g = some (p', o)) : Owned p' := by
  have act : ∀ (q : Pool) (c : Nat), Owned q → Owned (activated q c t) := by
    intro q c hq c' t' ht
    simp only [activated, setConn] at ht ⊢
    by_cases hc : c' = c
    · subst hc
      rw [if_pos rfl] at ht ⊢
      dsimp only at ht ⊢
      cases ht
      simp
    · rw [if_neg hc] at ht ⊢
      exact List.mem_append.mpr (.inl (hq c' t' ht))
  have new : ∀ q : Pool, Owned q → Owned (newConn q g) := by
    intro q hq c' t' ht
    simp only [newConn, setConn] at ht ⊢
    by_cases hc : c' = q.next
    · rw [if_pos hc] at ht; cases ht
    · rw [if_neg hc] at ht ⊢; exact hq c' t' ht
  unfold acquire at ha
  rcases seek_cases h t g (p.idle.length + 1) (by omega) with ⟨c, -, h2⟩ | ⟨-, c, -, -, -, h5⟩ | ⟨-, -, -, h4⟩ | ⟨-, -, -, c, -, -, h6⟩ |
    ⟨-, -, -, h4⟩
  · rw [h2] at ha; cases ha; exact ho
  · rw [h5] at ha; cases ha; exact act _ _ ho
  · rw [h4] at ha; cases ha; exact act _ _ (new _ ho)
  · rw [h6] at ha; cases ha; exact act _ _ (new _ ho)
  · rw [h4] at ha; cases ha; exact ho

theorem leave_owned {p q : Pool} {c t : Nat} (h : Inv p) (ht : (p.conn c).thread = some t) (ho : Owned p) (hc : q.conn = p.conn)
    (ha : q.active = p.active.filter fun e => some e.1 != p.key c) : Owned (leave q c) := by
  intro c' t' ht'
  simp only [leave, setConn, hc] at ht' ⊢
  by_cases he : c' = c
  · rw [if_pos he] at ht'; cases ht'
  · rw [if_neg he] at ht' ⊢
    have h1 := ho c' t' ht'
    rw [ha]
    refine List.mem_filter.mpr ⟨h1, ?_⟩
    simp only [bne_iff_ne, Pool.key, ht, Option.map_some, ne_eq, Option.some.injEq]
    intro e
    rw [e] at h1
    exact he (active_unique h h1 (ho c t ht))

theorem idleFold_conn (now inactive : Nat) : ∀ (l : List Nat) {p p' : Pool}, l.foldlM (idleStep now inactive) p = some p' →
    p'.conn = p.conn ∧ p'.active = p.active := by
  intro l
  induction l with
  | nil => intro p p' h; cases h; exact ⟨rfl, rfl⟩
  | cons c l ih =>
    intro p p' h
    rw [List.foldlM_cons] at h
    cases hs : idleStep now inactive p c with
    | none => rw [hs] at h; cases h
    | some q =>
      rw [hs] at h
      obtain ⟨h1, h2⟩ := ih (p := q) (p' := p') h
      have : q.conn = p.conn ∧ q.active = p.active := by
        unfold idleStep deleteIdle at hs
        split at hs
        · split at hs
          · split at hs
            · cases hs; exact ⟨rfl, rfl⟩
            · cases hs
          · cases hs; exact ⟨rfl, rfl⟩
        · cases hs; exact ⟨rfl, rfl⟩
      exact ⟨h1.trans this.1, h2.trans this.2⟩

theorem step_owned {p p' : Pool} (h : Inv p) (ho : Owned p) {e : Ev} (hl : Legal p e) (hn : NoCleanup p e) (hs : step p e = some p') : Owned p' := by
  have hw : ∀ l, Inv { p with woken := l } := fun l => h.frame rfl rfl rfl rfl rfl rfl rfl rfl
  cases e with
  | request j w =>
    simp only [step] at hs
    split at hs
    · cases hs; exact ho
    · split at hs
      · cases hs
      · next q c ha => have := acquire_owned h ho _ _ ha; cases hs; exact this
      · next q ha => have := acquire_owned h ho _ _ ha; cases w <;> cases hs <;> exact this
  | resume j =>
    simp only [step] at hs
    split at hs
    · cases hs
    · next q c ha => have := acquire_owned (hw (p.woken.erase j)) ho _ _ ha; cases hs; exact this
    · next q ha => have := acquire_owned (hw (p.woken.erase j)) ho _ _ ha; cases hs; exact this
  | timeout j => cases hs; exact ho
  | giveUp j =>
    simp only [step] at hs
    split at hs
    · cases hs
    · next q c ha => have := acquire_owned (hw (p.woken.erase j)) ho _ _ ha; cases hs; exact this
    · next q ha => have := acquire_owned (hw (p.woken.erase j)) ho _ _ ha; cases hs; exact this
  | touch c now =>
    cases hs
    intro c' t' ht
    simp only [setConn] at ht ⊢
    by_cases hc : c' = c
    · subst hc; rw [if_pos rfl] at ht ⊢; exact ho c' t' ht
    · rw [if_neg hc] at ht ⊢; exact ho c' t' ht
  | release c =>
    obtain ⟨t, ht, -⟩ := hl
    cases hs
    unfold deactivate
    dsimp only
    have hk : p.hasKey (p.key c) = true := by
      rw [Pool.key, ht, Option.map_some]
      exact hasKey_iff.mpr ⟨c, ho c t ht⟩
    rw [if_pos hk]
    exact leave_owned h ht ho rfl rfl
  | upgrade c =>
    obtain ⟨t, ht, -⟩ := hl
    cases hs
    exact leave_owned h ht ho rfl rfl
  | idleCleanup now inactive =>
    obtain ⟨h1, h2⟩ := idleFold_conn now inactive p.idle hs
    intro c t
    rw [h1, h2]
    exact ho c t
  | activeCleanup now inactive => exact hn.elim
  | closing => cases hs; exact ho

/-- Without `active_cleanup` every history is safe. -/
theorem reach_safe {max : Nat} {p : Pool} (h : Reach NoCleanup max p) : Reach Safe max p ∧ Owned p := by
  induction h with
  | init => exact ⟨.init, by intro c t ht; cases ht⟩
  | step _ hl hn he ih =>
    have hi := reach_inv ih.1
    exact ⟨.step ih.1 hl (safe_of_owned hi ih.2 _ hl) he, step_owned hi ih.2 hl hn he⟩

/-- The connections that threads work on, or that are kept for later. -/
def Pool.inUse (p : Pool) : List Nat := p.threads.map (·.2)

/-- `max_connections` never changes. -/
theorem reach_max {max : Nat} {p : Pool} (h : Reach Safe max p) : p.max = max := by
  induction h with
  | init => rfl
  | @step p p' e hr hl hs he ih =>
    rw [← ih]
    clear ih
    have hi := reach_inv hr
    have hw : ∀ l, Inv { p with woken := l } := fun l => hi.frame rfl rfl rfl rfl rfl rfl rfl rfl
    have acq : ∀ (q : Pool) (t g : Nat) (q' : Pool) (o : Option Nat), Inv q → acquire q t g = some (q', o) → q'.max = q.max := by
      intro q t g q' o hq ha
      obtain ⟨q2, o2, i1, -, i3, -⟩ := acquire_spec hq t g
      rw [i1] at ha
      cases ha
      exact i3.max
    cases e with
    | request j w =>
      simp only [step] at he
      split at he
      · cases he; rfl
      · split at he
        · cases he
        · next q c ha => have := acq _ _ _ _ _ hi ha; cases he; exact this
        · next q ha => have := acq _ _ _ _ _ hi ha; cases w <;> cases he <;> exact this
    | resume j =>
      simp only [step] at he
      split at he
      · cases he
      · next q c ha => have := acq _ _ _ _ _ (hw (p.woken.erase j)) ha; cases he; exact this
      · next q ha => have := acq _ _ _ _ _ (hw (p.woken.erase j)) ha; cases he; exact this
    | timeout j => cases he; rfl
    | giveUp j =>
      simp only [step] at he
      split at he
      · cases he
      · next q c ha => have := acq _ _ _ _ _ (hw (p.woken.erase j)) ha; cases he; exact this
      · next q ha => have := acq _ _ _ _ _ (hw (p.woken.erase j)) ha; cases he; exact this
    | touch c now => cases he; rfl
    | release c =>
      cases he
      unfold deactivate
      dsimp only
      split <;> rfl
    | upgrade c => cases he; rfl
    | idleCleanup now inactive =>
      obtain ⟨q, h1, -, h3, -⟩ := idleFold_spec now inactive p.idle hi hi.idleNodup (fun e he => he)
      rw [step, h1] at he
      cases he
      exact h3.max
    | activeCleanup now inactive =>
      obtain ⟨q, h1, -, h3, -⟩ := activeFold_spec now inactive p.threads hi hi.threadsNodup (fun e he => he)
      rw [step, h1] at he
      cases he
      exact h3.max
    | closing => cases he; rfl

/-- **C141**: whatever threads do, in whatever order, there are never more than `max_connections` connections; none of them is
worked on by two threads, or both worked on and idle; a thread has at most one connection to a target; and the pool never fails
with KeyError.  Partial: histories in which a thread does not finish with a connection that `active_cleanup` has taken away from it
while it has a new one to the same target. -/
theorem C141_pool_partial {max : Nat} {p : Pool} (h : Reach Safe max p) :
    p.inUse.length + p.idle.length ≤ max ∧
    (∀ t t' c, (t, c) ∈ p.threads → (t', c) ∈ p.threads → t = t') ∧
    (∀ t c c', (t, c) ∈ p.threads → (t, c') ∈ p.threads → (p.conn c).target = (p.conn c').target → c = c') ∧
    (∀ c, c ∈ p.inUse → c ∉ p.idle ∧ c ∉ p.closed) ∧ (∀ c ∈ p.idle, c ∉ p.closed) ∧
    (∀ e, Legal p e → Safe p e → ∃ p', step p e = some p') := by
  have hi := reach_inv h
  rw [← reach_max h]
  have hin : ∀ c, c ∈ p.inUse → ∃ k, (k, c) ∈ p.active := by
    intro c hm
    obtain ⟨⟨t, c'⟩, h1, rfl⟩ := List.mem_map.mp hm
    obtain ⟨g, hg⟩ := (hi.threads _ _).mp h1
    exact ⟨_, hg⟩
  refine ⟨?_, ?_, ?_, ?_, ?_, ?_⟩
  · have hle : p.threads.length ≤ p.active.length := by
      have hsub : p.threads ⊆ p.active.map fun e => (e.1.1, e.2) := by
        rintro ⟨t, c⟩ hm
        obtain ⟨g, hg⟩ := (hi.threads _ _).mp hm
        exact List.mem_map.mpr ⟨_, hg, rfl⟩
      have := (List.subperm_of_subset hi.threadsNodup hsub).length_le
      simpa using this
    have := hi.bound
    simp only [Pool.inUse, List.length_map]
    omega
  · intro t t' c h1 h2
    obtain ⟨g, hg⟩ := (hi.threads _ _).mp h1
    obtain ⟨g', hg'⟩ := (hi.threads _ _).mp h2
    exact (Prod.mk.inj (active_key hi hg hg')).1
  · intro t c c' h1 h2 he
    obtain ⟨g, hg⟩ := (hi.threads _ _).mp h1
    obtain ⟨g', hg'⟩ := (hi.threads _ _).mp h2
    have e1 := (hi.active _ _ hg).2.1
    have e2 := (hi.active _ _ hg').2.1
    dsimp only at e1 e2
    rw [e1, e2] at he
    subst he
    exact active_unique hi hg hg'
  · intro c hm
    obtain ⟨k, hk⟩ := hin c hm
    refine ⟨?_, fun hc => (hi.closed c hc).2.2 k hk⟩
    intro hc
    have := (hi.active k c hk).1
    rw [(hi.idle c hc).1] at this
    cases this
  · intro c hm hc
    exact (hi.closed c hc).2.1 hm
  · intro e hl hs
    obtain ⟨p', h1, -⟩ := step_inv hi hl hs
    exact ⟨p', h1⟩

/-- **C141** for all histories without `active_cleanup`. -/
theorem C141_pool_no_cleanup {max : Nat} {p : Pool} (h : Reach NoCleanup max p) : Reach Safe max p ∧ ∀ e, Legal p e → Safe p e :=
  ⟨(reach_safe h).1, fun e hl => safe_of_owned (reach_inv (reach_safe h).1) (reach_safe h).2 e hl⟩

/-! ## C142: which connection is used -/

/-- **C142**: the connection for a request: the one its thread has to the target, else the idle one to the target that was used last,
else a new one, for which, when there are too many, the idle connection that has not been used for longest is closed; only when
every connection is in use does the request have to wait. -/
theorem C142_choice {max : Nat} {p : Pool} (h : Reach Safe max p) (t g : Nat) :
    (∃ c, (t, c) ∈ p.threads ∧ (p.conn c).target = g ∧ acquire p t g = some (p, some c)) ∨
    ((∀ c, (t, c) ∈ p.threads → (p.conn c).target ≠ g) ∧
      ((∃ c p', c ∈ p.idle ∧ (p.conn c).target = g ∧ (∀ c' ∈ p.idle, (p.conn c').target = g → (p.conn c').last ≤ (p.conn c).last) ∧
        acquire p t g = some (p', some c) ∧ p'.closed = p.closed ∧ (t, c) ∈ p'.threads) ∨
       ((∀ c ∈ p.idle, (p.conn c).target ≠ g) ∧ p.active.length + p.idle.length < max ∧
        ∃ p', acquire p t g = some (p', some p.next) ∧ p'.closed = p.closed ∧ p'.idle = p.idle ∧ (t, p.next) ∈ p'.threads ∧
          (p'.conn p.next).target = g) ∨
       ((∀ c ∈ p.idle, (p.conn c).target ≠ g) ∧ p.active.length + p.idle.length = max ∧
        ∃ c p', c ∈ p.idle ∧ (∀ c' ∈ p.idle, (p.conn c).last ≤ (p.conn c').last) ∧ acquire p t g = some (p', some p.next) ∧
          p'.closed = p.closed ++ [c] ∧ (t, p.next) ∈ p'.threads ∧ (p'.conn p.next).target = g) ∨
       (p.idle = [] ∧ p.active.length = max ∧ acquire p t g = some (p, none)))) := by
  rw [← reach_max h]
  have hi := reach_inv h
  have nok : NoKey p t g → ∀ c, (t, c) ∈ p.threads → (p.conn c).target ≠ g := by
    intro hn c hm he
    obtain ⟨g', hg⟩ := (hi.threads _ _).mp hm
    have := (hi.active _ _ hg).2.1
    dsimp only at this
    rw [he] at this
    subst this
    exact hn c hg
  have hnext : ∀ q : Pool, (q.conn q.next).thread = none ∨ True := fun _ => .inr trivial
  have new : ∀ q : Pool, Inv q → (t, q.next) ∈ (activated (newConn q g) q.next t).threads ∧
      ((activated (newConn q g) q.next t).conn q.next).target = g := by
    intro q _
    constructor
    · simp [activated]
    · simp [activated, newConn, setConn]
  unfold acquire
  rcases seek_cases hi t g (p.idle.length + 1) (by omega) with ⟨c, h1, h2⟩ | ⟨h1, c, h2, h3, h4, h5⟩ | ⟨h1, h2, h3, h4⟩ | ⟨h1, h2, h3, c, h4, h5, h6⟩ |
    ⟨h1, h2, h3, h4⟩
  · exact .inl ⟨c, (hi.threads _ _).mpr ⟨g, h1⟩, (hi.active _ _ h1).2.1, h2⟩
  · exact .inr ⟨nok h1, .inl ⟨c, _, h2, h3, h4, h5, rfl, by simp [activated]⟩⟩
  · refine .inr ⟨nok h1, .inr (.inl ⟨h2, h3, _, h4, rfl, ?_, new p hi⟩)⟩
    exact filter_ne_self (fun hm => by have := (hi.idle _ hm).2; omega)
  · exact .inr ⟨nok h1, .inr (.inr (.inl ⟨h2, h3, c, _, h4, h5, h6, rfl, new _ (dropped_inv hi h4)⟩))⟩
  · exact .inr ⟨nok h1, .inr (.inr (.inr ⟨h2, h3, h4⟩))⟩

/-- **C142**: a request is only ever handed to a connection to its own target, that its own thread works on and that the pool has
not closed. -/
theorem C142_right_connection {max : Nat} {p p' : Pool} {e : Ev} (h : Reach Safe max p) (hl : Legal p e) (hs : Safe p e)
    (he : step p e = some p') (c : Nat) (j : Job) (hq : (c, j) ∈ p'.queued) (hnew : (c, j) ∉ p.queued) :
    (j.thread, c) ∈ p'.threads ∧ (p'.conn c).target = j.target ∧ c ∉ p'.closed := by
  have hi := reach_inv h
  have hw : ∀ l, Inv { p with woken := l } := fun l => hi.frame rfl rfl rfl rfl rfl rfl rfl rfl
  have fin : ∀ (q : Pool) (j' : Job) (q' : Pool) (c' : Nat), Inv q → q.queued = p.queued → acquire q j'.thread j'.target = some (q', some c') →
      p' = q'.enqueue c' j' → (j.thread, c) ∈ p'.threads ∧ (p'.conn c).target = j.target ∧ c ∉ p'.closed := by
    intro q j' q' c' hiq hqq ha hp
    obtain ⟨q2, o2, i1, i2, i3, i4, -⟩ := acquire_spec hiq j'.thread j'.target
    rw [i1] at ha
    cases ha
    subst hp
    have hm : (c, j) ∈ q'.queued ++ [(c', j')] := hq
    rw [i3.queued, hqq] at hm
    rcases List.mem_append.mp hm with hm | hm
    · exact absurd hm hnew
    · simp only [List.mem_singleton, Prod.mk.injEq] at hm
      obtain ⟨rfl, rfl⟩ := hm
      have ha := i4 c rfl
      exact ⟨(i2.threads _ _).mpr ⟨_, ha⟩, (i2.active _ _ ha).2.1, fun hc => (i2.closed _ hc).2.2 _ ha⟩
  have same : ∀ q : Pool, p' = q → q.queued = p.queued → False := by
    intro q hp hqq
    subst hp
    rw [hqq] at hq
    exact hnew hq
  have samea : ∀ (q : Pool) (j' : Job) (q' : Pool), Inv q → q.queued = p.queued → acquire q j'.thread j'.target = some (q', none) → q'.queued = p.queued := by
    intro q j' q' hiq hqq ha
    obtain ⟨q2, o2, i1, i2, i3, -⟩ := acquire_spec hiq j'.thread j'.target
    rw [i1] at ha
    cases ha
    rw [i3.queued, hqq]
  cases e with
  | request j' w =>
    simp only [step] at he
    split at he
    · exact (same p (Option.some.inj he).symm rfl).elim
    · split at he
      · cases he
      · next q c' ha => exact fin p j' q c' hi rfl ha (Option.some.inj he).symm
      · next q ha =>
        have := samea p j' q hi rfl ha
        cases w
        rotate_left
        · exact (same _ (Option.some.inj he).symm this).elim
        · exact (same q (Option.some.inj he).symm this).elim
  | resume j' =>
    simp only [step] at he
    split at he
    · cases he
    · next q c' ha => exact fin _ j' q c' (hw (p.woken.erase j')) rfl ha (Option.some.inj he).symm
    · next q ha => exact (same _ (Option.some.inj he).symm (samea _ j' q (hw (p.woken.erase j')) rfl ha)).elim
  | timeout j' => exact (same _ (Option.some.inj he).symm rfl).elim
  | giveUp j' =>
    simp only [step] at he
    split at he
    · cases he
    · next q c' ha => exact fin _ j' q c' (hw (p.woken.erase j')) rfl ha (Option.some.inj he).symm
    · next q ha => exact (same _ (Option.some.inj he).symm (samea _ j' q (hw (p.woken.erase j')) rfl ha)).elim
  | touch c' now => exact (same _ (Option.some.inj he).symm rfl).elim
  | release c' =>
    refine (same _ (Option.some.inj he).symm ?_).elim
    unfold deactivate
    dsimp only
    split <;> rfl
  | upgrade c' => exact (same _ (Option.some.inj he).symm rfl).elim
  | idleCleanup now inactive =>
    obtain ⟨q, h1, -, h3, -⟩ := idleFold_spec now inactive p.idle hi hi.idleNodup (fun e he => he)
    rw [step, h1] at he
    exact (same q (Option.some.inj he).symm h3.queued).elim
  | activeCleanup now inactive =>
    obtain ⟨q, h1, -, h3, -⟩ := activeFold_spec now inactive p.threads hi hi.threadsNodup (fun e he => he)
    rw [step, h1] at he
    exact (same _ (Option.some.inj he).symm h3.queued).elim
  | closing => exact (same _ (Option.some.inj he).symm rfl).elim

/-! ## C143: waiting -/

/-- No connection is upgraded while a request waits. -/
def NoUpgrade (p : Pool) : Ev → Prop
  | .upgrade c => ¬ Overtaken p c ∧ p.waiting = []
  | .release c => ¬ Overtaken p c
  | _ => True

theorem safe_of_noUpgrade {p : Pool} {e : Ev} (h : NoUpgrade p e) : Safe p e := by
  cases e <;> first | exact h | exact h.1

/-- The requests that wait: each of another thread, for a connection its thread does not have; and while one of them has not been
notified all connections are in use or promised to others. -/
structure Wake (p : Pool) : Prop where
  nodup : ((p.waiting ++ p.woken).map (·.thread)).Nodup
  nokey : ∀ j ∈ p.waiting ++ p.woken, NoKey p j.thread j.target
  wake : p.waiting ≠ [] → p.max ≤ p.active.length + p.woken.length

theorem not_blocked_of_nodup {l : List Job} {j : Job} (h : (l.map (·.thread)).Nodup) (hm : j ∈ l) : ∀ j' ∈ l.erase j, j'.thread ≠ j.thread := by
  intro j' hj' he
  have hp := List.perm_cons_erase hm
  have := (hp.map (·.thread)).nodup_iff.mp h
  rw [List.map_cons, List.nodup_cons] at this
  exact this.1 (List.mem_map.mpr ⟨j', hj', he⟩)

/-- A request of a thread that is in no queue, which finds a connection or not. -/
theorem wake_acquire {p : Pool} (h : Inv p) (hn : ((p.waiting ++ p.woken).map (·.thread)).Nodup)
    (hk : ∀ j ∈ p.waiting ++ p.woken, NoKey p j.thread j.target) (j : Job) (hb : ∀ j' ∈ p.waiting ++ p.woken, j'.thread ≠ j.thread)
    {p' : Pool} {o : Option Nat} (ha : acquire p j.thread j.target = some (p', o)) :
    Same p p' ∧ (∀ j' ∈ p'.waiting ++ p'.woken, NoKey p' j'.thread j'.target) ∧ p.active.length ≤ p'.active.length ∧
      (NoKey p j.thread j.target → o.isSome → p'.active.length = p.active.length + 1) ∧
      (o = none → p' = p ∧ p.active.length = p.max ∧ NoKey p j.thread j.target) := by
  obtain ⟨q, o', h1, h2, h3, h4, h5⟩ := acquire_spec h j.thread j.target
  rw [h1] at ha
  cases ha
  refine ⟨h3, ?_, ?_, ?_, ?_⟩
  · rw [h3.waiting, h3.woken]
    intro j' hj'
    rcases h5 with ⟨e, -⟩ | ⟨-, -, c, e⟩ | ⟨rfl, -⟩
    · intro c hc; rw [e] at hc; exact hk j' hj' c hc
    · intro c' hc
      rw [e] at hc
      rcases List.mem_append.mp hc with hc | hc
      · exact hk j' hj' c' hc
      · simp only [List.mem_singleton, Prod.mk.injEq] at hc
        exact hb j' hj' hc.1.1
    · exact hk j' hj'
  · rcases h5 with ⟨e, -⟩ | ⟨-, -, c, e⟩ | ⟨rfl, -⟩
    · exact Nat.le_of_eq (by rw [e])
    · rw [e]; simp
    · exact Nat.le_refl _
  · intro hno ho
    rcases h5 with ⟨-, -, -, e⟩ | ⟨-, -, c, e⟩ | ⟨-, e, -⟩
    · exact absurd hno e
    · rw [e]; simp
    · rw [e] at ho; cases ho
  · intro ho
    rcases h5 with ⟨-, -, e, -⟩ | ⟨-, e, -⟩ | ⟨e, -, e2, e3⟩
    · rw [ho] at e; cases e
    · rw [ho] at e; cases e
    · exact ⟨e, e2, e3⟩

theorem perm_nodup {l l' : List Job} (hp : l'.Perm l) (h : (l.map (·.thread)).Nodup) : (l'.map (·.thread)).Nodup :=
  (hp.map (·.thread)).nodup_iff.mpr h

theorem step_wake {p p' : Pool} (h : Inv p) (hw : Wake p) {e : Ev} (hl : Legal p e) (hs : NoUpgrade p e) (he : step p e = some p') : Wake p' := by
  -- a request of `j`, which is not in the queues of `q`
  have resumeCase : ∀ (j : Job), j ∈ p.woken → ∀ (p1 : Pool) (o : Option Nat),
      acquire { p with woken := p.woken.erase j } j.thread j.target = some (p1, o) →
      (∀ c, o = some c → Wake (p1.enqueue c j)) ∧
      (o = none → Wake { p1 with waiting := p1.waiting ++ [j] } ∧ Wake p1) := by
    intro j hj p1 o ha
    have hi : Inv { p with woken := p.woken.erase j } := h.frame rfl rfl rfl rfl rfl rfl rfl rfl
    have hperm : (p.waiting ++ p.woken).Perm (j :: (p.waiting ++ p.woken.erase j)) :=
      ((List.perm_cons_erase hj).append_left p.waiting).trans List.perm_middle
    have hn1 := perm_nodup hperm.symm hw.nodup
    rw [List.map_cons, List.nodup_cons] at hn1
    have hb : ∀ j' ∈ p.waiting ++ p.woken.erase j, j'.thread ≠ j.thread := by
      intro j' hj' e
      exact hn1.1 (List.mem_map.mpr ⟨j', hj', e⟩)
    have hk : ∀ j' ∈ p.waiting ++ p.woken.erase j, NoKey p j'.thread j'.target := fun j' hj' =>
      hw.nokey j' (hperm.mem_iff.mpr (List.mem_cons_of_mem _ hj'))
    obtain ⟨s, h1, h2, h3, h4⟩ := wake_acquire hi hn1.2 hk j hb ha
    have hjk : NoKey p j.thread j.target := hw.nokey j (by simp [hj])
    have hlen : (p.woken.erase j).length + 1 = p.woken.length := by
      have := List.length_pos_of_mem hj
      rw [List.length_erase_of_mem hj]; omega
    constructor
    · rintro c rfl
      refine ⟨?_, h1, ?_⟩
      · show ((p1.waiting ++ p1.woken).map (·.thread)).Nodup
        rw [s.waiting, s.woken]; exact hn1.2
      · show p1.waiting ≠ [] → p1.max ≤ p1.active.length + p1.woken.length
        have h5 := h3 hjk rfl
        rw [s.waiting, s.woken, s.max]
        intro hne
        have := hw.wake hne
        dsimp only at h5 ⊢
        omega
    · rintro rfl
      obtain ⟨rfl, e2, -⟩ := h4 rfl
      refine ⟨⟨?_, ?_, ?_⟩, ⟨hn1.2, hk, ?_⟩⟩
      · refine perm_nodup ?_ hw.nodup
        show (p.waiting ++ [j] ++ p.woken.erase j).Perm (p.waiting ++ p.woken)
        rw [List.append_assoc]
        exact List.Perm.append_left _ (List.perm_cons_erase hj).symm
      · intro j' hj'
        have : j' ∈ p.waiting ++ p.woken := by
          simp only [List.mem_append, List.mem_singleton] at hj' ⊢
          rcases hj' with (h6 | rfl) | h6
          · exact .inl h6
          · exact .inr hj
          · exact .inr (List.mem_of_mem_erase h6)
        exact hw.nokey j' this
      · intro _
        dsimp only at e2 ⊢
        omega
      · intro _
        dsimp only at e2 ⊢
        omega
  have partCase : ∀ (q : Pool), q.max = p.max → (∀ x ∈ q.active, x ∈ p.active) → (q.waiting ++ q.woken).Perm (p.waiting ++ p.woken) →
      (q.waiting ≠ [] → p.waiting ≠ [] ∧ p.active.length + p.woken.length ≤ q.active.length + q.woken.length) → Wake q := by
    intro q e1 e2 e3 e4
    refine ⟨perm_nodup e3 hw.nodup, ?_, ?_⟩
    · intro j hj c hc
      exact hw.nokey j (e3.mem_iff.mp hj) c (e2 _ hc)
    · intro hne
      have := hw.wake (e4 hne).1
      have := (e4 hne).2
      omega
  have notifyPerm : ∀ (n : Nat) (w k : List Job), (w.drop n ++ (k ++ w.take n)).Perm (w ++ k) := by
    intro n w k
    have h1 : (w.take n ++ w.drop n).Perm w := by rw [List.take_append_drop]
    calc (w.drop n ++ (k ++ w.take n)).Perm ((k ++ w.take n) ++ w.drop n) := List.perm_append_comm
      _ = k ++ (w.take n ++ w.drop n) := by simp
      _ = k ++ w := by rw [List.take_append_drop]
      _ |>.Perm (w ++ k) := List.perm_append_comm
  have notifyLen : ∀ (n : Nat) (w : List Job), w.drop n ≠ [] → w ≠ [] ∧ (w.take n).length = n := by
    intro n w hne
    have : n < w.length := by
      by_contra hge
      exact hne (List.drop_eq_nil_of_le (by omega))
    refine ⟨by rintro rfl; simp at this, ?_⟩
    rw [List.length_take]; omega
  cases e with
  | request j w =>
    simp only [step] at he
    split at he
    · cases he; exact hw
    · have hb : ∀ j' ∈ p.waiting ++ p.woken, j'.thread ≠ j.thread := fun j' hj' e => hl ⟨j', hj', e⟩
      split at he
      · cases he
      · next q c ha =>
        cases he
        obtain ⟨s, h1, h2, -, -⟩ := wake_acquire h hw.nodup hw.nokey j hb ha
        refine ⟨?_, h1, ?_⟩
        · show ((q.waiting ++ q.woken).map (·.thread)).Nodup
          rw [s.waiting, s.woken]; exact hw.nodup
        · show q.waiting ≠ [] → q.max ≤ q.active.length + q.woken.length
          rw [s.waiting, s.woken, s.max]
          intro hne
          have := hw.wake hne
          omega
      · next q ha =>
        obtain ⟨s, h1, h2, -, h4⟩ := wake_acquire h hw.nodup hw.nokey j hb ha
        obtain ⟨rfl, e2, e3⟩ := h4 rfl
        cases w
        · cases he; exact hw
        · cases he
          have hperm : (q.waiting ++ [j] ++ q.woken).Perm (j :: (q.waiting ++ q.woken)) := by
            rw [List.append_assoc]; exact List.perm_middle
          refine ⟨?_, ?_, ?_⟩
          · refine perm_nodup hperm ?_
            rw [List.map_cons, List.nodup_cons]
            refine ⟨?_, hw.nodup⟩
            intro hm
            obtain ⟨j', hj', e⟩ := List.mem_map.mp hm
            exact hb j' hj' e
          · intro j' hj'
            have hj2 := hperm.mem_iff.mp hj'
            rcases List.mem_cons.mp hj2 with rfl | hj2
            · exact e3
            · exact hw.nokey j' hj2
          · intro _
            show q.max ≤ q.active.length + q.woken.length
            omega
  | resume j =>
    simp only [step] at he
    split at he
    · cases he
    · next q c ha => cases he; exact (resumeCase j hl _ _ ha).1 c rfl
    · next q ha => cases he; exact ((resumeCase j hl _ _ ha).2 rfl).1
  | timeout j =>
    cases he
    have hj : j ∈ p.waiting := hl
    refine partCase _ rfl (fun x hx => hx) ?_ ?_
    · calc (p.waiting.erase j ++ (p.woken ++ [j])).Perm ((p.woken ++ [j]) ++ p.waiting.erase j) := List.perm_append_comm
        _ = p.woken ++ (j :: p.waiting.erase j) := by simp
        _ |>.Perm (p.woken ++ p.waiting) := (List.perm_cons_erase hj).symm.append_left _
        _ |>.Perm (p.waiting ++ p.woken) := List.perm_append_comm
    · intro hne
      refine ⟨List.ne_nil_of_mem hj, ?_⟩
      simp only [List.length_append]
      omega
  | giveUp j =>
    simp only [step] at he
    split at he
    · cases he
    · next q c ha => cases he; exact (resumeCase j hl _ _ ha).1 c rfl
    · next q ha => cases he; exact ((resumeCase j hl _ _ ha).2 rfl).2
  | touch c now => cases he; exact ⟨hw.nodup, hw.nokey, hw.wake⟩
  | release c =>
    obtain ⟨t, ht, -⟩ := hl
    cases he
    unfold deactivate
    dsimp only
    have hkey : p.key c = some (t, (p.conn c).target) := by simp [Pool.key, ht]
    split
    · next hk =>
      rw [hkey] at hk
      obtain ⟨c', hm⟩ := hasKey_iff.mp hk
      have hlen := keys_filter h.keys hm
      refine partCase _ rfl (fun x hx => (List.mem_filter.mp hx).1) (notifyPerm 1 p.waiting p.woken) ?_
      intro hne
      obtain ⟨h1, h2⟩ := notifyLen 1 p.waiting hne
      refine ⟨h1, ?_⟩
      show p.active.length + p.woken.length ≤ (p.active.filter fun e => some e.1 != p.key c).length + (p.woken ++ p.waiting.take 1).length
      rw [hkey, List.length_append, h2]
      omega
    · exact ⟨hw.nodup, hw.nokey, hw.wake⟩
  | upgrade c =>
    cases he
    obtain ⟨-, h2⟩ := hs
    refine partCase _ rfl (fun x hx => (List.mem_filter.mp hx).1) (List.Perm.refl _) ?_
    intro hne
    exact absurd h2 hne
  | idleCleanup now inactive =>
    obtain ⟨q, h1, -, h3, h4⟩ := idleFold_spec now inactive p.idle h h.idleNodup (fun e he => he)
    rw [step, h1] at he
    cases he
    refine partCase _ h3.max (by rw [h4]; exact fun x hx => hx) (by rw [h3.waiting, h3.woken]) ?_
    intro hne
    rw [h3.waiting] at hne
    rw [h4, h3.woken]
    exact ⟨hne, Nat.le_refl _⟩
  | activeCleanup now inactive =>
    obtain ⟨q, h1, -, h3, h4, h5, h6⟩ := activeFold_spec now inactive p.threads h h.threadsNodup (fun e he => he)
    rw [step, h1] at he
    cases he
    refine partCase _ h3.max h6 ?_ ?_
    · simp only [Pool.notify, h3.waiting, h3.woken]
      exact notifyPerm _ _ _
    · simp only [Pool.notify, h3.waiting, h3.woken]
      intro hne
      obtain ⟨i1, i2⟩ := notifyLen _ p.waiting hne
      refine ⟨i1, ?_⟩
      rw [List.length_append, i2]
      omega
  | closing => cases he; exact ⟨hw.nodup, hw.nokey, hw.wake⟩

theorem reach_noUpgrade {max : Nat} {p : Pool} (h : Reach NoUpgrade max p) : Reach Safe max p ∧ Wake p := by
  induction h with
  | init => exact ⟨.init, by constructor <;> simp [Pool.init]⟩
  | step _ hl hs he ih =>
    exact ⟨.step ih.1 hl (safe_of_noUpgrade hs) he, step_wake (reach_inv ih.1) ih.2 hl hs he⟩

/-- **C143**: while a request waits that has not been notified, every connection is in use or promised to a request that has been
notified; and a request that has been notified gets a connection if one is not in use when it runs.  Partial: no connection is
upgraded while a request waits. -/
theorem C143_no_lost_wakeup_partial {max : Nat} {p : Pool} (h : Reach NoUpgrade max p) :
    (p.waiting ≠ [] → max ≤ p.active.length + p.woken.length) ∧
    (∀ j ∈ p.woken, p.active.length < max → ∃ p' c, step p (.resume j) = some p' ∧ (c, j) ∈ p'.queued ∧ p'.waiting = p.waiting) := by
  obtain ⟨hs, hw⟩ := reach_noUpgrade h
  rw [← reach_max hs]
  have hi := reach_inv hs
  refine ⟨hw.wake, ?_⟩
  intro j hj hlt
  have hi' : Inv { p with woken := p.woken.erase j } := hi.frame rfl rfl rfl rfl rfl rfl rfl rfl
  obtain ⟨q, o, h1, h2, h3, -, h5⟩ := acquire_spec hi' j.thread j.target
  cases o with
  | none =>
    rcases h5 with ⟨-, -, e, -⟩ | ⟨-, e, -⟩ | ⟨-, -, e, -⟩
    · cases e
    · cases e
    · dsimp only at e; omega
  | some c =>
    refine ⟨q.enqueue c j, c, by simp only [step, h1], ?_, h3.waiting⟩
    simp [Pool.enqueue]

/-- The requests that have been neither answered nor handed to a connection. -/
def Pool.pending (p : Pool) : List Job := p.waiting ++ p.woken

theorem moved (n : Nat) (l k : List Job) : (l.drop n ++ (k ++ l.take n)).Perm (l ++ k) := by
  calc (l.drop n ++ (k ++ l.take n)).Perm ((k ++ l.take n) ++ l.drop n) := List.perm_append_comm
    _ = k ++ l := by rw [List.append_assoc, List.take_append_drop]
    _ |>.Perm (l ++ k) := List.perm_append_comm

/-- **C143**: no request is lost.  After every event: the request of the event has been handed to exactly one connection, or waits;
or, with every connection in use, it has been refused; all other requests are where they were.  A closed client refuses. -/
theorem C143_no_request_lost {max : Nat} {p p' : Pool} {e : Ev} (h : Reach Safe max p) (hl : Legal p e) (he : step p e = some p') :
    (∃ j c, (∃ w, e = .request j w) ∧ p.closing = false ∧ p'.queued = p.queued ++ [(c, j)] ∧ p'.pending = p.pending) ∨
    (∃ j, e = .request j true ∧ p.closing = false ∧ p.active.length = max ∧ p'.queued = p.queued ∧ p'.pending.Perm (j :: p.pending)) ∨
    (∃ j w, e = .request j w ∧ (p.closing = true ∨ p.active.length = max ∧ w = false) ∧ p' = p) ∨
    (∃ j c, (e = .resume j ∨ e = .giveUp j) ∧ p'.queued = p.queued ++ [(c, j)] ∧ p.pending.Perm (j :: p'.pending)) ∨
    (∃ j, e = .resume j ∧ p.active.length = max ∧ p'.queued = p.queued ∧ p'.pending.Perm p.pending) ∨
    (∃ j, e = .giveUp j ∧ p.active.length = max ∧ p'.queued = p.queued ∧ p.pending.Perm (j :: p'.pending)) ∨
    ((∀ j w, e ≠ .request j w ∧ e ≠ .resume j ∧ e ≠ .giveUp j) ∧ p'.queued = p.queued ∧ p'.pending.Perm p.pending) := by
  have hi := reach_inv h
  rw [← reach_max h]
  have hw : ∀ l, Inv { p with woken := l } := fun l => hi.frame rfl rfl rfl rfl rfl rfl rfl rfl
  have acq : ∀ (q : Pool) (t g : Nat) (q' : Pool) (o : Option Nat), Inv q → acquire q t g = some (q', o) → Same q q' ∧
      (o = none → q' = q ∧ q.active.length = q.max) := by
    intro q t g q' o hq ha
    obtain ⟨q2, o2, i1, -, i3, -, i5⟩ := acquire_spec hq t g
    rw [i1] at ha
    cases ha
    refine ⟨i3, ?_⟩
    intro ho
    rcases i5 with ⟨-, -, e, -⟩ | ⟨-, e, -⟩ | ⟨e, -, e2, -⟩
    · rw [ho] at e; cases e
    · rw [ho] at e; cases e
    · exact ⟨e, e2⟩
  have woke : ∀ j ∈ p.woken, p.pending.Perm (j :: (p.waiting ++ p.woken.erase j)) := by
    intro j hj
    calc (p.waiting ++ p.woken).Perm (p.waiting ++ j :: p.woken.erase j) := (List.perm_cons_erase hj).append_left _
      _ |>.Perm (j :: (p.waiting ++ p.woken.erase j)) := List.perm_middle
  cases e with
  | request j w =>
    simp only [step] at he
    split at he
    · next hc => cases he; exact .inr (.inr (.inl ⟨j, w, rfl, .inl hc, rfl⟩))
    · next hc =>
      have hc' : p.closing = false := by simpa using hc
      split at he
      · cases he
      · next q c ha =>
        obtain ⟨s, -⟩ := acq _ _ _ _ _ hi ha
        cases he
        refine .inl ⟨j, c, ⟨w, rfl⟩, hc', ?_, ?_⟩
        · simp [Pool.enqueue, s.queued]
        · simp [Pool.pending, Pool.enqueue, s.waiting, s.woken]
      · next q ha =>
        obtain ⟨-, h2⟩ := acq _ _ _ _ _ hi ha
        obtain ⟨rfl, hfull⟩ := h2 rfl
        cases w
        · cases he; exact .inr (.inr (.inl ⟨j, false, rfl, .inr ⟨hfull, rfl⟩, rfl⟩))
        · cases he
          refine .inr (.inl ⟨j, rfl, hc', hfull, rfl, ?_⟩)
          show (q.waiting ++ [j] ++ q.woken).Perm _
          rw [List.append_assoc]
          exact List.perm_middle
  | resume j =>
    have hj : j ∈ p.woken := hl
    simp only [step] at he
    split at he
    · cases he
    · next q c ha =>
      obtain ⟨s, -⟩ := acq _ _ _ _ _ (hw (p.woken.erase j)) ha
      cases he
      refine .inr (.inr (.inr (.inl ⟨j, c, .inl rfl, ?_, ?_⟩)))
      · simp [Pool.enqueue, s.queued]
      · simp only [Pool.pending, Pool.enqueue, s.waiting, s.woken]
        exact woke j hj
    · next q ha =>
      obtain ⟨s, h2⟩ := acq _ _ _ _ _ (hw (p.woken.erase j)) ha
      obtain ⟨rfl, hfull⟩ := h2 rfl
      cases he
      refine .inr (.inr (.inr (.inr (.inl ⟨j, rfl, hfull, rfl, ?_⟩))))
      refine List.Perm.trans ?_ (woke j hj).symm
      show (p.waiting ++ [j] ++ p.woken.erase j).Perm _
      rw [List.append_assoc]
      exact List.perm_middle
  | giveUp j =>
    have hj : j ∈ p.woken := hl
    simp only [step] at he
    split at he
    · cases he
    · next q c ha =>
      obtain ⟨s, -⟩ := acq _ _ _ _ _ (hw (p.woken.erase j)) ha
      cases he
      refine .inr (.inr (.inr (.inl ⟨j, c, .inr rfl, ?_, ?_⟩)))
      · simp [Pool.enqueue, s.queued]
      · simp only [Pool.pending, Pool.enqueue, s.waiting, s.woken]
        exact woke j hj
    · next q ha =>
      obtain ⟨s, h2⟩ := acq _ _ _ _ _ (hw (p.woken.erase j)) ha
      obtain ⟨rfl, hfull⟩ := h2 rfl
      cases he
      exact .inr (.inr (.inr (.inr (.inr (.inl ⟨j, rfl, hfull, rfl, woke j hj⟩)))))
  | timeout j =>
    have hj : j ∈ p.waiting := hl
    cases he
    refine .inr (.inr (.inr (.inr (.inr (.inr ⟨by simp, rfl, ?_⟩)))))
    calc (p.waiting.erase j ++ (p.woken ++ [j])).Perm ((p.woken ++ [j]) ++ p.waiting.erase j) := List.perm_append_comm
      _ = p.woken ++ (j :: p.waiting.erase j) := by simp
      _ |>.Perm (p.woken ++ p.waiting) := (List.perm_cons_erase hj).symm.append_left _
      _ |>.Perm (p.waiting ++ p.woken) := List.perm_append_comm
  | touch c now => cases he; exact .inr (.inr (.inr (.inr (.inr (.inr ⟨by simp, rfl, List.Perm.refl _⟩)))))
  | release c =>
    cases he
    refine .inr (.inr (.inr (.inr (.inr (.inr ⟨by simp, ?_, ?_⟩)))))
    · unfold deactivate
      dsimp only
      split <;> rfl
    · unfold deactivate
      dsimp only
      split
      · exact moved 1 p.waiting p.woken
      · exact List.Perm.refl _
  | upgrade c => cases he; exact .inr (.inr (.inr (.inr (.inr (.inr ⟨by simp, rfl, List.Perm.refl _⟩)))))
  | idleCleanup now inactive =>
    obtain ⟨q, h1, -, h3, -⟩ := idleFold_spec now inactive p.idle hi hi.idleNodup (fun e he => he)
    rw [step, h1] at he
    cases he
    exact .inr (.inr (.inr (.inr (.inr (.inr ⟨by simp, h3.queued, by rw [Pool.pending, h3.waiting, h3.woken]; exact List.Perm.refl _⟩)))))
  | activeCleanup now inactive =>
    obtain ⟨q, h1, -, h3, -⟩ := activeFold_spec now inactive p.threads hi hi.threadsNodup (fun e he => he)
    rw [step, h1] at he
    cases he
    refine .inr (.inr (.inr (.inr (.inr (.inr ⟨by simp, h3.queued, ?_⟩)))))
    simp only [Pool.pending, Pool.notify, h3.waiting, h3.woken]
    exact moved _ _ _
  | closing => cases he; exact .inr (.inr (.inr (.inr (.inr (.inr ⟨by simp, rfl, List.Perm.refl _⟩)))))

/-! ## Examples and violations -/

/-- Does a thread wait? -/
def blocked (p : Pool) (t : Nat) : Bool := (p.waiting ++ p.woken).any (·.thread == t)

theorem blocked_iff {p : Pool} {t : Nat} : blocked p t = true ↔ Blocked p t := by
  simp [blocked, Blocked, or_and_right, exists_or]

/-- `Legal` as a test. -/
def legal (p : Pool) : Ev → Bool
  | .request j _ => !blocked p j.thread
  | .resume j => p.woken.contains j
  | .timeout j => p.waiting.contains j
  | .giveUp j => p.woken.contains j
  | .touch c _ => (p.conn c).thread.isSome
  | .release c => ((p.conn c).thread.map fun t => !blocked p t).getD false
  | .upgrade c => ((p.conn c).thread.map fun t => !blocked p t).getD false
  | _ => true

theorem legal_iff {p : Pool} {e : Ev} : legal p e = true ↔ Legal p e := by
  have hb : ∀ t, blocked p t = false ↔ ¬ Blocked p t := fun t => by
    rw [← blocked_iff]; cases blocked p t <;> simp
  cases e <;> simp only [legal, Legal, Bool.not_eq_true', hb, List.contains_iff_mem]
  case touch c now => cases (p.conn c).thread <;> simp
  case release c => cases (p.conn c).thread <;> simp [hb]
  case upgrade c => cases (p.conn c).thread <;> simp [hb]

/-- `ok` for the examples, as a test. -/
def safe (p : Pool) : Ev → Bool
  | .release c => (p.key c).isSome && p.active.all fun e => !(some e.1 == p.key c) || e.2 == c
  | .upgrade c => p.waiting.isEmpty && p.active.all fun e => !(some e.1 == p.key c) || e.2 == c
  | _ => true

theorem safe_noUpgrade {p : Pool} {e : Ev} (h : safe p e = true) : NoUpgrade p e := by
  cases e <;> try trivial
  · next c =>
    rintro ⟨k, c', h1, h2, h3⟩
    simp only [safe, Bool.and_eq_true, List.all_eq_true] at h
    have := h.2 _ h2
    simp [h1, h3] at this
  · next c =>
    simp only [safe, Bool.and_eq_true, List.all_eq_true, List.isEmpty_iff] at h
    refine ⟨?_, h.1⟩
    rintro ⟨k, c', h1, h2, h3⟩
    have := h.2 _ h2
    simp [h1, h3] at this

/-- A history of events, all of them legal, from a pool. -/
def history (ok : Pool → Ev → Bool) : Pool → List Ev → Option Pool
  | p, [] => some p
  | p, e :: es => if legal p e && ok p e then (step p e).bind fun p' => history ok p' es else none

theorem history_reach {ok : Pool → Ev → Bool} {Ok : Pool → Ev → Prop} (hok : ∀ p e, ok p e = true → Ok p e) {max : Nat} :
    ∀ (es : List Ev) {p p' : Pool}, Reach Ok max p → history ok p es = some p' → Reach Ok max p' := by
  intro es
  induction es with
  | nil => intro p p' hr h; cases h; exact hr
  | cons e es ih =>
    intro p p' hr h
    unfold history at h
    split at h
    · next hc =>
      rw [Bool.and_eq_true] at hc
      cases hs : step p e with
      | none => rw [hs] at h; cases h
      | some q =>
        rw [hs] at h
        exact ih (.step hr (legal_iff.mp hc.1) (hok _ _ hc.2) hs) h
    · cases h

/-- A history that satisfies a test gives a reachable pool that does. -/
theorem exists_reach {ok : Pool → Ev → Bool} {Ok : Pool → Ev → Prop} (hok : ∀ p e, ok p e = true → Ok p e) {max : Nat} (es : List Ev)
    {test : Pool → Bool} (h : ((history ok (Pool.init max) es).map test).getD false = true) : ∃ p, Reach Ok max p ∧ test p = true := by
  cases hh : history ok (Pool.init max) es with
  | none => rw [hh] at h; cases h
  | some p => rw [hh] at h; exact ⟨p, history_reach hok es .init hh, h⟩

/-- Every history. -/
def Any (_ : Pool) (_ : Ev) : Prop := True

def jobA : Job := ⟨1, 10, 0⟩
def jobB : Job := ⟨2, 10, 1⟩
def jobB' : Job := ⟨2, 20, 1⟩
def jobC : Job := ⟨1, 20, 2⟩

/-- The history of the examples: two connections in use, a third request waits; a connection is released and the request gets it. -/
example : ∃ p, Reach NoUpgrade 2 p ∧ (p.active.length == 2 && p.waiting.length == 1 && p.queued.length == 2) = true :=
  exists_reach (fun _ _ => safe_noUpgrade) [.request jobA true, .request jobB' true, .request ⟨3, 10, 7⟩ true] (by decide +kernel)

example : ∃ p, Reach NoUpgrade 2 p ∧ (p.active.length == 2 && p.waiting.isEmpty && p.queued.contains (1, ⟨3, 10, 7⟩)) = true :=
  exists_reach (fun _ _ => safe_noUpgrade)
    [.request jobA true, .request jobB' true, .request ⟨3, 10, 7⟩ true, .touch 1 5, .release 1, .resume ⟨3, 10, 7⟩] (by decide +kernel)

/-- An idle connection to another server makes way. -/
example : ∃ p, Reach NoUpgrade 1 p ∧ (p.active == [((2, 20), 2)] && p.idle.isEmpty && p.closed == [1]) = true :=
  exists_reach (fun _ _ => safe_noUpgrade) [.request jobA true, .release 1, .request jobB' true] (by decide +kernel)

/-- `idle_cleanup` and `active_cleanup`. -/
example : ∃ p, Reach NoUpgrade 2 p ∧ (p.active.isEmpty && p.idle.isEmpty && p.closed == [2, 1]) = true :=
  exists_reach (fun _ _ => safe_noUpgrade)
    [.request jobA true, .request jobB' true, .touch 2 3, .release 2, .idleCleanup 9 5, .activeCleanup 9 5] (by decide +kernel)

/-- **C141, violated**: `active_cleanup` takes a connection away from a thread that goes on to ask for another one; when the thread
finishes with the old one, the pool forgets the new one, and gives the old one, which has been killed, to the next thread.  With at
most one connection allowed, two threads have one each. -/
theorem C141_overtaken_violation : ∃ p, Reach Any 1 p ∧
    (p.threads == [(1, 2), (2, 1)] && p.closed == [1] && p.queued == [(1, jobA), (2, { jobC with target := 10 }), (1, jobB)]
      && (p.conn 2).thread == some 1 && (p.conn 1).thread == some 2) = true :=
  exists_reach (fun _ _ _ => trivial) (ok := fun _ _ => true)
    [.request jobA true, .activeCleanup 9 5, .request { jobC with target := 10 } true, .release 1, .request jobB true]
    (by decide +kernel)

/-- **C143, violated**: a connection that is upgraded makes room, but the request that waits is not told. -/
theorem C143_upgrade_violation : ∃ p, Reach Any 1 p ∧ (p.active.isEmpty && p.woken.isEmpty && p.waiting == [jobB]) = true :=
  exists_reach (fun _ _ _ => trivial) (ok := fun _ _ => true) [.request jobA true, .request jobB true, .upgrade 1] (by decide +kernel)

/-- **C143, violated**: a thread that asks for a second server waits for itself. -/
theorem C143_self_deadlock_violation : ∃ p, Reach Any 1 p ∧
    (p.waiting == [jobC] && p.woken.isEmpty && p.active == [((1, 10), 1)] && !legal p (.release 1) && !legal p (.upgrade 1)) = true :=
  exists_reach (fun _ _ _ => trivial) (ok := fun _ _ => true) [.request jobA true, .request jobC true] (by decide +kernel)

/-- **C143, violated**: a request that waits when the client is closed gets a new connection afterwards. -/
theorem C143_close_violation : ∃ p, Reach Any 1 p ∧
    (p.closing && p.closed == [1] && p.active == [((2, 10), 2)] && p.queued == [(1, jobA), (2, jobB)]) = true :=
  exists_reach (fun _ _ _ => trivial) (ok := fun _ _ => true)
    [.request jobA true, .request jobB true, .closing, .activeCleanup 9 5, .resume jobB] (by decide +kernel)

end Verif.Cli

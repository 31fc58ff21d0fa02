import Verif.Cli.PoolInv
/-!
# C141-C143: the pool of connections of an HTTP client
-/
namespace Verif.Cli

/-! ## Specification -/

/-- A thread is inside `queue_request`, waiting for a connection. -/
def Blocked (p : Pool) (t : Nat) : Prop := ∃ j ∈ p.waiting ++ p.woken, j.thread = t

/-- The events that can happen: a thread that waits does nothing else, and a connection is worked on by the thread it was given to. -/
def Legal (p : Pool) : Ev → Prop
  | .request j _ => ¬ Blocked p j.thread
  | .resume j => j ∈ p.woken
  | .timeout j => j ∈ p.waiting
  | .giveUp j => j ∈ p.woken
  | .touch c _ => (p.conn c).thread ≠ none
  | .release c => ∃ t, (p.conn c).thread = some t ∧ ¬ Blocked p t
  | .upgrade c => ∃ t, (p.conn c).thread = some t ∧ ¬ Blocked p t
  | _ => True

/-- The thread of the connection has another connection in use to the same target. -/
def Overtaken (p : Pool) (c : Nat) : Prop := ∃ k c', p.key c = some k ∧ (k, c') ∈ p.active ∧ c' ≠ c

/-- A thread does not finish with a connection that has been taken away from it by `active_cleanup` while it has a new one to the
same target. -/
def Safe (p : Pool) : Ev → Prop
  | .release c => ¬ Overtaken p c
  | .upgrade c => ¬ Overtaken p c
  | _ => True

/-- The pools a history of legal events leads to, if every event is as `ok` says. -/
inductive Reach (ok : Pool → Ev → Prop) (max : Nat) : Pool → Prop
  | init : Reach ok max (Pool.init max)
  | step {p p' : Pool} {e : Ev} : Reach ok max p → Legal p e → ok p e → step p e = some p' → Reach ok max p'

/-! ## The invariant is kept -/

/-- The invariant is about some of the fields only. -/
theorem Inv.frame {p q : Pool} (h : Inv p) (e1 : q.max = p.max) (e2 : q.next = p.next) (e3 : q.conn = p.conn) (e4 : q.active = p.active)
    (e5 : q.threads = p.threads) (e6 : q.idle = p.idle) (e7 : q.idleT = p.idleT) (e8 : q.closed = p.closed) : Inv q := by
  constructor
  · rw [e4]; exact h.keys
  · rw [e4, e3, e2]; exact h.active
  · rw [e5, e4]; exact h.threads
  · rw [e5]; exact h.threadsNodup
  · rw [e6]; exact h.idleNodup
  · rw [e6, e3, e2]; exact h.idle
  · rw [e7, e6, e3]; exact h.idleT
  · rw [e4, e6, e1]; exact h.bound
  · rw [e8, e2, e6, e4]; exact h.closed

/-- What is left alone by the search for a connection. -/
structure Same (p q : Pool) : Prop where
  max : q.max = p.max
  closing : q.closing = p.closing
  queued : q.queued = p.queued
  waiting : q.waiting = p.waiting
  woken : q.woken = p.woken

/-- The result of the search for a connection. -/
theorem acquire_spec {p : Pool} (h : Inv p) (t g : Nat) : ∃ p' o, acquire p t g = some (p', o) ∧ Inv p' ∧ Same p p' ∧
    (∀ c, o = some c → ((t, g), c) ∈ p'.active) ∧
    ((p'.active = p.active ∧ p'.closed = p.closed ∧ o.isSome ∧ ¬ NoKey p t g) ∨
      (NoKey p t g ∧ o.isSome ∧ ∃ c, p'.active = p.active ++ [((t, g), c)]) ∨
      (p' = p ∧ o = none ∧ p.active.length = p.max ∧ NoKey p t g)) := by
  have hfresh : ∀ q : Pool, Inv q → NoKey q t g → q.active.length + q.idle.length < q.max →
      Inv (activated (newConn q g) q.next t) ∧ (activated (newConn q g) q.next t).active = q.active ++ [((t, g), q.next)] := by
    intro q hq hn hr
    have e : ((newConn q g).conn q.next).target = g := by simp [newConn, setConn]
    constructor
    · refine activated_inv (newConn_inv hq g) (by simp [newConn, setConn]) (by simp [newConn]) ?_ ?_ (.inr hr)
      · rw [e]; exact hn
      · intro hm
        have := (hq.closed _ hm).1
        omega
    · simp only [activated, e]
      rfl
  rcases seek_cases h t g (p.idle.length + 1) (by omega) with ⟨c, h1, h2⟩ | ⟨h1, c, h2, h3, -, h5⟩ | ⟨h1, -, h3, h4⟩ | ⟨h1, -, h3, c, h4, -, h6⟩ |
    ⟨h1, -, h3, h4⟩
  · exact ⟨p, some c, h2, h, ⟨rfl, rfl, rfl, rfl, rfl⟩, fun c' e => by cases e; exact h1, .inl ⟨rfl, rfl, rfl, fun hn => hn c h1⟩⟩
  · have e : (activated p c t).active = p.active ++ [((t, g), c)] := by simp only [activated, h3]
    refine ⟨_, _, h5, ?_, ⟨rfl, rfl, rfl, rfl, rfl⟩, ?_, .inr (.inl ⟨h1, rfl, c, e⟩)⟩
    · refine activated_inv h (h.idle c h2).1 (h.idle c h2).2 (by rw [h3]; exact h1) ?_ (.inl h2)
      intro hm
      exact (h.closed c hm).2.1 h2
    · intro c' e'; cases e'; rw [e]; simp
  · obtain ⟨i, e⟩ := hfresh p h h1 h3
    exact ⟨_, _, h4, i, ⟨rfl, rfl, rfl, rfl, rfl⟩, fun c' e' => by cases e'; rw [e]; simp, .inr (.inl ⟨h1, rfl, _, e⟩)⟩
  · have hlen := length_filter_ne h.idleNodup h4
    obtain ⟨i, e⟩ := hfresh (dropped p c) (dropped_inv h h4) h1 (by simp only [dropped]; omega)
    exact ⟨_, _, h6, i, ⟨rfl, rfl, rfl, rfl, rfl⟩, fun c' e' => by cases e'; rw [show (dropped p c).next = p.next from rfl] at e; rw [e]; simp, .inr (.inl ⟨h1, rfl, _, e⟩)⟩
  · exact ⟨p, none, h4, h, ⟨rfl, rfl, rfl, rfl, rfl⟩, fun c' e => by (cases e), .inr (.inr ⟨rfl, rfl, h3, h1⟩)⟩

theorem hasKey_iff {p : Pool} {k : Nat × Nat} : p.hasKey (some k) = true ↔ ∃ c, (k, c) ∈ p.active := by
  unfold Pool.hasKey
  simp only [List.any_eq_true, beq_iff_eq, Option.some.injEq]
  constructor
  · rintro ⟨⟨k', c⟩, h1, rfl⟩; exact ⟨c, h1⟩
  · rintro ⟨c, h⟩; exact ⟨_, h, rfl⟩

/-- A connection taken away from its thread. -/
def parted (p : Pool) (c : Nat) : Pool := leave { p with active := p.active.filter fun e => some e.1 != p.key c } c

theorem keys_filter {l : List ((Nat × Nat) × Nat)} {k : Nat × Nat} {c : Nat} (hn : (l.map (·.1)).Nodup) (hm : (k, c) ∈ l) :
    (l.filter fun e => some e.1 != some k).length + 1 = l.length := by
  induction l with
  | nil => cases hm
  | cons e l ih =>
    simp only [List.map_cons, List.nodup_cons] at hn
    rcases List.mem_cons.mp hm with rfl | hm
    · rw [List.filter_cons_of_neg (by simp)]
      have : l.filter (fun e => some e.1 != some k) = l := by
        rw [List.filter_eq_self]
        intro x hx
        simp only [bne_iff_ne, ne_eq, Option.some.injEq]
        intro e
        exact hn.1 (List.mem_map.mpr ⟨x, hx, e⟩)
      rw [this]; rfl
    · rw [List.filter_cons_of_pos]
      · simp only [List.length_cons]; rw [ih hn.2 hm]
      · simp only [bne_iff_ne, ne_eq, Option.some.injEq]
        intro e'
        exact hn.1 (List.mem_map.mpr ⟨(k, c), hm, e'.symm⟩)

theorem parted_inv {p : Pool} (h : Inv p) {c t : Nat} (ht : (p.conn c).thread = some t) (ho : ¬ Overtaken p c) :
    Inv (parted p c) ∧ c ∉ p.idle ∧ (∀ k, (k, c) ∉ (parted p c).active) := by
  have hkey : p.key c = some (t, (p.conn c).target) := by simp [Pool.key, ht]
  have huniq : ∀ c', ((t, (p.conn c).target), c') ∈ p.active → c' = c := by
    intro c' hm
    by_contra hne
    exact ho ⟨_, c', hkey, hm, hne⟩
  have hidle : c ∉ p.idle := by
    intro hm
    rw [(h.idle c hm).1] at ht
    cases ht
  have htgt : ∀ c', ((setConn p.conn c { p.conn c with thread := none }) c').target = (p.conn c').target := by
    intro c'; unfold setConn; split
    · next e => rw [e]
    · rfl
  have hne : ∀ c', c' ≠ c → (setConn p.conn c { p.conn c with thread := none }) c' = p.conn c' := by
    intro c' hc'; unfold setConn; rw [if_neg hc']
  have hact : ∀ k c', (k, c') ∈ (parted p c).active ↔ (k, c') ∈ p.active ∧ k ≠ (t, (p.conn c).target) := by
    intro k c'
    simp only [parted, leave, hkey, List.mem_filter, bne_iff_ne, ne_eq, Option.some.injEq]
  have hnc : ∀ k, (k, c) ∉ (parted p c).active := by
    intro k hm
    obtain ⟨h1, h2⟩ := (hact k c).mp hm
    have := h.active k c h1
    apply h2
    ext
    · have := this.1.symm.trans ht; simpa using this
    · exact this.2.1.symm
  refine ⟨?_, hidle, hnc⟩
  constructor
  · have : ((parted p c).active.map (·.1)).Sublist (p.active.map (·.1)) := by
      simp only [parted, leave]
      exact List.Sublist.map _ List.filter_sublist
    exact this.nodup h.keys
  · intro k c' hm
    have hc' : c' ≠ c := by rintro rfl; exact hnc k hm
    have := h.active k c' ((hact k c').mp hm).1
    simp only [parted, leave]
    rw [hne c' hc']
    exact this
  · intro t' c'
    have hth : (t', c') ∈ (parted p c).threads ↔ (t', c') ∈ p.threads ∧ ¬ (t' = t ∧ c' = c) := by
      simp only [parted, leave, List.mem_filter, ht, Bool.not_eq_true', Bool.and_eq_false_iff, beq_eq_false_iff_ne, ne_eq, Option.some.injEq]
      constructor
      · rintro ⟨h1, h2⟩; exact ⟨h1, fun hh => h2.elim (fun h3 => h3 hh.1) (fun h3 => h3 hh.2)⟩
      · rintro ⟨h1, h2⟩; refine ⟨h1, ?_⟩; by_cases h3 : t' = t
        · exact .inr fun h4 => h2 ⟨h3, h4⟩
        · exact .inl h3
    rw [hth, h.threads]
    constructor
    · rintro ⟨⟨g, hm⟩, hn⟩
      refine ⟨g, (hact _ _).mpr ⟨hm, ?_⟩⟩
      intro e
      simp only [Prod.mk.injEq] at e
      obtain ⟨rfl, rfl⟩ := e
      exact hn ⟨rfl, huniq c' hm⟩
    · rintro ⟨g, hm⟩
      refine ⟨⟨g, ((hact _ _).mp hm).1⟩, ?_⟩
      rintro ⟨-, rfl⟩
      exact hnc _ hm
  · exact h.threadsNodup.filter _
  · exact h.idleNodup
  · intro c' hm
    have hc' : c' ≠ c := by rintro rfl; exact hidle hm
    have := h.idle c' hm
    simp only [parted, leave]
    rw [hne c' hc']
    exact this
  · intro g c'
    simp only [parted, leave, htgt]
    exact h.idleT g c'
  · have := h.bound
    have h2 := List.length_filter_le (fun e => some e.1 != p.key c) p.active
    simp only [parted, leave]
    omega
  · intro c' hm
    obtain ⟨h1, h2, h3⟩ := h.closed c' hm
    exact ⟨h1, h2, fun k hm' => h3 k ((hact k c').mp hm').1⟩

/-- An unused connection becomes idle. -/
def rested (p : Pool) (c : Nat) : Pool := { p with idle := p.idle ++ [c], idleT := p.idleT ++ [((p.conn c).target, c)] }

theorem rested_inv {p : Pool} (h : Inv p) {c : Nat} (ht : (p.conn c).thread = none) (hlt : c < p.next) (hi : c ∉ p.idle) (ha : ∀ k, (k, c) ∉ p.active)
    (hcl : c ∉ p.closed) (hb : p.active.length + p.idle.length < p.max) : Inv (rested p c) := by
  constructor
  · exact h.keys
  · exact h.active
  · exact h.threads
  · exact h.threadsNodup
  · simp only [rested]
    rw [List.nodup_append]
    refine ⟨h.idleNodup, by simp, ?_⟩
    intro a ha' b hb'
    simp only [List.mem_singleton] at hb'
    rintro rfl
    subst hb'
    exact hi ha'
  · intro c' hm
    simp only [rested, List.mem_append, List.mem_singleton] at hm
    rcases hm with hm | rfl
    · exact h.idle c' hm
    · exact ⟨ht, hlt⟩
  · intro g c'
    simp only [rested, List.mem_append, List.mem_singleton, h.idleT, Prod.mk.injEq]
    constructor
    · rintro (⟨h1, h2⟩ | ⟨rfl, rfl⟩)
      · exact ⟨.inl h1, h2⟩
      · exact ⟨.inr rfl, rfl⟩
    · rintro ⟨h1 | rfl, h2⟩
      · exact .inl ⟨h1, h2⟩
      · exact .inr ⟨h2.symm, rfl⟩
  · simp only [rested, List.length_append, List.length_cons, List.length_nil]; omega
  · intro c' hm
    simp only [rested, List.mem_append, List.mem_singleton]
    obtain ⟨h1, h2, h3⟩ := h.closed c' hm
    refine ⟨h1, ?_, h3⟩
    rintro (hh | rfl)
    · exact h2 hh
    · exact hcl hm

/-- `_deactivate_connection` for a connection whose thread has no other one to its target. -/
theorem deactivate_inv {p : Pool} (h : Inv p) {c t : Nat} (ht : (p.conn c).thread = some t) (ho : ¬ Overtaken p c) :
    Inv (deactivate p c) := by
  have hkey : p.key c = some (t, (p.conn c).target) := by simp [Pool.key, ht]
  obtain ⟨hi, h2, h3⟩ := parted_inv h ht ho
  unfold deactivate
  dsimp only
  by_cases hk : p.hasKey (p.key c) = true
  · rw [if_pos hk]
    rw [hkey] at hk
    obtain ⟨c', hm⟩ := hasKey_iff.mp hk
    have hc' : c' = c := by
      by_contra hne
      exact ho ⟨_, c', hkey, hm, hne⟩
    subst hc'
    have e1 : addKey p.idle c' = p.idle ++ [c'] := by
      unfold addKey; rw [if_neg (by simpa using h2)]
    have e2 : addKey p.idleT ((p.conn c').target, c') = p.idleT ++ [((p.conn c').target, c')] := by
      unfold addKey
      rw [if_neg]
      simp only [List.contains_iff_mem]
      intro hm'
      exact h2 ((h.idleT _ _).mp hm').1
    have hlen := keys_filter h.keys hm
    rw [e1, e2]
    refine Inv.frame (rested_inv hi (c := c') ?_ (h.active _ _ hm).2.2 h2 h3 ?_ ?_) rfl rfl rfl rfl rfl rfl ?_ rfl
    · simp [parted, leave, setConn]
    · intro hm'
      exact (h.closed _ hm').2.2 _ hm
    · have := h.bound
      simp only [parted, leave, hkey]
      omega
    · simp [rested, parted, leave, setConn, Pool.notify]
  · rw [if_neg hk]
    have : p.active.filter (fun e => some e.1 != p.key c) = p.active := by
      rw [List.filter_eq_self]
      rintro ⟨k, c'⟩ hm
      simp only [bne_iff_ne, ne_eq]
      intro e
      apply hk
      rw [← e]
      exact hasKey_iff.mpr ⟨c', hm⟩
    refine Inv.frame hi rfl rfl rfl ?_ rfl rfl rfl rfl
    simp only [parted, leave, this]

/-- One step of `active_cleanup`. -/
theorem activeStep_spec {p : Pool} (h : Inv p) {e : Nat × Nat} (hm : e ∈ p.threads) (now inactive : Nat) :
    ∃ p', activeStep now inactive p e = some p' ∧ Inv p' ∧ Same p p' ∧ p.closed.length ≤ p'.closed.length ∧
      p'.active.length + p'.closed.length = p.active.length + p.closed.length ∧ (∀ x ∈ p'.active, x ∈ p.active) ∧
      (∀ x ∈ p.threads, x ≠ e → x ∈ p'.threads) := by
  obtain ⟨t, c⟩ := e
  obtain ⟨g, ha⟩ := (h.threads t c).mp hm
  obtain ⟨h1, h2, h3⟩ := h.active _ _ ha
  dsimp only at h1 h2
  have hkey : p.key c = some (t, g) := by simp [Pool.key, h1, h2]
  unfold activeStep
  dsimp only
  by_cases hl : (p.conn c).last + inactive < now
  · have hk : p.hasKey (some (t, g)) = true := hasKey_iff.mpr ⟨c, ha⟩
    rw [if_pos hl, hkey, if_pos hk]
    have hact : ∀ k c', (k, c') ∈ p.active.filter (fun x => some x.1 != some (t, g)) ↔ (k, c') ∈ p.active ∧ k ≠ (t, g) := by
      intro k c'
      simp only [List.mem_filter, bne_iff_ne, ne_eq, Option.some.injEq]
    have hnc : ∀ k, (k, c) ∉ p.active.filter (fun x => some x.1 != some (t, g)) := by
      intro k hm
      obtain ⟨h4, h5⟩ := (hact k c).mp hm
      exact h5 (active_key h h4 ha)
    refine ⟨_, rfl, ?_, ⟨rfl, rfl, rfl, rfl, rfl⟩, by simp, ?_, ?_, ?_⟩
    · constructor
      · exact (List.Sublist.map _ List.filter_sublist).nodup h.keys
      · intro k c' hm'
        exact h.active k c' ((hact k c').mp hm').1
      · intro t' c'
        dsimp only
        simp only [List.mem_filter, bne_iff_ne, ne_eq, Prod.mk.injEq, h.threads]
        constructor
        · rintro ⟨⟨g', hm'⟩, hn⟩
          refine ⟨g', hm', ?_⟩
          intro e
          simp only [Option.some.injEq, Prod.mk.injEq] at e
          obtain ⟨rfl, rfl⟩ := e
          exact hn ⟨rfl, active_unique h hm' ha⟩
        · rintro ⟨g', hm', hne⟩
          refine ⟨⟨g', hm'⟩, ?_⟩
          rintro ⟨rfl, rfl⟩
          exact hnc _ ((hact _ _).mpr ⟨hm', fun e => hne (by rw [e])⟩)
      · exact h.threadsNodup.filter _
      · exact h.idleNodup
      · exact h.idle
      · exact h.idleT
      · have := h.bound
        have := List.length_filter_le (fun x => some x.1 != some (t, g)) p.active
        dsimp only
        omega
      · intro c' hm'
        simp only [List.mem_append, List.mem_singleton] at hm'
        rcases hm' with hm' | rfl
        · obtain ⟨i1, i2, i3⟩ := h.closed c' hm'
          exact ⟨i1, i2, fun k hm'' => i3 k ((hact k c').mp hm'').1⟩
        · refine ⟨h3, ?_, hnc⟩
          intro hi
          rw [(h.idle _ hi).1] at h1
          cases h1
    · have := keys_filter h.keys ha
      simp only [List.length_append, List.length_cons, List.length_nil]
      omega
    · intro x hx; exact (List.mem_filter.mp hx).1
    · intro x hx hne; exact List.mem_filter.mpr ⟨hx, by simpa using hne⟩
  · rw [if_neg hl]
    exact ⟨p, rfl, h, ⟨rfl, rfl, rfl, rfl, rfl⟩, Nat.le_refl _, rfl, fun x hx => hx, fun x hx _ => hx⟩

theorem Same.trans {p q r : Pool} (h1 : Same p q) (h2 : Same q r) : Same p r :=
  ⟨h2.max.trans h1.max, h2.closing.trans h1.closing, h2.queued.trans h1.queued, h2.waiting.trans h1.waiting, h2.woken.trans h1.woken⟩

theorem activeFold_spec (now inactive : Nat) : ∀ (l : List (Nat × Nat)) {p : Pool}, Inv p → l.Nodup → (∀ e ∈ l, e ∈ p.threads) →
    ∃ p', l.foldlM (activeStep now inactive) p = some p' ∧ Inv p' ∧ Same p p' ∧ p.closed.length ≤ p'.closed.length ∧
      p'.active.length + p'.closed.length = p.active.length + p.closed.length ∧ (∀ x ∈ p'.active, x ∈ p.active) := by
  intro l
  induction l with
  | nil => intro p h _ _; exact ⟨p, rfl, h, ⟨rfl, rfl, rfl, rfl, rfl⟩, Nat.le_refl _, rfl, fun x hx => hx⟩
  | cons e l ih =>
    intro p h hn hm
    rw [List.nodup_cons] at hn
    obtain ⟨q, h1, h2, h3, h4, h5, h6, h7⟩ := activeStep_spec h (hm e (by simp)) now inactive
    obtain ⟨r, i1, i2, i3, i4, i5, i6⟩ := ih h2 hn.2 (by
      intro x hx
      refine h7 x (hm x (by simp [hx])) ?_
      rintro rfl
      exact hn.1 hx)
    refine ⟨r, ?_, i2, h3.trans i3, by omega, by omega, fun x hx => h6 x (i6 x hx)⟩
    rw [List.foldlM_cons, h1]
    exact i1

theorem idleFold_spec (now inactive : Nat) : ∀ (l : List Nat) {p : Pool}, Inv p → l.Nodup → (∀ e ∈ l, e ∈ p.idle) →
    ∃ p', l.foldlM (idleStep now inactive) p = some p' ∧ Inv p' ∧ Same p p' ∧ p'.active = p.active := by
  intro l
  induction l with
  | nil => intro p h _ _; exact ⟨p, rfl, h, ⟨rfl, rfl, rfl, rfl, rfl⟩, rfl⟩
  | cons c l ih =>
    intro p h hn hm
    rw [List.nodup_cons] at hn
    by_cases hl : (p.conn c).last + inactive < now
    · have hc := hm c (by simp)
      obtain ⟨r, i1, i2, i3, i4⟩ := ih (dropped_inv h hc) hn.2 (by
        intro x hx
        simp only [dropped, List.mem_filter, bne_iff_ne]
        refine ⟨hm x (by simp [hx]), ?_⟩
        rintro rfl
        exact hn.1 hx)
      refine ⟨r, ?_, i2, Same.trans (q := dropped p c) ⟨rfl, rfl, rfl, rfl, rfl⟩ i3, i4⟩
      rw [List.foldlM_cons, idleStep, if_pos hl, deleteIdle_eq h hc]
      exact i1
    · obtain ⟨r, i1, i2, i3, i4⟩ := ih h hn.2 (fun x hx => hm x (by simp [hx]))
      refine ⟨r, ?_, i2, i3, i4⟩
      rw [List.foldlM_cons, idleStep, if_neg hl]
      exact i1

/-- Every legal event that is safe keeps the invariant, and raises no KeyError. -/
theorem step_inv {p : Pool} (h : Inv p) {e : Ev} (hl : Legal p e) (hs : Safe p e) : ∃ p', step p e = some p' ∧ Inv p' := by
  have acq : ∀ (q : Pool) (j : Job), Inv q → ∃ p' o, acquire q j.thread j.target = some (p', o) ∧ Inv p' := by
    intro q j hq
    obtain ⟨p', o, h1, h2, -⟩ := acquire_spec hq j.thread j.target
    exact ⟨p', o, h1, h2⟩
  have hw : ∀ l, Inv { p with woken := l } := fun l => h.frame rfl rfl rfl rfl rfl rfl rfl rfl
  cases e with
  | request j w =>
    obtain ⟨p', o, h1, h2⟩ := acq p j h
    simp only [step]
    by_cases hc : p.closing = true
    · rw [if_pos hc]; exact ⟨p, rfl, h⟩
    · rw [if_neg hc, h1]
      cases o with
      | some c => exact ⟨_, rfl, h2.frame rfl rfl rfl rfl rfl rfl rfl rfl⟩
      | none => cases w
                · exact ⟨_, rfl, h2⟩
                · exact ⟨_, rfl, h2.frame rfl rfl rfl rfl rfl rfl rfl rfl⟩
  | resume j =>
    obtain ⟨p', o, h1, h2⟩ := acq _ j (hw (p.woken.erase j))
    simp only [step, h1]
    cases o with
    | some c => exact ⟨_, rfl, h2.frame rfl rfl rfl rfl rfl rfl rfl rfl⟩
    | none => exact ⟨_, rfl, h2.frame rfl rfl rfl rfl rfl rfl rfl rfl⟩
  | timeout j => exact ⟨_, rfl, h.frame rfl rfl rfl rfl rfl rfl rfl rfl⟩
  | giveUp j =>
    obtain ⟨p', o, h1, h2⟩ := acq _ j (hw (p.woken.erase j))
    simp only [step, h1]
    cases o with
    | some c => exact ⟨_, rfl, h2.frame rfl rfl rfl rfl rfl rfl rfl rfl⟩
    | none => exact ⟨_, rfl, h2⟩
  | touch c now =>
    refine ⟨_, rfl, ?_⟩
    have e1 : ∀ c', ((setConn p.conn c { p.conn c with last := now }) c').target = (p.conn c').target ∧
        ((setConn p.conn c { p.conn c with last := now }) c').thread = (p.conn c').thread := by
      intro c'; unfold setConn; split
      · next e => rw [e]; exact ⟨rfl, rfl⟩
      · exact ⟨rfl, rfl⟩
    constructor
    · exact h.keys
    · intro k c' hm; rw [(e1 c').1, (e1 c').2]; exact h.active k c' hm
    · exact h.threads
    · exact h.threadsNodup
    · exact h.idleNodup
    · intro c' hm; rw [(e1 c').2]; exact h.idle c' hm
    · intro g c'; rw [(e1 c').1]; exact h.idleT g c'
    · exact h.bound
    · exact h.closed
  | release c =>
    obtain ⟨t, ht, -⟩ := hl
    exact ⟨_, rfl, deactivate_inv h ht hs⟩
  | upgrade c =>
    obtain ⟨t, ht, -⟩ := hl
    exact ⟨_, rfl, (parted_inv h ht hs).1⟩
  | idleCleanup now inactive =>
    obtain ⟨p', h1, h2, -⟩ := idleFold_spec now inactive p.idle h h.idleNodup (fun e he => he)
    exact ⟨p', h1, h2⟩
  | activeCleanup now inactive =>
    obtain ⟨p', h1, h2, -⟩ := activeFold_spec now inactive p.threads h h.threadsNodup (fun e he => he)
    refine ⟨p'.notify (p'.closed.length - p.closed.length), by simp only [step, h1]; rfl, h2.frame rfl rfl rfl rfl rfl rfl rfl rfl⟩
  | closing => exact ⟨_, rfl, h.frame rfl rfl rfl rfl rfl rfl rfl rfl⟩

theorem reach_inv {max : Nat} {p : Pool} (h : Reach Safe max p) : Inv p := by
  induction h with
  | init => exact inv_init max
  | step _ hl hs he ih =>
    obtain ⟨p', h1, h2⟩ := step_inv ih hl hs
    rw [h1] at he
    cases he
    exact h2

end Verif.Cli

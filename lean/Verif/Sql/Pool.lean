import Mathlib.Tactic.Tauto
import Mathlib.Data.List.Nodup
/-
C102: the pool of database connections (pyslet/odata2/sqlds.py:4621-4767, 4791-4849).
-/
namespace Verif.Sql

/-! ### Model -/

/-- sqlds.py:4156-4160: the connections in use, with their threads and the depths of their locks, those
last used by a thread, those of threads that have ended, and the size that is reckoned with.  Each
`SQLConnection` has a number; `next` is the next one.  Dictionaries are lists, last entry first; the list
of idle connections is last entry first. -/
structure Pool where
  locked : List (Nat × Nat × Nat)
  unlocked : List (Nat × Nat)
  idle : List Nat
  size : Nat
  next : Nat
  deriving DecidableEq, Repr

def Pool.empty : Pool := ⟨[], [], [], 0, 0⟩

/-- `d[t] = id`. -/
def dictSet (d : List (Nat × Nat)) (t id : Nat) : List (Nat × Nat) :=
  if d.any (·.1 == t) then d.map fun e => if e.1 = t then (t, id) else e else (t, id) :: d

/-- sqlds.py:4621-4706 `acquire_connection` by the thread `t`, with `max` connections allowed: the
connection, or `none` when the thread has to wait (and, after the timeout, gets nothing).  The lock on
the module for drivers that are not thread-safe at all, and closing the container, are not modelled. -/
def Pool.acquire (max : Nat) (p : Pool) (t : Nat) : Option Nat × Pool :=
  match p.locked.find? (·.1 == t) with
  | some e => (some e.2.1, { p with locked := p.locked.map fun x => if x.1 = t then (x.1, x.2.1, x.2.2 + 1) else x })
  | none =>
    match p.unlocked.find? (·.1 == t) with
    | some e => (some e.2, { p with locked := (t, e.2, 1) :: p.locked, unlocked := p.unlocked.filter (·.1 != t) })
    | none =>
      match p.idle with
      | id :: rest => (some id, { p with locked := (t, id, 1) :: p.locked, idle := rest })
      | [] =>
        if p.size < max then
          (some p.next, { p with locked := (t, p.next, 1) :: p.locked, size := p.size + 1, next := p.next + 1 })
        else
          match p.unlocked with
          | e :: rest => (some e.2, { p with locked := (t, e.2, 1) :: p.locked, unlocked := rest })
          | [] => (none, p)

/-- sqlds.py:4717-4722 and 4735-4740: one lock less on the connection of the thread `t`. -/
def Pool.unlock (p : Pool) (t : Nat) : Pool :=
  match p.locked.find? (·.1 == t) with
  | none => p
  | some e =>
    if e.2.2 ≤ 1 then
      { p with locked := p.locked.filter (·.1 != t), unlocked := dictSet p.unlocked t e.2.1 }
    else { p with locked := p.locked.map fun x => if x.1 = t then (x.1, x.2.1, x.2.2 - 1) else x }

/-- sqlds.py:4708-4767 `release_connection` of `id` by the thread `t`. -/
def Pool.release (p : Pool) (t id : Nat) : Pool :=
  if p.locked.any (fun e => e.1 == t && e.2.1 == id) then p.unlock t
  else
    match p.locked.find? (·.2.1 == id) with
    | some e => p.unlock e.1
    | none =>
      if id ∈ p.idle then { p with idle := p.idle.erase id, size := p.size - 1 }
      else p

/-- sqlds.py:4811-4817: the connection of a thread that ended without releasing it is closed. -/
def Pool.dropLocked (p : Pool) (t : Nat) : Pool := { p with locked := p.locked.filter (·.1 != t) }

/-- sqlds.py:4820-4828: the connection of a thread that has ended becomes idle. -/
def Pool.toIdle (p : Pool) (t : Nat) : Pool :=
  match p.unlocked.find? (·.1 == t) with
  | some e => { p with unlocked := p.unlocked.filter (·.1 != t), idle := e.2 :: p.idle }
  | none => p

/-- sqlds.py:4829-4837: a connection that was not used for long is closed. -/
def Pool.dropUnlocked (p : Pool) (t : Nat) : Pool :=
  if p.unlocked.any (·.1 == t) then { p with unlocked := p.unlocked.filter (·.1 != t), size := p.size - 1 } else p

/-- sqlds.py:4838-4846: an idle connection is closed. -/
def Pool.dropIdle (p : Pool) (id : Nat) : Pool :=
  if id ∈ p.idle then { p with idle := p.idle.erase id, size := p.size - 1 } else p

/-- What threads, and the cleaner of the pool (sqlds.py:4799-4849, step by step), do. -/
inductive PoolOp
  | acquire (t : Nat)
  | release (t id : Nat)
  | dropLocked (t : Nat)
  | toIdle (t : Nat)
  | dropUnlocked (t : Nat)
  | dropIdle (id : Nat)
  deriving DecidableEq, Repr

def poolStep (max : Nat) (p : Pool) : PoolOp → Pool
  | .acquire t => (p.acquire max t).2
  | .release t id => p.release t id
  | .dropLocked t => p.dropLocked t
  | .toIdle t => p.toIdle t
  | .dropUnlocked t => p.dropUnlocked t
  | .dropIdle id => p.dropIdle id

def poolRun (max : Nat) (ops : List PoolOp) : Pool := ops.foldl (poolStep max) .empty

/-! ### Specification -/

/-- All connections the pool knows. -/
def Pool.ids (p : Pool) : List Nat := p.locked.map (·.2.1) ++ p.unlocked.map (·.2) ++ p.idle

/-- The thread may use the connection. -/
def Pool.holds (p : Pool) (t id : Nat) : Prop := ∃ n, (t, id, n) ∈ p.locked

/-! ### Invariant -/

structure PoolInv (max : Nat) (p : Pool) : Prop where
  nodup : p.ids.Nodup
  fresh : ∀ id ∈ p.ids, id < p.next
  threads : (p.locked.map (·.1) ++ p.unlocked.map (·.1)).Nodup
  size : p.ids.length ≤ p.size
  bound : p.size ≤ max
  depth : ∀ e ∈ p.locked, 1 ≤ e.2.2

theorem map_sel {α β} (l : List α) (p : α → Bool) (f : α → α) (g : α → β) (h : ∀ x ∈ l, p x = true → g (f x) = g x) :
    (l.map fun x => if p x = true then f x else x).map g = l.map g := by
  rw [List.map_map]
  apply List.map_congr_left
  intro x hx
  simp only [Function.comp_apply]
  split
  · rename_i hp; exact h x hx hp
  · rfl

theorem find_mem {α} {p : α → Bool} {l : List α} {e : α} (h : l.find? p = some e) : e ∈ l ∧ p e = true :=
  ⟨List.mem_of_find?_eq_some h, List.find?_some h⟩

/-- Taking one entry, whose key is unique, out of a list leaves the list without it. -/
theorem filter_split {α} (l : List α) (key : α → Nat) (e : α) (hn : (l.map key).Nodup) (he : e ∈ l) :
    ∃ a b, l = a ++ e :: b ∧ l.filter (fun x => key x != key e) = a ++ b := by
  obtain ⟨a, b, rfl⟩ := List.append_of_mem he
  refine ⟨a, b, rfl, ?_⟩
  rw [List.map_append, List.map_cons, List.nodup_append] at hn
  obtain ⟨_, h2, h3⟩ := hn
  rw [List.nodup_cons] at h2
  rw [List.filter_append, List.filter_cons]
  simp only [bne_self_eq_false, Bool.false_eq_true, if_false]
  have fa : ∀ x ∈ a, (key x != key e) = true := by
    intro x hx
    rw [bne_iff_ne]
    exact h3 (key x) (List.mem_map_of_mem hx) (key e) (by simp)
  have fb : ∀ x ∈ b, (key x != key e) = true := by
    intro x hx
    rw [bne_iff_ne]
    intro h
    exact h2.1 (h ▸ List.mem_map_of_mem hx)
  rw [List.filter_eq_self.2 fa, List.filter_eq_self.2 fb]

theorem dictSet_new {d : List (Nat × Nat)} {t id : Nat} (h : t ∉ d.map (·.1)) : dictSet d t id = (t, id) :: d := by
  unfold dictSet
  rw [if_neg]
  intro ha
  obtain ⟨e, he, ht⟩ := List.any_eq_true.1 ha
  exact h (List.mem_map.2 ⟨e, he, by simpa using ht⟩)

open List in
theorem acquire_inv (max : Nat) (p : Pool) (t : Nat) (h : PoolInv max p) : PoolInv max (p.acquire max t).2 := by
  obtain ⟨h1, h2, h3, h4, h5, h6⟩ := h
  unfold Pool.acquire
  cases hl : p.locked.find? (·.1 == t) with
  | some e =>
    have hm : ∀ {β} (g : Nat × Nat × Nat → β), (∀ x : Nat × Nat × Nat, g (x.1, x.2.1, x.2.2 + 1) = g x) →
        (p.locked.map fun x => if x.1 = t then (x.1, x.2.1, x.2.2 + 1) else x).map g = p.locked.map g := by
      intro β g hg
      rw [List.map_map]
      apply List.map_congr_left
      intro x _
      simp only [Function.comp_apply]
      split
      · exact hg x
      · rfl
    have hi : (Pool.ids { p with locked := p.locked.map fun x => if x.1 = t then (x.1, x.2.1, x.2.2 + 1) else x }) = p.ids := by
      unfold Pool.ids
      simp only
      rw [hm (·.2.1) (fun _ => rfl)]
    dsimp only
    refine ⟨by rw [hi]; exact h1, by rw [hi]; exact h2, ?_, by rw [hi]; exact h4, h5, ?_⟩
    · rw [hm (·.1) (fun _ => rfl)]; exact h3
    · intro e he
      simp only [List.mem_map] at he
      obtain ⟨x, hx, rfl⟩ := he
      have := h6 x hx
      split
      · simp only; omega
      · exact this
  | none =>
    have hnl : t ∉ p.locked.map (·.1) := by
      intro hm
      obtain ⟨e, he, ht⟩ := List.mem_map.1 hm
      have := (List.find?_eq_none.1 hl) e he
      simp [ht] at this
    dsimp only
    cases hu : p.unlocked.find? (·.1 == t) with
    | some e =>
      obtain ⟨hem, het⟩ := find_mem hu
      have het' : e.1 = t := by simpa using het
      obtain ⟨a, b, hab, hf⟩ := filter_split p.unlocked (·.1) e (List.nodup_append.1 h3).2.1 hem
      rw [het'] at hf
      dsimp only
      rw [hf]
      have hperm : (Pool.ids { p with locked := (t, e.2, 1) :: p.locked, unlocked := a ++ b }) ~ p.ids := by
        unfold Pool.ids
        simp only [hab, List.map_cons, List.map_append]
        have : ∀ (L A B I : List Nat) (x : Nat), x :: L ++ (A ++ B) ++ I ~ L ++ (A ++ x :: B) ++ I := by
          intro L A B I x
          rw [List.perm_iff_count]
          intro c
          simp only [List.count_append, List.count_cons]
          omega
        exact this _ _ _ _ _
      refine ⟨hperm.nodup_iff.2 h1, fun id hid => h2 id (hperm.mem_iff.1 hid), ?_, by rw [hperm.length_eq]; exact h4, h5, ?_⟩
      · have hp2 : ((t, e.2, 1) :: p.locked).map (·.1) ++ (a ++ b).map (·.1) ~ p.locked.map (·.1) ++ p.unlocked.map (·.1) := by
          simp only [hab, List.map_cons, List.map_append]
          rw [List.perm_iff_count]
          intro c
          simp only [List.count_append, List.count_cons, het']
          omega
        exact hp2.nodup_iff.2 h3
      · intro x hx
        rcases List.mem_cons.1 hx with rfl | hx
        · exact Nat.le_refl _
        · exact h6 x hx
    | none =>
      have hnu : t ∉ p.unlocked.map (·.1) := by
        intro hm
        obtain ⟨e, he, ht⟩ := List.mem_map.1 hm
        have := (List.find?_eq_none.1 hu) e he
        simp [ht] at this
      have hkeys : ((t :: p.locked.map (·.1)) ++ p.unlocked.map (·.1)).Nodup := by
        rw [List.cons_append, List.nodup_cons]
        exact ⟨by simp only [List.mem_append, not_or]; exact ⟨hnl, hnu⟩, h3⟩
      have hdep : ∀ id : Nat, ∀ x ∈ (t, id, 1) :: p.locked, 1 ≤ x.2.2 := by
        intro id x hx
        rcases List.mem_cons.1 hx with rfl | hx
        · exact Nat.le_refl _
        · exact h6 x hx
      dsimp only
      cases hidl : p.idle with
      | cons id rest =>
        have hperm : (Pool.ids { p with locked := (t, id, 1) :: p.locked, idle := rest }) ~ p.ids := by
          unfold Pool.ids
          simp only [hidl, List.map_cons]
          rw [List.perm_iff_count]
          intro c
          simp only [List.count_append, List.count_cons]
          omega
        exact ⟨hperm.nodup_iff.2 h1, fun x hx => h2 x (hperm.mem_iff.1 hx), hkeys, by rw [hperm.length_eq]; exact h4, h5, hdep id⟩
      | nil =>
        dsimp only
        split
        · rename_i hlt
          have hids : (Pool.ids { p with locked := (t, p.next, 1) :: p.locked, idle := [], size := p.size + 1, next := p.next + 1 })
              = p.next :: p.ids := by
            unfold Pool.ids; simp [hidl]
          have hnx : p.next ∉ p.ids := fun hm => Nat.lt_irrefl _ (h2 _ hm)
          refine ⟨by rw [hids]; exact List.nodup_cons.2 ⟨hnx, h1⟩, ?_, hkeys, by rw [hids]; simp; exact h4, hlt, hdep _⟩
          intro x hx
          rw [hids] at hx
          rcases List.mem_cons.1 hx with rfl | hx
          · exact Nat.lt_succ_self _
          · exact Nat.lt_succ_of_lt (h2 x hx)
        · cases hun : p.unlocked with
          | nil => dsimp only; exact ⟨h1, h2, h3, h4, h5, h6⟩
          | cons e rest =>
            dsimp only
            have hperm : (Pool.ids { p with locked := (t, e.2, 1) :: p.locked, unlocked := rest, idle := [] }) ~ p.ids := by
              unfold Pool.ids
              simp only [hun, hidl, List.map_cons]
              rw [List.perm_iff_count]
              intro c
              simp only [List.count_append, List.count_cons]
              omega
            refine ⟨hperm.nodup_iff.2 h1, fun x hx => h2 x (hperm.mem_iff.1 hx), ?_, by rw [hperm.length_eq]; exact h4, h5, hdep _⟩
            have : (t :: p.locked.map (·.1)) ++ rest.map (·.1) <+ (t :: p.locked.map (·.1)) ++ p.unlocked.map (·.1) := by
              apply List.Sublist.append_left
              rw [hun, List.map_cons]
              exact List.sublist_cons_self _ _
            exact List.Nodup.sublist this hkeys

open List in
theorem unlock_inv (max : Nat) (p : Pool) (t : Nat) (h : PoolInv max p) : PoolInv max (p.unlock t) := by
  obtain ⟨h1, h2, h3, h4, h5, h6⟩ := h
  unfold Pool.unlock
  cases hl : p.locked.find? (·.1 == t) with
  | none => exact ⟨h1, h2, h3, h4, h5, h6⟩
  | some e =>
    obtain ⟨hem, het⟩ := find_mem hl
    have het' : e.1 = t := by simpa using het
    dsimp only
    split
    · obtain ⟨a, b, hab, hf⟩ := filter_split p.locked (·.1) e (List.nodup_append.1 h3).1 hem
      rw [het'] at hf
      have hnu : t ∉ p.unlocked.map (·.1) := by
        intro hm
        exact (List.nodup_append.1 h3).2.2 t (List.mem_map.2 ⟨e, hem, het'⟩) t hm rfl
      rw [hf, dictSet_new hnu]
      have hperm : (Pool.ids { p with locked := a ++ b, unlocked := (t, e.2.1) :: p.unlocked }) ~ p.ids := by
        unfold Pool.ids
        simp only [hab, List.map_cons, List.map_append]
        rw [List.perm_iff_count]
        intro c
        simp only [List.count_append, List.count_cons]
        omega
      refine ⟨hperm.nodup_iff.2 h1, fun x hx => h2 x (hperm.mem_iff.1 hx), ?_, by rw [hperm.length_eq]; exact h4, h5, ?_⟩
      · have hp2 : (a ++ b).map (·.1) ++ ((t, e.2.1) :: p.unlocked).map (·.1) ~ p.locked.map (·.1) ++ p.unlocked.map (·.1) := by
          simp only [hab, List.map_cons, List.map_append]
          rw [List.perm_iff_count]
          intro c
          simp only [List.count_append, List.count_cons, het']
          omega
        exact hp2.nodup_iff.2 h3
      · intro x hx
        exact h6 x (by rw [hab]; simp only [List.mem_append, List.mem_cons] at hx ⊢; tauto)
    · have hm : ∀ {β} (g : Nat × Nat × Nat → β), (∀ x : Nat × Nat × Nat, g (x.1, x.2.1, x.2.2 - 1) = g x) →
          (p.locked.map fun x => if x.1 = t then (x.1, x.2.1, x.2.2 - 1) else x).map g = p.locked.map g := by
        intro β g hg
        rw [List.map_map]
        apply List.map_congr_left
        intro x _
        simp only [Function.comp_apply]
        split
        · exact hg x
        · rfl
      have hi : (Pool.ids { p with locked := p.locked.map fun x => if x.1 = t then (x.1, x.2.1, x.2.2 - 1) else x }) = p.ids := by
        unfold Pool.ids
        simp only
        rw [hm (·.2.1) (fun _ => rfl)]
      rename_i hgt
      refine ⟨by rw [hi]; exact h1, by rw [hi]; exact h2, ?_, by rw [hi]; exact h4, h5, ?_⟩
      · simp only; rw [hm (·.1) (fun _ => rfl)]; exact h3
      · intro x hx
        simp only [List.mem_map] at hx
        obtain ⟨y, hy, rfl⟩ := hx
        split
        · rename_i hyt
          have : y = e := by
            have hn := (List.nodup_append.1 h3).1
            exact List.inj_on_of_nodup_map hn hy hem (by rw [hyt, het'])
          subst this
          simp only
          omega
        · exact h6 y hy

theorem PoolInv.sub (max : Nat) {p q : Pool} (h : PoolInv max p) (hi : q.ids.Sublist p.ids) (hn : q.next = p.next)
    (hk : (q.locked.map (·.1) ++ q.unlocked.map (·.1)).Sublist (p.locked.map (·.1) ++ p.unlocked.map (·.1)))
    (hsz : q.ids.length ≤ q.size) (hb : q.size ≤ max) (hd : ∀ e ∈ q.locked, e ∈ p.locked) : PoolInv max q :=
  ⟨h.nodup.sublist hi, fun id hid => hn ▸ h.fresh id (hi.subset hid), h.threads.sublist hk, hsz, hb,
    fun e he => h.depth e (hd e he)⟩

theorem eraseIdle_inv (max : Nat) (p : Pool) (id : Nat) (h : PoolInv max p) (hm : id ∈ p.idle) :
    PoolInv max { p with idle := p.idle.erase id, size := p.size - 1 } := by
  have hlen : p.idle.length ≠ 0 := by
    intro h0
    rw [List.length_eq_zero_iff] at h0
    rw [h0] at hm
    simp at hm
  apply h.sub max
  · exact List.Sublist.append_left List.erase_sublist _
  · rfl
  · exact List.Sublist.refl _
  · have := h.size
    simp only [Pool.ids, List.length_append, List.length_erase_of_mem hm] at this ⊢
    omega
  · have := h.bound
    simp only
    omega
  · exact fun e he => he

theorem release_inv (max : Nat) (p : Pool) (t id : Nat) (h : PoolInv max p) : PoolInv max (p.release t id) := by
  unfold Pool.release
  split
  · exact unlock_inv max p t h
  · cases hf : p.locked.find? (·.2.1 == id) with
    | some e => exact unlock_inv max p e.1 h
    | none =>
      dsimp only
      split
      · rename_i hm; exact eraseIdle_inv max p id h hm
      · exact h

theorem dropLocked_inv (max : Nat) (p : Pool) (t : Nat) (h : PoolInv max p) : PoolInv max (p.dropLocked t) := by
  have hs : (p.dropLocked t).ids.Sublist p.ids := by
    unfold Pool.ids Pool.dropLocked
    apply List.Sublist.append_right
    apply List.Sublist.append_right
    exact List.Sublist.map _ List.filter_sublist
  apply h.sub max hs rfl
  · apply List.Sublist.append_right
    exact List.Sublist.map _ List.filter_sublist
  · exact Nat.le_trans hs.length_le h.size
  · exact h.bound
  · exact fun e he => (List.mem_filter.1 he).1

open List in
theorem toIdle_inv (max : Nat) (p : Pool) (t : Nat) (h : PoolInv max p) : PoolInv max (p.toIdle t) := by
  obtain ⟨h1, h2, h3, h4, h5, h6⟩ := h
  unfold Pool.toIdle
  cases hl : p.unlocked.find? (·.1 == t) with
  | none => exact ⟨h1, h2, h3, h4, h5, h6⟩
  | some e =>
    obtain ⟨hem, het⟩ := find_mem hl
    have het' : e.1 = t := by simpa using het
    obtain ⟨a, b, hab, hf⟩ := filter_split p.unlocked (·.1) e (List.nodup_append.1 h3).2.1 hem
    rw [het'] at hf
    dsimp only
    rw [hf]
    have hperm : (Pool.ids { p with unlocked := a ++ b, idle := e.2 :: p.idle }) ~ p.ids := by
      unfold Pool.ids
      simp only [hab, List.map_cons, List.map_append]
      rw [List.perm_iff_count]
      intro c
      simp only [List.count_append, List.count_cons]
      omega
    refine ⟨hperm.nodup_iff.2 h1, fun x hx => h2 x (hperm.mem_iff.1 hx), ?_, by rw [hperm.length_eq]; exact h4, h5, h6⟩
    apply List.Nodup.sublist _ h3
    apply List.Sublist.append_left
    rw [hab, List.map_append, List.map_append, List.map_cons]
    exact List.Sublist.append_left (List.sublist_cons_self _ _) _

theorem dropUnlocked_inv (max : Nat) (p : Pool) (t : Nat) (h : PoolInv max p) : PoolInv max (p.dropUnlocked t) := by
  unfold Pool.dropUnlocked
  split
  · rename_i ha
    obtain ⟨e, hem, het⟩ := List.any_eq_true.1 ha
    have het' : e.1 = t := by simpa using het
    obtain ⟨a, b, hab, hf⟩ := filter_split p.unlocked (·.1) e (List.nodup_append.1 h.threads).2.1 hem
    rw [het'] at hf
    rw [hf]
    apply h.sub max
    · unfold Pool.ids
      apply List.Sublist.append_right
      apply List.Sublist.append_left
      rw [hab, List.map_append, List.map_append, List.map_cons]
      exact List.Sublist.append_left (List.sublist_cons_self _ _) _
    · rfl
    · apply List.Sublist.append_left
      rw [hab, List.map_append, List.map_append, List.map_cons]
      exact List.Sublist.append_left (List.sublist_cons_self _ _) _
    · have := h.size
      simp only [Pool.ids, hab, List.length_append, List.length_map, List.length_cons] at this ⊢
      omega
    · have := h.bound
      simp only
      omega
    · exact fun e he => he
  · exact h

theorem poolStep_inv (max : Nat) (p : Pool) (o : PoolOp) (h : PoolInv max p) : PoolInv max (poolStep max p o) := by
  cases o with
  | acquire t => exact acquire_inv max p t h
  | release t id => exact release_inv max p t id h
  | dropLocked t => exact dropLocked_inv max p t h
  | toIdle t => exact toIdle_inv max p t h
  | dropUnlocked t => exact dropUnlocked_inv max p t h
  | dropIdle id =>
    unfold poolStep Pool.dropIdle
    dsimp only
    split
    · rename_i hm; exact eraseIdle_inv max p id h hm
    · exact h

theorem poolRun_inv (max : Nat) (ops : List PoolOp) : PoolInv max (poolRun max ops) := by
  have : ∀ (ops : List PoolOp) p, PoolInv max p → PoolInv max (ops.foldl (poolStep max) p) := by
    intro ops
    induction ops with
    | nil => intro p h; exact h
    | cons o ops ih => intro p h; exact ih _ (poolStep_inv max p o h)
  exact this ops _ ⟨by simp [Pool.ids, Pool.empty], by simp [Pool.ids, Pool.empty], by simp [Pool.empty],
    by simp [Pool.ids, Pool.empty], Nat.zero_le _, by simp [Pool.empty]⟩

/-! ### Theorems -/

/-- C102: whatever the threads and the cleaner do, in any order, no connection is held by two threads, and no
thread holds two. -/
theorem C102_exclusive (max : Nat) (ops : List PoolOp) (t t' id id' : Nat)
    (h : (poolRun max ops).holds t id) (h' : (poolRun max ops).holds t' id') : t = t' ↔ id = id' := by
  have hi := poolRun_inv max ops
  generalize poolRun max ops = p at h h' hi
  obtain ⟨n, hn⟩ := h
  obtain ⟨n', hn'⟩ := h'
  have hk := (List.nodup_append.1 hi.threads).1
  have hid : (p.locked.map (·.2.1)).Nodup := by
    have := hi.nodup
    unfold Pool.ids at this
    exact (List.nodup_append.1 (List.nodup_append.1 this).1).1
  constructor
  · intro e
    have := List.inj_on_of_nodup_map hk hn hn' e
    simp only [Prod.mk.injEq] at this
    exact this.2.1
  · intro e
    have := List.inj_on_of_nodup_map hid hn hn' e
    simp only [Prod.mk.injEq] at this
    exact this.1

/-- C102: a connection that a thread holds is not given to another thread: it is neither idle nor waiting to
be used again. -/
theorem C102_held (max : Nat) (ops : List PoolOp) (t id : Nat) (h : (poolRun max ops).holds t id) :
    id ∉ (poolRun max ops).idle ∧ ∀ e ∈ (poolRun max ops).unlocked, e.2 ≠ id := by
  have hi := (poolRun_inv max ops).nodup
  generalize poolRun max ops = p at h hi
  obtain ⟨n, hn⟩ := h
  unfold Pool.ids at hi
  have hm : id ∈ p.locked.map (·.2.1) := List.mem_map.2 ⟨_, hn, rfl⟩
  obtain ⟨h1, _, h3⟩ := List.nodup_append.1 hi
  refine ⟨fun hc => h3 id (List.mem_append_left _ hm) id hc rfl, fun e he hx => ?_⟩
  exact (List.nodup_append.1 h1).2.2 id hm e.2 (List.mem_map.2 ⟨e, he, rfl⟩) hx.symm

/-- C102: there are never more connections than allowed. -/
theorem C102_bound (max : Nat) (ops : List PoolOp) : (poolRun max ops).ids.length ≤ max :=
  Nat.le_trans (poolRun_inv max ops).size (poolRun_inv max ops).bound

/-- How often the thread has locked its connection. -/
def Pool.depth (p : Pool) (t : Nat) : Nat :=
  match p.locked.find? (·.1 == t) with
  | some e => e.2.2
  | none => 0

theorem find_map_key (L : List (Nat × Nat × Nat)) (t t' : Nat) (f : Nat → Nat) :
    (L.map fun x => if x.1 = t then (x.1, x.2.1, f x.2.2) else x).find? (·.1 == t') =
      (L.find? (·.1 == t')).map fun x => if x.1 = t then (x.1, x.2.1, f x.2.2) else x := by
  induction L with
  | nil => rfl
  | cons a L ih =>
    simp only [List.map_cons, List.find?_cons]
    by_cases h : a.1 = t
    · simp only [h, if_true]
      by_cases h2 : t = t'
      · subst h2; simp [h]
      · simp [beq_eq_false_iff_ne.2 h2, ih]
    · simp only [h, if_false]
      by_cases h2 : a.1 = t'
      · simp [h2, show ¬ t' = t from fun e => h (h2.trans e)]
      · simp [beq_eq_false_iff_ne.2 h2, ih]

theorem find_filter_key (L : List (Nat × Nat × Nat)) (t t' : Nat) :
    (L.filter (·.1 != t)).find? (·.1 == t') = if t = t' then none else L.find? (·.1 == t') := by
  induction L with
  | nil => simp
  | cons a L ih =>
    rw [List.filter_cons]
    by_cases h : a.1 = t
    · simp only [h, bne_self_eq_false, Bool.false_eq_true, if_false, ih, List.find?_cons]
      by_cases h2 : t = t'
      · simp [h2]
      · simp [h2, beq_eq_false_iff_ne.2 h2]
    · simp only [bne_iff_ne.2 h, if_true, List.find?_cons, ih]
      by_cases h2 : a.1 = t'
      · simp [h2, show ¬ t = t' from fun e => h (h2.trans e.symm)]
      · simp [beq_eq_false_iff_ne.2 h2]

/-- C102: locks are counted for each thread: acquiring adds one to the depth of the thread that gets a
connection, releasing the connection that it holds takes one away, and nothing else a thread does changes
the depth of another thread. -/
theorem C102_depth (max : Nat) (p : Pool) (t t' id : Nat) :
    ((p.acquire max t).2.depth t' = if t' = t ∧ (p.acquire max t).1.isSome then p.depth t' + 1 else p.depth t') ∧
    (p.holds t id → (p.release t id).depth t' = if t' = t then p.depth t' - 1 else p.depth t') := by
  have hcons : ∀ (q : Pool) (i n : Nat), q.locked = (t, i, n) :: p.locked → q.depth t' = if t' = t then n else p.depth t' := by
    intro q i n hq
    unfold Pool.depth
    rw [hq, List.find?_cons]
    by_cases h : t' = t
    · subst h; simp
    · simp [h, beq_eq_false_iff_ne.2 (show t ≠ t' from fun e => h e.symm)]
  constructor
  · unfold Pool.acquire
    cases hl : p.locked.find? (·.1 == t) with
    | some e =>
      simp only [Option.isSome_some, and_true]
      unfold Pool.depth
      simp only
      rw [find_map_key p.locked t t' (· + 1)]
      by_cases h : t' = t
      · subst h
        have := (find_mem hl).2
        have het : e.1 = t' := by simpa using this
        simp [hl, het]
      · simp only [h, if_false]
        cases hl' : p.locked.find? (·.1 == t') with
        | none => rfl
        | some e' =>
          have : e'.1 = t' := by simpa using (find_mem hl').2
          have hne : ¬ e'.1 = t := fun he => h (this.symm.trans he)
          simp [hne]
    | none =>
      have hd0 : p.depth t = 0 := by unfold Pool.depth; rw [hl]
      have hgen : ∀ (q : Pool) (i : Nat), q.locked = (t, i, 1) :: p.locked →
          q.depth t' = if t' = t ∧ True then p.depth t' + 1 else p.depth t' := by
        intro q i hq
        rw [hcons q i 1 hq]
        by_cases h : t' = t
        · subst h; simp [hd0]
        · simp [h]
      dsimp only
      split
      · simpa using hgen _ _ rfl
      · split
        · simpa using hgen _ _ rfl
        · split
          · simpa using hgen _ _ rfl
          · split
            · simpa using hgen _ _ rfl
            · simp
  · rintro ⟨n, hn⟩
    unfold Pool.release
    rw [if_pos (List.any_eq_true.2 ⟨_, hn, by simp⟩)]
    unfold Pool.unlock
    cases hl : p.locked.find? (·.1 == t) with
    | none =>
      have := (List.find?_eq_none.1 hl) _ hn
      simp at this
    | some e =>
      have het : e.1 = t := by simpa using (find_mem hl).2
      dsimp only
      split
      · rename_i hle
        unfold Pool.depth
        simp only
        rw [find_filter_key]
        by_cases h : t' = t
        · subst h
          simp only [if_true, hl]
          omega
        · simp [h, show ¬ t = t' from fun e => h e.symm]
      · unfold Pool.depth
        simp only
        rw [find_map_key p.locked t t' (· - 1)]
        by_cases h : t' = t
        · subst h
          simp [hl, het]
        · simp only [h, if_false]
          cases hl' : p.locked.find? (·.1 == t') with
          | none => rfl
          | some e' =>
            have : e'.1 = t' := by simpa using (find_mem hl').2
            have hne : ¬ e'.1 = t := fun he => h (this.symm.trans he)
            simp [hne]

/-- C102: a thread that acquires again gets the connection it holds. -/
theorem C102_same (max : Nat) (ops : List PoolOp) (t id : Nat) (h : (poolRun max ops).holds t id) :
    ((poolRun max ops).acquire max t).1 = some id := by
  have hi := poolRun_inv max ops
  generalize poolRun max ops = p at h hi
  obtain ⟨n, hn⟩ := h
  unfold Pool.acquire
  cases hl : p.locked.find? (·.1 == t) with
  | none =>
    have := (List.find?_eq_none.1 hl) _ hn
    simp at this
  | some e =>
    have het : e.1 = t := by simpa using (find_mem hl).2
    have := List.inj_on_of_nodup_map (List.nodup_append.1 hi.threads).1 (find_mem hl).1 hn het
    rw [this]

/-- The number of connections is known exactly as long as no thread ends with a connection. -/
theorem size_exact (max : Nat) (ops : List PoolOp) (h : ∀ t, PoolOp.dropLocked t ∉ ops) :
    (poolRun max ops).size = (poolRun max ops).ids.length := by
  have step : ∀ p o, PoolInv max p → (∀ t, o ≠ .dropLocked t) → p.size = p.ids.length →
      (poolStep max p o).size = (poolStep max p o).ids.length := by
    intro p o hi ho hs
    have hun : ∀ t, (p.unlock t).size = (p.unlock t).ids.length := by
      intro t
      unfold Pool.unlock
      cases hl : p.locked.find? (·.1 == t) with
      | none => exact hs
      | some e =>
        obtain ⟨hem, het⟩ := find_mem hl
        have het' : e.1 = t := by simpa using het
        dsimp only
        split
        · obtain ⟨a, b, hab, hf⟩ := filter_split p.locked (·.1) e (List.nodup_append.1 hi.threads).1 hem
          rw [het'] at hf
          have hnu : t ∉ p.unlocked.map (·.1) := by
            intro hm
            exact (List.nodup_append.1 hi.threads).2.2 t (List.mem_map.2 ⟨e, hem, het'⟩) t hm rfl
          rw [hf, dictSet_new hnu]
          simp only [Pool.ids, hab, List.length_append, List.length_map, List.length_cons] at hs ⊢
          omega
        · simpa [Pool.ids] using hs
    have her : ∀ id, id ∈ p.idle → ({ p with idle := p.idle.erase id, size := p.size - 1 } : Pool).size =
        ({ p with idle := p.idle.erase id, size := p.size - 1 } : Pool).ids.length := by
      intro id hm
      have hpos : 0 < p.idle.length := List.length_pos_of_mem hm
      simp only [Pool.ids, List.length_append, List.length_erase_of_mem hm] at hs ⊢
      omega
    cases o with
    | acquire t =>
      unfold poolStep Pool.acquire
      dsimp only
      cases hl : p.locked.find? (·.1 == t) with
      | some e => simpa [Pool.ids] using hs
      | none =>
        dsimp only
        cases hu : p.unlocked.find? (·.1 == t) with
        | some e =>
          obtain ⟨hem, het⟩ := find_mem hu
          have het' : e.1 = t := by simpa using het
          obtain ⟨a, b, hab, hf⟩ := filter_split p.unlocked (·.1) e (List.nodup_append.1 hi.threads).2.1 hem
          rw [het'] at hf
          dsimp only
          rw [hf]
          simp only [Pool.ids, hab, List.length_append, List.length_map, List.length_cons] at hs ⊢
          omega
        | none =>
          dsimp only
          cases hidl : p.idle with
          | cons id rest =>
            simp only [Pool.ids, hidl, List.length_append, List.length_map, List.length_cons] at hs ⊢
            omega
          | nil =>
            dsimp only
            split
            · simp only [Pool.ids, hidl, List.length_append, List.length_map, List.length_cons] at hs ⊢
              omega
            · cases hun : p.unlocked with
              | nil => exact hs
              | cons e rest =>
                simp only [Pool.ids, hun, hidl, List.length_append, List.length_map, List.length_cons] at hs ⊢
                omega
    | release t id =>
      unfold poolStep Pool.release
      dsimp only
      split
      · exact hun t
      · split
        · exact hun _
        · split
          · rename_i hm; exact her id hm
          · exact hs
    | dropLocked t => exact absurd rfl (ho t)
    | toIdle t =>
      unfold poolStep Pool.toIdle
      dsimp only
      cases hu : p.unlocked.find? (·.1 == t) with
      | none => exact hs
      | some e =>
        obtain ⟨hem, het⟩ := find_mem hu
        have het' : e.1 = t := by simpa using het
        obtain ⟨a, b, hab, hf⟩ := filter_split p.unlocked (·.1) e (List.nodup_append.1 hi.threads).2.1 hem
        rw [het'] at hf
        dsimp only
        rw [hf]
        simp only [Pool.ids, hab, List.length_append, List.length_map, List.length_cons] at hs ⊢
        omega
    | dropUnlocked t =>
      unfold poolStep Pool.dropUnlocked
      dsimp only
      split
      · rename_i ha
        obtain ⟨e, hem, het⟩ := List.any_eq_true.1 ha
        have het' : e.1 = t := by simpa using het
        obtain ⟨a, b, hab, hf⟩ := filter_split p.unlocked (·.1) e (List.nodup_append.1 hi.threads).2.1 hem
        rw [het'] at hf
        rw [hf]
        simp only [Pool.ids, hab, List.length_append, List.length_map, List.length_cons] at hs ⊢
        omega
      · exact hs
    | dropIdle id =>
      unfold poolStep Pool.dropIdle
      dsimp only
      split
      · rename_i hm; exact her id hm
      · exact hs
  have : ∀ (ops : List PoolOp) p, (∀ t, PoolOp.dropLocked t ∉ ops) → PoolInv max p → p.size = p.ids.length →
      (ops.foldl (poolStep max) p).size = (ops.foldl (poolStep max) p).ids.length := by
    intro ops
    induction ops with
    | nil => intro p _ _ hs; exact hs
    | cons o ops ih =>
      intro p ho hi hs
      refine ih _ (fun t hm => ho t (List.mem_cons_of_mem _ hm)) (poolStep_inv max p o hi) (step p o hi ?_ hs)
      intro t e
      exact ho t (by rw [e]; exact List.mem_cons_self)
  exact this ops _ h (poolRun_inv max []) rfl

/-- C102: a thread waits only when all the connections allowed are held by other threads (as long as no
thread ends with a connection; see the violation below). -/
theorem C102_wait_partial (max : Nat) (ops : List PoolOp) (h : ∀ t, PoolOp.dropLocked t ∉ ops) (t : Nat)
    (hw : ((poolRun max ops).acquire max t).1 = none) :
    (poolRun max ops).locked.length = max ∧ ∀ id, ¬ (poolRun max ops).holds t id := by
  have hs := size_exact max ops h
  have hb := (poolRun_inv max ops).bound
  generalize poolRun max ops = p at hw hs hb
  unfold Pool.acquire at hw
  cases hl : p.locked.find? (·.1 == t) with
  | some e => rw [hl] at hw; simp at hw
  | none =>
    rw [hl] at hw
    dsimp only at hw
    cases hu : p.unlocked.find? (·.1 == t) with
    | some e => rw [hu] at hw; simp at hw
    | none =>
      rw [hu] at hw
      dsimp only at hw
      cases hidl : p.idle with
      | cons id rest => rw [hidl] at hw; simp at hw
      | nil =>
        rw [hidl] at hw
        dsimp only at hw
        split at hw
        · simp at hw
        · cases hun : p.unlocked with
          | cons e rest => rw [hun] at hw; simp at hw
          | nil =>
            refine ⟨?_, ?_⟩
            · simp only [Pool.ids, hun, hidl, List.map_nil, List.append_nil, List.length_map] at hs
              omega
            · rintro id ⟨n, hn⟩
              have := (List.find?_eq_none.1 hl) _ hn
              simp at this

/-- C102 is violated when a thread ends with a connection: the connection is closed, but it is still
counted, so that, in the end, a thread waits for ever although no connection is in use. -/
theorem C102_violation_leak :
    (poolRun 1 [.acquire 7, .dropLocked 7]).ids = [] ∧
    ((poolRun 1 [.acquire 7, .dropLocked 7]).acquire 1 8).1 = none := by decide +kernel

example : ((poolRun 2 [.acquire 7, .acquire 7, .acquire 8, .release 7 0]).acquire 2 9).1 = none := by decide +kernel
example : ((poolRun 2 [.acquire 7, .acquire 7, .acquire 8, .release 7 0, .release 7 0]).acquire 2 9).1 = some 0 := by
  decide +kernel
example : (poolRun 2 [.acquire 7, .acquire 7, .acquire 8, .release 7 0]).holds 7 0 := ⟨1, by decide +kernel⟩

end Verif.Sql

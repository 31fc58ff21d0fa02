/-!
# Model of `StreamStore`, `pyslet/blockstore.py:391-623`: C32

The state shared by all processes: the block entities of all streams, the block store and the lock store.  Any number of
threads run `store_block`, `update_block` and `delete_blocks`; every access to the shared state is one atomic action, the
actions of different threads interleave in any order, and a thread may crash between any two of its actions.

Simplifications.  A block entity has an identifier and a hash (its stream and its number play no role in what is kept).
The lock store is used through what C33 proves of it: a lock is held by one thread at a time; a lock of a thread that
crashed expires at some time; a thread waiting for a lock may give up with LockError (blockstore.py:341-344).  That a
thread that runs keeps its lock is the assumption that it finishes within `lock_timeout`.  `bs.store` is that of
`FileBlockStore` (blockstore.py:146-169): first it looks for the block, then it moves a complete temporary file into place
(a crash before that leaves a temporary file, which is not a block).
-/
namespace Verif.Blocks.Store

abbrev Bytes := List Nat

/-- What a thread does next.  In the constructors `id` is the key of the block entity, `old` the hash that the caller's
copy of the entity has, `d` the data. -/
inductive Pc where
  | idle
  | dead
  /-- `store_block`: blockstore.py:558, the entity is inserted, about to lock the hash -/
  | sLock (id : Nat) (d : Bytes)
  /-- 559, 151-155: has the lock, about to look for the block -/
  | sCheck (id : Nat) (d : Bytes)
  /-- 559, 168: about to move the block into place -/
  | sMove (id : Nat) (d : Bytes)
  /-- 558 (exit), about to unlock -/
  | sUnlock (id : Nat) (d : Bytes)
  /-- `update_block`: 573, about to lock the old hash -/
  | uLock (id old : Nat) (d : Bytes)
  /-- 574, about to lock the new hash -/
  | uLock2 (id old : Nat) (d : Bytes)
  /-- 575, 151-155 -/
  | uCheck (id old : Nat) (d : Bytes)
  /-- 575, 168 -/
  | uMove (id old : Nat) (d : Bytes)
  /-- 576-577, about to update the entity -/
  | uEntity (id old : Nat) (d : Bytes)
  /-- 579-581, about to count the entities with the old hash -/
  | uCount (id old : Nat) (d : Bytes)
  /-- 583, about to delete the old block -/
  | uDelete (id old : Nat) (d : Bytes)
  /-- 574 (exit), about to unlock the new hash -/
  | uUnlock2 (id old : Nat) (d : Bytes)
  /-- 573 (exit), about to unlock the old hash -/
  | uUnlock (id old : Nat)
  /-- `delete_blocks`, for one block: 607, about to lock its hash -/
  | dLock (id old : Nat)
  /-- 608, about to delete the entity -/
  | dEntity (id old : Nat)
  /-- 610-612, about to count -/
  | dCount (id old : Nat)
  /-- 614, about to delete the block -/
  | dDelete (id old : Nat)
  /-- 607 (exit) -/
  | dUnlock (id old : Nat)
  deriving DecidableEq, Repr

/-- The shared state and the threads. -/
structure State where
  /-- the block entities: key and hash -/
  refs : List (Nat × Nat)
  /-- the block store -/
  data : Nat → Option Bytes
  /-- the lock store: who holds the lock of a hash -/
  locks : Nat → Option Nat
  pc : Nat → Pc
  /-- For the specification only: `stored id h` is true when a `bs.store` for the entity `id` with hash `h` was completed
  after the entity was last inserted. -/
  stored : Nat → Nat → Bool

/-- The hash function and the maximum size of a block, blockstore.py:74-84. -/
structure Cfg where
  hash : Bytes → Nat
  maxSize : Nat

inductive Action where
  /-- thread `t` calls `store_block` with `d`; the new entity gets the key `id` -/
  | store (t id : Nat) (d : Bytes)
  /-- thread `t` calls `update_block` with `d` and an entity that has key `id` and hash `old` -/
  | update (t id old : Nat) (d : Bytes)
  /-- thread `t` begins the iteration of `delete_blocks` for an entity with key `id` and hash `old` -/
  | delete (t id old : Nat)
  /-- thread `t` does its next action -/
  | act (t : Nat)
  /-- thread `t` gets LockError -/
  | giveUp (t : Nat)
  | crash (t : Nat)
  /-- the lock of a dead thread expires -/
  | expire (h : Nat)
  deriving DecidableEq, Repr

def init : State := { refs := [], data := fun _ => none, locks := fun _ => none, pc := fun _ => .idle, stored := fun _ _ => false }

def State.setPc (s : State) (t : Nat) (p : Pc) : State := { s with pc := fun x => if x = t then p else s.pc x }

/-- `LockStore.lock` when the lock is free. -/
def State.lock (s : State) (h t : Nat) : State := { s with locks := fun x => if x = h then some t else s.locks x }

/-- `LockStore.unlock`. -/
def State.unlock (s : State) (h : Nat) : State := { s with locks := fun x => if x = h then none else s.locks x }

/-- `tmp_path.move(path)` or the insertion of a block, blockstore.py:168, 215-221. -/
def State.put (s : State) (h : Nat) (d : Bytes) : State := { s with data := fun x => if x = h then some d else s.data x }

/-- `bs.delete`, blockstore.py:180-187. -/
def State.del (s : State) (h : Nat) : State := { s with data := fun x => if x = h then none else s.data x }

/-- Specification only: `bs.store` completed for `id` with hash `h`. -/
def State.mark (s : State) (id h : Nat) : State :=
  { s with stored := fun i k => if i = id ∧ k = h then true else s.stored i k }

/-- `insert_entity`, blockstore.py:556; the entity is new, nothing is stored for it yet. -/
def State.insert (s : State) (id h : Nat) : State :=
  { s with refs := (id, h) :: s.refs, stored := fun i k => if i = id ∧ k = h then false else s.stored i k }

/-- `update_entity`, blockstore.py:577. -/
def State.updateRef (s : State) (id h : Nat) : State :=
  { s with refs := s.refs.map fun r => if r.1 = id then (id, h) else r }

/-- `del base_coll[block.key()]`, blockstore.py:608. -/
def State.deleteRef (s : State) (id : Nat) : State := { s with refs := s.refs.filter fun r => r.1 ≠ id }

/-- `len(base_coll)` of the entities filtered by `hash eq h` is not zero, blockstore.py:579-581, 610-612. -/
def State.used (s : State) (h : Nat) : Bool := s.refs.any fun r => r.2 == h

/-- There is an entity with that key. -/
def State.has (s : State) (id : Nat) : Bool := s.refs.any fun r => r.1 == id

/-- The next action of thread `t`. -/
def act (cfg : Cfg) (s : State) (t : Nat) : Option State :=
  match s.pc t with
  | .idle => none
  | .dead => none
  | .sLock id d => if s.locks (cfg.hash d) = none then some ((s.lock (cfg.hash d) t).setPc t (.sCheck id d)) else none
  | .sCheck id d =>
    if (s.data (cfg.hash d)).isSome then some ((s.mark id (cfg.hash d)).setPc t (.sUnlock id d))
    else if d.length > cfg.maxSize then some (s.setPc t (.sUnlock id d)) -- BlockSize
    else some (s.setPc t (.sMove id d))
  | .sMove id d => some (((s.put (cfg.hash d) d).mark id (cfg.hash d)).setPc t (.sUnlock id d))
  | .sUnlock _ d => some ((s.unlock (cfg.hash d)).setPc t .idle)
  | .uLock id old d => if s.locks old = none then some ((s.lock old t).setPc t (.uLock2 id old d)) else none
  | .uLock2 id old d =>
    if s.locks (cfg.hash d) = none then some ((s.lock (cfg.hash d) t).setPc t (.uCheck id old d)) else none
  | .uCheck id old d =>
    if (s.data (cfg.hash d)).isSome then some (s.setPc t (.uEntity id old d))
    else if d.length > cfg.maxSize then some (s.setPc t (.uUnlock2 id old d)) -- BlockSize
    else some (s.setPc t (.uMove id old d))
  | .uMove id old d => some ((s.put (cfg.hash d) d).setPc t (.uEntity id old d))
  | .uEntity id old d =>
    if s.has id then some (((s.updateRef id (cfg.hash d)).mark id (cfg.hash d)).setPc t (.uCount id old d))
    else some (s.setPc t (.uUnlock2 id old d)) -- KeyError
  | .uCount id old d => if s.used old then some (s.setPc t (.uUnlock2 id old d)) else some (s.setPc t (.uDelete id old d))
  | .uDelete id old d => some ((s.del old).setPc t (.uUnlock2 id old d))
  | .uUnlock2 id old d => some ((s.unlock (cfg.hash d)).setPc t (.uUnlock id old))
  | .uUnlock _ old => some ((s.unlock old).setPc t .idle)
  | .dLock id old => if s.locks old = none then some ((s.lock old t).setPc t (.dEntity id old)) else none
  | .dEntity id old =>
    if s.has id then some ((s.deleteRef id).setPc t (.dCount id old))
    else some (s.setPc t (.dUnlock id old)) -- KeyError
  | .dCount id old => if s.used old then some (s.setPc t (.dUnlock id old)) else some (s.setPc t (.dDelete id old))
  | .dDelete id old => some ((s.del old).setPc t (.dUnlock id old))
  | .dUnlock _ old => some ((s.unlock old).setPc t .idle)

/-- One action; `none` if it is not possible. -/
def step (cfg : Cfg) (s : State) : Action → Option State
  -- blockstore.py:550-556
  | .store t id d =>
    if s.pc t = .idle ∧ s.has id = false then some ((s.insert id (cfg.hash d)).setPc t (.sLock id d)) else none
  -- blockstore.py:562-566
  | .update t id old d =>
    if s.pc t = .idle then if cfg.hash d = old then some s else some (s.setPc t (.uLock id old d)) else none
  -- blockstore.py:603-607
  | .delete t id old => if s.pc t = .idle then some (s.setPc t (.dLock id old)) else none
  | .act t => act cfg s t
  -- blockstore.py:341-344; the exits of the enclosing `with` run
  | .giveUp t =>
    match s.pc t with
    | .sLock _ _ => some (s.setPc t .idle)
    | .uLock _ _ _ => some (s.setPc t .idle)
    | .uLock2 id old _ => some (s.setPc t (.uUnlock id old))
    | .dLock _ _ => some (s.setPc t .idle)
    | _ => none
  | .crash t => some (s.setPc t .dead)
  -- blockstore.py:321-334
  | .expire h =>
    match s.locks h with
    | none => none
    | some t => if s.pc t = .dead then some (s.unlock h) else none

def run (cfg : Cfg) : State → List Action → Option State
  | s, [] => some s
  | s, a :: as => (step cfg s a).bind fun s' => run cfg s' as

end Verif.Blocks.Store

import Mathlib.Data.List.Nodup
import Mathlib.Data.List.Perm.Basic
import Mathlib.Tactic.ByContra
/-!
# Model of the pool of connections of an HTTP client, `pyslet/http/client.py:1034-1552`

Every method changes the tables with `managerLock` held: it is one step.  Connections are numbered by `_nextid`; threads and
targets (scheme, host and port) are numbers.  A method that would raise KeyError gives `none`.
-/
namespace Verif.Cli

/-- What the pool knows about a connection: `target_key()`, `thread_id`, `last_active`, client.py:128-190. -/
structure Conn where
  target : Nat
  thread : Option Nat
  last : Nat

/-- A request in `queue_request`: its thread, target and the request itself. -/
structure Job where
  thread : Nat
  target : Nat
  req : Nat
  deriving DecidableEq, Repr

/-- `Client`, client.py:1116-1157.  The dictionary `cActiveThreads` of dictionaries is the list of its pairs (thread, connection),
`cIdleTargets` that of its pairs (target, connection): an inner dictionary which is empty is not kept apart from one that is
missing (`active_cleanup` leaves empty ones, which no method tells from missing ones). -/
structure Pool where
  /-- max_connections -/
  max : Nat
  /-- nextId -/
  next : Nat
  conn : Nat → Conn
  /-- cActiveThreadTargets -/
  active : List ((Nat × Nat) × Nat)
  /-- cActiveThreads -/
  threads : List (Nat × Nat)
  /-- cIdleList -/
  idle : List Nat
  /-- cIdleTargets -/
  idleT : List (Nat × Nat)
  closing : Bool
  /-- the connections `close` or `kill` has been called for by the pool -/
  closed : List Nat
  /-- the calls of `connection.queue_request`: connection and request -/
  queued : List (Nat × Job)
  /-- the requests in `managerLock.wait` which have not been notified, and those which have but do not yet hold the lock -/
  waiting : List Job
  woken : List Job

/-- A new client. -/
def Pool.init (max : Nat) : Pool := ⟨max, 1, fun _ => ⟨0, none, 0⟩, [], [], [], [], false, [], [], [], []⟩

/-- `d[k] = v`. -/
def dictPut (l : List ((Nat × Nat) × Nat)) (k : Nat × Nat) (v : Nat) : List ((Nat × Nat) × Nat) :=
  if l.any (·.1 == k) then l.map fun e => if e.1 == k then (k, v) else e else l ++ [(k, v)]

/-- `d[k]` as an entry of a set of keys. -/
def addKey {α : Type} [BEq α] (l : List α) (k : α) : List α := if l.contains k then l else l ++ [k]

/-- `notify(n)`. -/
def Pool.notify (p : Pool) (n : Nat) : Pool := { p with waiting := p.waiting.drop n, woken := p.woken ++ p.waiting.take n }

def setConn (f : Nat → Conn) (i : Nat) (c : Conn) : Nat → Conn := fun j => if j = i then c else f j

/-- `_activate_connection`, client.py:1320-1335. -/
def activate (p : Pool) (c t : Nat) : Option Pool :=
  let g := (p.conn c).target
  let p := { p with
    conn := setConn p.conn c { p.conn c with thread := some t }
    active := dictPut p.active (t, g) c
    threads := addKey p.threads (t, c) }
  if p.idle.contains c then
    if p.idleT.contains (g, c) then some { p with idle := p.idle.filter (· != c), idleT := p.idleT.filter (· != (g, c)) }
    else none
  else some p

/-- `thread_target_key()`: the thread is None before `_activate_connection`, which is no key of the table. -/
def Pool.key (p : Pool) (c : Nat) : Option (Nat × Nat) := (p.conn c).thread.map fun t => (t, (p.conn c).target)

/-- Is it a key of `cActiveThreadTargets`? -/
def Pool.hasKey (p : Pool) (k : Option (Nat × Nat)) : Bool := p.active.any fun e => some e.1 == k

/-- Taking a connection out of the table of its thread, and `connection.thread_id = None`, client.py:1354-1360, 1372-1378. -/
def leave (p : Pool) (c : Nat) : Pool :=
  { p with
    threads := p.threads.filter fun e => !(some e.1 == (p.conn c).thread && e.2 == c)
    conn := setConn p.conn c { p.conn c with thread := none } }

/-- `_deactivate_connection`, client.py:1337-1360. -/
def deactivate (p : Pool) (c : Nat) : Pool :=
  let k := p.key c
  let p' := if p.hasKey k then
      ({ p with
        active := p.active.filter fun e => some e.1 != k
        idle := addKey p.idle c
        idleT := addKey p.idleT ((p.conn c).target, c) } : Pool).notify 1
    else p
  leave p' c

/-- `_upgrade_connection`, client.py:1362-1378. -/
def upgrade (p : Pool) (c : Nat) : Pool :=
  leave { p with active := p.active.filter fun e => some e.1 != p.key c } c

/-- `_delete_idle_connection`, client.py:1380-1387. -/
def deleteIdle (p : Pool) (c : Nat) : Option Pool :=
  if p.idle.contains c then
    if p.idleT.contains ((p.conn c).target, c) then
      some { p with
        idle := p.idle.filter (· != c)
        idleT := p.idleT.filter (· != ((p.conn c).target, c))
        closed := p.closed ++ [c] }
    else none
  else some p

/-- `sort()` of connections: by `last_active`. -/
def sorted (p : Pool) (l : List Nat) : List Nat := l.mergeSort fun a b => decide ((p.conn a).last ≤ (p.conn b).last)

/-- `_new_connection`, client.py:1396-1408. -/
def newConn (p : Pool) (g : Nat) : Pool := { p with next := p.next + 1, conn := setConn p.conn p.next ⟨g, none, 0⟩ }

/-- The loop of `queue_request`, client.py:1259-1301, up to a connection or the need to wait (`none`).  `fuel` bounds the number
of idle connections deleted. -/
def seek (t g : Nat) : Nat → Pool → Option (Pool × Option Nat)
  | 0, _ => none
  | fuel + 1, p =>
    match p.active.find? (·.1 == (t, g)) with
    | some e => some (p, some e.2)
    | none => match (sorted p ((p.idleT.filter (·.1 == g)).map (·.2))).getLast? with
      | some c => (activate p c t).map fun p' => (p', some c)
      | none =>
        if p.active.length + p.idle.length < p.max then (activate (newConn p g) p.next t).map fun p' => (p', some p.next)
        else match (sorted p p.idle).head? with
          | some c => match deleteIdle p c with
            | some p' => seek t g fuel p'
            | none => none
          | none => some (p, none)

/-- The loop: there are at most as many turns as idle connections, and one more. -/
def acquire (p : Pool) (t g : Nat) : Option (Pool × Option Nat) := seek t g (p.idle.length + 1) p

/-- What happens to the tables, whoever does it: `request j wait` is `queue_request` up to its end or the first wait (with
`wait = false` for a timeout of 0); `resume` is a thread that has been notified; `timeout` a wait that ends by itself; `giveUp` is
RequestManagerBusy after it; `touch` is `connection_task` (client.py:238); `release` and `upgrade` are the end of the work of the
thread of a connection. -/
inductive Ev where
  | request (j : Job) (wait : Bool)
  | resume (j : Job)
  | timeout (j : Job)
  | giveUp (j : Job)
  | touch (c now : Nat)
  | release (c : Nat)
  | upgrade (c : Nat)
  | idleCleanup (now inactive : Nat)
  | activeCleanup (now inactive : Nat)
  | closing

/-- One step of the loop of `idle_cleanup`, client.py:1492-1505. -/
def idleStep (now inactive : Nat) (p : Pool) (c : Nat) : Option Pool :=
  if (p.conn c).last + inactive < now then deleteIdle p c else some p

/-- One step of the loop of `active_cleanup`, client.py:1523-1531, 1539-1540. -/
def activeStep (now inactive : Nat) (p : Pool) (e : Nat × Nat) : Option Pool :=
  if (p.conn e.2).last + inactive < now then
    if p.hasKey (p.key e.2) then some { p with
      threads := p.threads.filter (· != e)
      active := p.active.filter fun x => some x.1 != p.key e.2
      closed := p.closed ++ [e.2] }
    else none
  else some p

/-- The end of `queue_request`, client.py:1305-1306. -/
def Pool.enqueue (p : Pool) (c : Nat) (j : Job) : Pool := { p with queued := p.queued ++ [(c, j)] }

/-- One step. -/
def step (p : Pool) : Ev → Option Pool
  | .request j wait =>
    -- client.py:1256-1258: ConnectionClosed
    if p.closing then some p
    else match acquire p j.thread j.target with
      | none => none
      | some (p', some c) => some (p'.enqueue c j)
      | some (p', none) => some (if wait then { p' with waiting := p'.waiting ++ [j] } else p')
  | .resume j => match acquire { p with woken := p.woken.erase j } j.thread j.target with
    | none => none
    | some (p', some c) => some (p'.enqueue c j)
    | some (p', none) => some { p' with waiting := p'.waiting ++ [j] }
  | .timeout j => some { p with waiting := p.waiting.erase j, woken := p.woken ++ [j] }
  | .giveUp j => match acquire { p with woken := p.woken.erase j } j.thread j.target with
    | none => none
    | some (p', some c) => some (p'.enqueue c j)
    | some (p', none) => some p'
  | .touch c now => some { p with conn := setConn p.conn c { p.conn c with last := now } }
  | .release c => some (deactivate p c)
  | .upgrade c => some (upgrade p c)
  | .idleCleanup now inactive => p.idle.foldlM (idleStep now inactive) p
  | .activeCleanup now inactive =>
    (p.threads.foldlM (activeStep now inactive) p).map fun p' => p'.notify (p'.closed.length - p.closed.length)
  | .closing => some { p with closing := true }

end Verif.Cli

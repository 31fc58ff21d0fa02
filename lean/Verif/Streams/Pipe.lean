/-!
# Model of `Pipe`, `pyslet/streams.py:163-755`

Every method of a `Pipe` runs with the pipe's lock held, except while it waits in `Condition.wait`, which releases the
lock.  The code from acquiring the lock, or from waking up, to the next wait or return is one atomic *attempt*; a
method that wakes up tests the same conditions again, so an attempt depends only on the arguments and the state of the
pipe.  A schedule of any number of threads is therefore a list of attempts, and `Res.wait` says that the thread went to
sleep (it may appear again in the schedule, wake up without effect, or time out, which changes nothing but its own
result).

Not modelled: logging, `name`, time outs, `rstate`/`wstate` (used to recognise time outs only), `rflag` (an event for
other threads), the attribute `closed` (set after `_eof` by `close`; only `canread` distinguishes them).
-/
namespace Verif.Streams

abbrev Bytes := List Nat

/-- A pipe, streams.py:218-245.  `max` and `bsize` are integers as in Python. -/
structure Pipe where
  max : Int
  buffer : List Bytes := []
  bsize : Int := 0
  rpos : Nat := 0
  eof : Bool := false
  rblocking : Bool := true
  wblocking : Bool := true
  deriving DecidableEq, Repr

/-- The errors raised: EPIPE and ENOBUFS. -/
inductive PErr | epipe | enobufs
  deriving DecidableEq, Repr

/-- The result of an attempt: data was read (for `readinto` the bytes put in the argument, whose number is returned);
`n` bytes were written; None was returned; the thread waits; an error was raised; nothing to return. -/
inductive Res where
  | data (b : Bytes)
  | count (n : Nat)
  | none
  | wait
  | err (e : PErr)
  | unit
  deriving DecidableEq, Repr

/-- `self.max - self.bsize + self.rpos`, streams.py:364, 456, 477. -/
def Pipe.wlen (p : Pipe) : Int := p.max - p.bsize + p.rpos

/-- `buffered`, streams.py:341-344. -/
def Pipe.buffered (p : Pipe) : Int := p.bsize - p.rpos

/-- `canwrite`, streams.py:346-369; `none`: EPIPE. -/
def Pipe.canwrite (p : Pipe) : Option Int :=
  if p.eof then Option.none else some (if p.wlen ≤ 0 then 0 else p.wlen)

/-- `empty`, streams.py:333-339. -/
def Pipe.empty (p : Pipe) : Bool := p.buffer.isEmpty

/-- The start of `write`, streams.py:450-479: `none` when there is room, else what the attempt returns. -/
def Pipe.writeBlocked (p : Pipe) : Option Res :=
  if p.eof then some (.err .epipe)
  else if p.wlen ≤ 0 then some (if p.wblocking then .wait else .none)
  else Option.none

/-- `write` of a bytes object (or a memoryview), streams.py:439-487. -/
def Pipe.write (p : Pipe) (b : Bytes) : Pipe × Res :=
  match p.writeBlocked with
  | some r => (p, r)
  | Option.none =>
    if b.length ≠ 0 then ({ p with buffer := p.buffer ++ [b], bsize := p.bsize + b.length }, .count b.length)
    else (p, .count 0)

/-- `write` of a bytearray, streams.py:439-479, 488-499. -/
def Pipe.writeArray (p : Pipe) (b : Bytes) : Pipe × Res :=
  match p.writeBlocked with
  | some r => (p, r)
  | Option.none =>
    if (b.length : Int) > p.wlen then
      ({ p with buffer := p.buffer ++ [b.take p.wlen.toNat], bsize := p.bsize + p.wlen }, .count p.wlen.toNat)
    else ({ p with buffer := p.buffer ++ [b], bsize := p.bsize + b.length }, .count b.length)

/-- `write_eof`, streams.py:503-511. -/
def Pipe.writeEof (p : Pipe) : Pipe := { p with eof := true }

/-- `close`, streams.py:253-280. -/
def Pipe.close (p : Pipe) : Pipe := { p with buffer := [], bsize := 0, rpos := 0, eof := true }

/-- The number of bytes `readinto` takes from the first buffer, streams.py:737-740. -/
def readLen (src : Bytes) (rpos n : Nat) : Nat := if src.length - rpos < n then src.length - rpos else n

/-- `readinto` a bytearray of length `n`, streams.py:702-755. -/
def Pipe.readinto (p : Pipe) (n : Nat) : Pipe × Res :=
  match p.buffer with
  | [] => (p, if p.eof then .data [] else if p.rblocking then .wait else .none)
  | src :: rest =>
    let nbytes := readLen src p.rpos n
    let b := (src.drop p.rpos).take nbytes
    let rpos := p.rpos + nbytes
    if rpos ≥ src.length then ({ p with buffer := rest, bsize := p.bsize - src.length, rpos := 0 }, .data b)
    else ({ p with rpos := rpos }, .data b)

/-- `read(n)` for `n ≥ 0`, streams.py:682-700. -/
def Pipe.read (p : Pipe) (n : Nat) : Pipe × Res :=
  match p.buffer with
  | [] => p.readinto n
  | src :: rest =>
    if p.rpos = 0 ∧ src.length ≤ n then ({ p with buffer := rest, bsize := p.bsize - src.length }, .data src)
    else p.readinto n

/-- `s.find(m)`. -/
def find (m : Bytes) : Bytes → Option Nat
  | [] => if m = [] then some 0 else none
  | b :: s => if m.isPrefixOf (b :: s) then some 0 else (find m s).map (· + 1)

/-- `s.find(m, start)` for `start ≤ len(s)`. -/
def findFrom (m s : Bytes) (start : Nat) : Option Nat := (find m (s.drop start)).map (· + start)

/-- `_consolidate_buffer`, streams.py:597-603. -/
def Pipe.consolidate (p : Pipe) : Pipe :=
  match p.buffer with
  | [] => p
  | src :: rest =>
    if p.rpos ≠ 0 then { p with buffer := [(src.drop p.rpos :: rest).flatten], rpos := 0 }
    else { p with buffer := [(src :: rest).flatten] }

/-- A match was found at `pos` in `buffer[0]`, streams.py:625-638. -/
def Pipe.takeMatch (p : Pipe) (m : Bytes) (pos : Nat) : Pipe × Res :=
  match p.buffer with
  | [] => (p, .none)   -- not reached
  | src :: rest =>
    let result := (src.take (pos + m.length)).drop p.rpos
    let rpos := p.rpos + result.length
    if rpos ≥ src.length then ({ p with buffer := rest, bsize := p.bsize - src.length, rpos := 0 }, .data result)
    else ({ p with rpos := rpos }, .data result)

/-- No match was found, streams.py:640-672. -/
def Pipe.noMatch (p : Pipe) : Res :=
  if p.eof then .data []
  else if p.wlen ≤ 0 then .err .enobufs
  else if p.rblocking then .wait else .none

/-- `readmatch(m)`, streams.py:605-672. -/
def Pipe.readmatch (p : Pipe) (m : Bytes) : Pipe × Res :=
  match p.buffer with
  | [] => (p, p.noMatch)
  | src :: _ =>
    match findFrom m src p.rpos with
    | some pos => p.takeMatch m pos
    | Option.none =>
      let p := p.consolidate
      match find m p.buffer.flatten with   -- `buffer[0]` is the whole buffer now
      | some pos => p.takeMatch m pos
      | Option.none => (p, p.noMatch)

/-- The attempts. -/
inductive Op where
  | write (b : Bytes)
  | writeArray (b : Bytes)
  | writeEof
  | close
  | read (n : Nat)
  | readinto (n : Nat)
  | readmatch (m : Bytes)
  | setRead (blocking : Bool)
  | setWrite (blocking : Bool)
  deriving DecidableEq, Repr

/-- One attempt; `set_readblocking`, streams.py:294-301, `set_writeblocking`, streams.py:307-314. -/
def Pipe.step (p : Pipe) : Op → Pipe × Res
  | .write b => p.write b
  | .writeArray b => p.writeArray b
  | .writeEof => (p.writeEof, .unit)
  | .close => (p.close, .unit)
  | .read n => p.read n
  | .readinto n => p.readinto n
  | .readmatch m => p.readmatch m
  | .setRead b => ({ p with rblocking := b }, .unit)
  | .setWrite b => ({ p with wblocking := b }, .unit)

/-- A schedule: the state reached and the results. -/
def Pipe.run (p : Pipe) : List Op → Pipe × List Res
  | [] => (p, [])
  | o :: os => (((p.step o).1.run os).1, (p.step o).2 :: ((p.step o).1.run os).2)

/-- A new pipe, streams.py:218-245. -/
def Pipe.new (max : Int) (rblocking wblocking : Bool) : Pipe := { max, rblocking, wblocking }

/-- The loop of `readall` when nobody else uses the pipe (in general it is a sequence of `read` attempts), and `_eof` is
set so that no attempt waits; streams.py:582-595 with `io.DEFAULT_BUFFER_SIZE = 8192`.  The `finally` clause assigns
to `rlocking`, so that `rblocking` keeps the value True.  The fuel bounds the number of reads. -/
def Pipe.readallLoop : Nat → Pipe → Pipe × Bytes
  | 0, p => (p, [])
  | k + 1, p =>
    match p.read 8192 with
    | (p', .data (b :: d)) => ((Pipe.readallLoop k p').1, (b :: d) ++ (Pipe.readallLoop k p').2)
    | (p', _) => (p', [])

def Pipe.readall (p : Pipe) : Pipe × Bytes :=
  Pipe.readallLoop ((p.buffer.map List.length).sum + 1) { p with rblocking := true }

end Verif.Streams

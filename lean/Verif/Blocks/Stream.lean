/-!
# Model of `BlockStream`, `pyslet/blockstore.py:617-782`

A `BlockStream` is an open stream of a `StreamStore`.  The store is seen through the methods the stream calls:
`retrieve_blocklist`, `store_block`, `update_block`, `retrieve_block` and `delete_blocks` of this stream's blocks; that
`retrieve_block` returns what was last stored for the block, whatever other streams do, is C32 (`Verif.Blocks.Store`).
So an element of `blocks` is `none` for a block entity that does not exist yet and `some d` for one whose data is `d`.

Not modelled: time stamps, the digest function (an MD5 object is given by the bytes fed to it), negative positions.
-/
namespace Verif.Blocks

abbrev Bytes := List Nat

/-- `IndexError` of `self.blocks[...]`, `IOError` for a stream not open for reading or writing, and `BlockMissing`. -/
inductive BErr | index | io | missing
  deriving DecidableEq, Repr

/-- An open stream, blockstore.py:627-651; `ssize` and `smd5` are the values of the stream entity. -/
structure BStream where
  bs : Nat
  r : Bool
  w : Bool
  size : Nat
  pos : Nat := 0
  bdata : Option Bytes := none
  bnum : Nat := 0
  bpos : Nat := 0
  btop : Nat := 0
  dirty : Bool := false
  md5 : Option Bytes := none
  md5num : Nat := 0
  blocks : List (Option Bytes)
  ssize : Nat
  smd5 : Option Bytes
  deriving DecidableEq, Repr

/-- `_set_btop`, blockstore.py:684-689: the value. -/
def topOf (bs size bnum : Nat) : Nat := if size / bs = bnum then size % bs else bs

def BStream.setTop (s : BStream) : BStream := { s with btop := topOf s.bs s.size s.bnum }

/-- blockstore.py:702-706: the digest after a block was written. -/
def BStream.md5After (s : BStream) (data : Bytes) : Option Bytes :=
  match s.md5 with
  | some m => if s.bnum = s.md5num then some (m ++ data) else none
  | none => none

/-- `flush`, blockstore.py:691-716. -/
def BStream.flush (s : BStream) : Except BErr BStream :=
  if s.dirty then
    let data := (s.bdata.getD []).take s.btop
    if data ≠ [] then
      if s.bnum < s.blocks.length then
        .ok { s with
          blocks := s.blocks.set s.bnum (some data)
          md5 := s.md5After data
          md5num := if s.md5.isSome ∧ s.bnum = s.md5num then s.md5num + 1 else s.md5num
          ssize := s.size
          smd5 := s.md5After data
          dirty := false }
      else .error .index
    else .ok { s with ssize := s.size, smd5 := s.md5, dirty := false }
  else .ok s

/-- `seek` to the position `pos`, blockstore.py:676-682 (the position is computed from `offset` and `whence` in
blockstore.py:668-675, see `BStream.seek`). -/
def BStream.seekTo (s : BStream) (pos : Nat) : Except BErr BStream :=
  if pos / s.bs ≠ s.bnum then
    match s.flush with
    | .error e => .error e
    | .ok s' => .ok ({ s' with pos := pos, bdata := none, bnum := pos / s.bs, bpos := pos % s.bs } : BStream).setTop
  else .ok ({ s with pos := pos, bpos := pos % s.bs } : BStream).setTop

/-- `seek`, blockstore.py:667-682, for `whence` SEEK_SET (0), SEEK_CUR (1) and SEEK_END (2) and positions that are not
negative (for others the model raises; the code goes on with a negative position). -/
def BStream.seek (s : BStream) (offset : Int) (whence : Nat) : Except BErr BStream :=
  let p := if whence = 0 then offset else if whence = 1 then s.pos + offset else s.size + offset
  if whence > 2 ∨ p < 0 then .error .io else s.seekTo p.toNat

/-- `retrieve_block(self.blocks[self._bnum])`, blockstore.py:733, 736, 772. -/
def BStream.retrieve (s : BStream) : Except BErr Bytes :=
  match s.blocks[s.bnum]? with
  | none => .error .index
  | some none => .error .missing
  | some (some d) => .ok d

/-- `bytearray(block_size)` with `data` at its start, blockstore.py:732-734, 771-773. -/
def padded (bs : Nat) (data : Bytes) : Bytes := data ++ List.replicate (bs - data.length) 0

/-- Loading the current block for reading, blockstore.py:728-736. -/
def BStream.load (s : BStream) : Except BErr BStream :=
  match s.bdata with
  | some _ => .ok s
  | none =>
    match s.retrieve with
    | .error e => .error e
    | .ok d => .ok { s with bdata := some (if s.w then padded s.bs d else d) }

/-- `readinto` an argument of length `n`, blockstore.py:721-741: the bytes put in it. -/
def BStream.readinto (s : BStream) (n : Nat) : Except BErr (BStream × Bytes) :=
  if s.r = false then .error .io
  else if s.btop ≤ s.bpos then .ok (s, [])
  else
    match s.load with
    | .error e => .error e
    | .ok s =>
      let nbytes := min (s.btop - s.bpos) n
      let data := ((s.bdata.getD []).drop s.bpos).take nbytes
      match s.seekTo (s.pos + nbytes) with
      | .error e => .error e
      | .ok s' => .ok (s', data)

/-- The loop appending blocks of zeros, blockstore.py:751-756 (it is never entered, see `C31`). -/
def BStream.fillBlocks : Nat → BStream → BStream
  | 0, s => s
  | k + 1, s =>
    if s.blocks.length < s.bnum then
      BStream.fillBlocks k { s with blocks := s.blocks ++ [some (List.replicate s.bs 0)], size := (s.blocks.length + 1) * s.bs }
    else s

/-- A new block at the end, blockstore.py:749-769. -/
def BStream.newBlock (s : BStream) : Except BErr BStream :=
  let s := BStream.fillBlocks s.bnum s
  match ({ s with bdata := some (List.replicate s.bs 0), dirty := true } : BStream).flush with
  | .error e => .error e
  | .ok s =>
    let s := ({ s with blocks := s.blocks ++ [none], size := s.pos } : BStream).setTop
    .ok { s with dirty := s.dirty || s.bpos != 0 }

/-- Loading the current block for writing, blockstore.py:748-773. -/
def BStream.prepare (s : BStream) : Except BErr BStream :=
  match s.bdata with
  | some _ => .ok s
  | none =>
    if s.btop ≤ 0 then s.newBlock
    else
      match s.retrieve with
      | .error e => .error e
      | .ok d => .ok { s with bdata := some (padded s.bs d) }

/-- `d[i:i+len(b)] = b`. -/
def overwrite (d : Bytes) (i : Nat) (b : Bytes) : Bytes := d.take i ++ b ++ d.drop (i + b.length)

/-- `write`, blockstore.py:743-782: the stream and the number of bytes written. -/
def BStream.write (s : BStream) (b : Bytes) : Except BErr (BStream × Nat) :=
  if s.w = false then .error .io
  else
    let nbytes := min (s.bs - s.bpos) b.length
    match s.prepare with
    | .error e => .error e
    | .ok s =>
      let s : BStream := { s with bdata := some (overwrite (s.bdata.getD []) s.bpos (b.take nbytes)), dirty := true }
      let s : BStream := if s.pos + nbytes > s.size then ({ s with size := s.pos + nbytes } : BStream).setTop else s
      match s.seekTo (s.pos + nbytes) with
      | .error e => .error e
      | .ok s' => .ok (s', nbytes)

/-- The modes: `r`, `r+`, `w`, `w+`, `a`, `a+`. -/
structure Mode where
  r : Bool := false
  w : Bool := false
  a : Bool := false
  plus : Bool := false
  deriving DecidableEq, Repr

/-- `BlockStream(ss, stream, mode)`, blockstore.py:627-651, for a stream entity with the size, digest and blocks given.
(The initial `seek` never flushes.) -/
def BStream.open (bs : Nat) (ssize : Nat) (smd5 : Option Bytes) (blocks : List Bytes) (m : Mode) : BStream :=
  let s : BStream := { bs, r := m.r || m.plus, w := m.w || m.plus, size := ssize, blocks := blocks.map some, ssize, smd5 }
  if m.a then ({ s with pos := ssize, bnum := ssize / bs, bpos := ssize % bs } : BStream).setTop
  else
    let s := ({ s with pos := 0, bnum := 0, bpos := 0 } : BStream).setTop
    if m.w then { s with blocks := [], md5 := some [] } else s

/-- Calls. -/
inductive BOp | write (b : Bytes) | read (n : Nat) | seek (offset : Int) (whence : Nat) | flush
  deriving DecidableEq, Repr

/-- What a call returns. -/
inductive BRes | count (n : Nat) | data (b : Bytes) | unit
  deriving DecidableEq, Repr

/-- A call. -/
def BStream.step (s : BStream) : BOp → Except BErr (BStream × BRes)
  | .write b => (s.write b).map fun p => (p.1, .count p.2)
  | .read n => (s.readinto n).map fun p => (p.1, .data p.2)
  | .seek o wh => (s.seek o wh).map fun s => (s, .unit)
  | .flush => s.flush.map fun s => (s, .unit)

/-- A sequence of calls; it stops when one raises. -/
def BStream.run (s : BStream) : List BOp → Except BErr (BStream × List BRes)
  | [] => .ok (s, [])
  | o :: os =>
    match s.step o with
    | .error e => .error e
    | .ok (s', r) => match s'.run os with
      | .error e => .error e
      | .ok (s'', rs) => .ok (s'', r :: rs)

end Verif.Blocks

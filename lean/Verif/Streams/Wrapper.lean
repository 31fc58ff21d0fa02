import Verif.Streams.Pipe
/-!
# Model of `BufferedStreamWrapper`, `pyslet/streams.py:50-160`

The source is any object with a method `read`: it is given by the list of the answers it will give, None (would block)
or some bytes.  An answer longer than the number of bytes asked for is given in parts, which covers every behaviour with
short reads.  When the answers are exhausted the source returns `b''`, the end of file.
-/
namespace Verif.Streams

abbrev Source := List (Option Bytes)

/-- `src.read(n)`. -/
def Source.read (n : Nat) : Source → Option Bytes × Source
  | [] => (some [], [])
  | none :: rest => (none, rest)
  | some b :: rest => if b.length ≤ n then (some b, rest) else (some (b.take n), some (b.drop n) :: rest)

/-- A wrapper, streams.py:75-101.  `buff` and `bpos` are the value and the position of the `BytesIO` object.  `length`
is `bsize` when `overflow` is false and is not used otherwise. -/
structure Wrapper where
  src : Source
  buff : Bytes
  bsize : Nat
  overflow : Bool
  pos : Int
  bpos : Nat
  deriving DecidableEq, Repr

/-- The loop of `__init__`, streams.py:81-97: the source, the bytes buffered and `overflow`.  Every turn but the last
adds bytes, so `buffsize + 1` turns are enough. -/
def fill (buffsize : Nat) : Nat → Source → Bytes → Source × Bytes × Bool
  | 0, src, buff => (src, buff, true)
  | k + 1, src, buff =>
    if buffsize - buff.length = 0 then (src, buff, true)
    else match src.read (buffsize - buff.length) with
      | (none, src') => (src', buff, true)
      | (some (b :: d), src') => fill buffsize k src' (buff ++ b :: d)
      | (some [], src') => (src', buff, false)

/-- `BufferedStreamWrapper(src, buffsize)`, streams.py:75-101. -/
def Wrapper.new (src : Source) (buffsize : Nat) : Wrapper :=
  let r := fill buffsize (buffsize + 1) src []
  { src := r.1, buff := r.2.1, bsize := r.2.1.length, overflow := r.2.2, pos := 0, bpos := 0 }

/-- `readinto` an argument of length `n`, streams.py:132-147 (`read(n)` of a raw stream calls it): the bytes or None. -/
def Wrapper.readinto (w : Wrapper) (n : Nat) : Wrapper × Option Bytes :=
  if w.pos < w.bsize then
    let data := (w.buff.drop w.bpos).take n
    ({ w with bpos := w.bpos + data.length, pos := w.pos + data.length }, some data)
  else if w.overflow then
    match w.src.read n with
    | (none, src') => ({ w with src := src' }, none)
    | (some data, src') => ({ w with src := src', pos := w.pos + data.length }, some data)
  else (w, some [])

/-- `peek`, streams.py:149-160 (`BytesIO.seek` raises ValueError for a negative position: `none`). -/
def Wrapper.peek (w : Wrapper) (n : Nat) : Wrapper × Option Bytes :=
  if w.pos < w.bsize then
    let data := (w.buff.drop w.bpos).take n
    if w.pos < 0 then ({ w with bpos := w.bpos + data.length }, none)
    else ({ w with bpos := w.pos.toNat }, some data)
  else (w, some [])

/-- `seek`, streams.py:118-130, with `whence` 0 (SEEK_SET), 1 (SEEK_CUR) or 2 (SEEK_END); the flag says whether it
returned (`BytesIO.seek` raises ValueError for a negative position, after `pos` was assigned). -/
def Wrapper.seek (w : Wrapper) (offset : Int) (whence : Nat) : Wrapper × Bool :=
  if w.overflow then (w, false)
  else
    match (if whence = 0 then some offset else if whence = 1 then some (w.pos + offset)
      else if whence = 2 then some (w.bsize + offset) else none) with
    | none => (w, false)
    | some pos => if pos < 0 then ({ w with pos := pos }, false) else ({ w with pos := pos, bpos := pos.toNat }, true)

/-- `tell`, streams.py:112-116. -/
def Wrapper.tell (w : Wrapper) : Option Int := if w.overflow then none else some w.pos

/-- Calls on a wrapper. -/
inductive WOp | read (n : Nat) | peek (n : Nat) | seek (offset : Int) (whence : Nat)
  deriving DecidableEq, Repr

/-- The effect of a call. -/
def Wrapper.step (w : Wrapper) : WOp → Wrapper
  | .read n => (w.readinto n).1
  | .peek n => (w.peek n).1
  | .seek o wh => (w.seek o wh).1

/-- The bytes a call delivers: only reads do. -/
def Wrapper.out (w : Wrapper) : WOp → Bytes
  | .read n => ((w.readinto n).2).getD []
  | _ => []

/-- A history of calls: the state reached and the bytes delivered. -/
def Wrapper.run (w : Wrapper) : List WOp → Wrapper × Bytes
  | [] => (w, [])
  | o :: os => (((w.step o).run os).1, w.out o ++ ((w.step o).run os).2)

end Verif.Streams

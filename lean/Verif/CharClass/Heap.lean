import Verif.CharClass.Cache
/-!
# CharClass with shared mutable ranges

In Python each range is a two element *list*, a mutable object.  `add_class` on an
empty class appends the very list objects of the argument (unicode5.py:503-504), and
`subtract_range`/`subtract_char` assign into range lists in place
(unicode5.py:404-410,423,431,442,452,484-489).  Here an object's `ranges` is a list of
addresses into a heap of range cells, so that sharing is visible.  The functions mirror the ones in `Model.lean` branch by
branch (same citations).
-/
namespace Verif.CharClass.Heap
open Verif.CharClass

/-- The heap of range lists: address = position.  Nothing is ever freed. -/
abbrev Cells := List Range
/-- `self.ranges`: references to range lists. -/
abbrev Refs := List Nat

def cell (m : Cells) (a : Nat) : Range := m.getD a (0, 0)
/-- The ranges an object shows. -/
def view (m : Cells) (xs : Refs) : List Range := xs.map (cell m)

/-- `self.ranges[i:j] = [[lo, hi]]`: one newly created range list. -/
def put (m : Cells) (xs : Refs) (i j : Nat) (r : Range) : Cells × Refs :=
  (m ++ [r], xs.take i ++ [m.length] ++ xs.drop (max i j))
/-- `del self.ranges[i:j]` -/
def del (m : Cells) (xs : Refs) (i j : Nat) : Cells × Refs :=
  (m, xs.take i ++ xs.drop (max i j))
/-- `self.ranges.insert(i, [lo, hi])` -/
def ins (m : Cells) (xs : Refs) (i : Nat) (r : Range) : Cells × Refs :=
  (m ++ [r], xs.take i ++ [m.length] ++ xs.drop i)
/-- `self.ranges[i][0] = v`, in place. -/
def pokeLo (m : Cells) (xs : Refs) (i v : Nat) : Cells × Refs :=
  (m.modify (xs.getD i m.length) (fun r => (v, r.2)), xs)
/-- `self.ranges[i][1] = v`, in place. -/
def pokeHi (m : Cells) (xs : Refs) (i v : Nat) : Cells × Refs :=
  (m.modify (xs.getD i m.length) (fun r => (r.1, v)), xs)

/-- `_merge`, unicode5.py:529-548 -/
def hMerge (p : Cells × Refs) (index : Nat) : Cells × Refs :=
  let rs := view p.1 p.2
  let a := (rget rs index).1
  let z := (rget rs index).2
  let index_a := if index > 0 ∧ (rget rs (index - 1)).2 + 1 ≥ a then index - 1 else index
  let index_z := if index < rs.length - 1 ∧ (rget rs (index + 1)).1 ≤ z + 1
    then index + 1 else index
  if index_a ≠ index_z then
    put p.1 p.2 index_a (index_z + 1) ((rget rs index_a).1, (rget rs index_z).2)
  else p

/-- `add_range`, unicode5.py:326-374 -/
def hAddRange (m : Cells) (xs : Refs) (a0 z0 : Nat) : Cells × Refs :=
  let rs := view m xs
  let a := if z0 < a0 then z0 else a0
  let z := if z0 < a0 then a0 else z0
  if rs.isEmpty then (m ++ [(a, z)], [m.length])
  else
    let index_a := (search rs a).2
    let index_z := (search rs z).2
    if (search rs a).1 then
      if (search rs z).1 then
        if index_a = index_z then (m, xs)
        else hMerge (put m xs index_a (index_z + 1)
          ((rget rs index_a).1, (rget rs index_z).2)) index_a
      else hMerge (put m xs index_a index_z ((rget rs index_a).1, z)) index_a
    else if (search rs z).1 then
      hMerge (put m xs index_a (index_z + 1) (a, (rget rs index_z).2)) index_a
    else hMerge (put m xs index_a index_z (a, z)) index_a

/-- `subtract_range`, unicode5.py:376-459 -/
def hSubtractRange (m : Cells) (xs : Refs) (a0 z0 : Nat) : Cells × Refs :=
  let rs := view m xs
  let a := if z0 < a0 then z0 else a0
  let z := if z0 < a0 then a0 else z0
  if rs.isEmpty then (m, xs)
  else
    let index_a := (search rs a).2
    let index_z := (search rs z).2
    if (search rs a).1 then
      if (search rs z).1 then
        if index_a = index_z then
          let rlower := (rget rs index_a).1
          let rupper := (rget rs index_a).2
          if rlower = rupper ∨ (rlower = a ∧ rupper = z) then del m xs index_a (index_a + 1)
          else if rlower = a then pokeLo m xs index_a (z + 1)
          else if rupper = z then pokeHi m xs index_a (a - 1)
          else
            let p := pokeHi m xs index_a (a - 1)
            ins p.1 p.2 (index_a + 1) (z + 1, rupper)
        else
          let dropA : Bool := (rget rs index_a).1 = (rget rs index_a).2 ∨ a = (rget rs index_a).1
          let p1 := if dropA then (m, xs) else pokeHi m xs index_a (a - 1)
          let snip_a := if dropA then index_a else index_a + 1
          let rs1 := view p1.1 p1.2
          let dropZ : Bool := (rget rs1 index_z).1 = (rget rs1 index_z).2 ∨ z = (rget rs1 index_z).2
          let p2 := if dropZ then p1 else pokeLo p1.1 p1.2 index_z (z + 1)
          let snip_z := if dropZ then index_z + 1 else index_z
          if snip_z ≥ snip_a then del p2.1 p2.2 snip_a snip_z else p2
      else
        if (rget rs index_a).1 = (rget rs index_a).2 ∨ a = (rget rs index_a).1 then
          del m xs index_a index_z
        else
          let p := pokeHi m xs index_a (a - 1)
          del p.1 p.2 (index_a + 1) index_z
    else if (search rs z).1 then
      if (rget rs index_z).1 = (rget rs index_z).2 ∨ z = (rget rs index_z).2 then
        del m xs index_a (index_z + 1)
      else
        let p := pokeLo m xs index_z (z + 1)
        del p.1 p.2 index_a index_z
    else del m xs index_a index_z

/-- `add_char`, unicode5.py:461-471 -/
def hAddChar (m : Cells) (xs : Refs) (c : Nat) : Cells × Refs :=
  let rs := view m xs
  if rs.isEmpty then (m ++ [(c, c)], [m.length])
  else
    if (search rs c).1 then (m, xs)
    else hMerge (ins m xs (search rs c).2 (c, c)) (search rs c).2

/-- `subtract_char`, unicode5.py:473-492 -/
def hSubtractChar (m : Cells) (xs : Refs) (c : Nat) : Cells × Refs :=
  let rs := view m xs
  if rs.isEmpty then (m, xs)
  else
    let index := (search rs c).2
    if (search rs c).1 then
      let a := (rget rs index).1
      let z := (rget rs index).2
      if a = z then del m xs index (index + 1)
      else if a = c then pokeLo m xs index (a + 1)
      else if z = c then pokeHi m xs index (z - 1)
      else
        let p := pokeHi m xs index (c - 1)
        ins p.1 p.2 (index + 1) (c + 1, z)
    else (m, xs)

/-- `add_class`, unicode5.py:494-505, the argument being another object. -/
def hAddClass (m : Cells) (xs ys : Refs) : Cells × Refs :=
  if xs.isEmpty then (m, xs ++ ys)
  else ys.foldl (fun p y => hAddRange p.1 p.2 (cell p.1 y).1 (cell p.1 y).2) (m, xs)

/-- `subtract_class`, unicode5.py:507-511, the argument being another object. -/
def hSubtractClass (m : Cells) (xs ys : Refs) : Cells × Refs :=
  ys.foldl (fun p y => hSubtractRange p.1 p.2 (cell p.1 y).1 (cell p.1 y).2) (m, xs)

/-- `negate`, unicode5.py:513-527: works on a new object and takes over its list. -/
def hNegate (m : Cells) (xs : Refs) : Cells × Refs :=
  hSubtractClass (m ++ [(0, maxunicode)]) [m.length] xs

/-! ## Programs over several objects -/

/-- The objects of a program (`objs[i]` is the `ranges` attribute of the i-th) and the heap. -/
structure World where
  cells : Cells
  objs : List Refs

/-- A method call on object `i` (arguments `j` are other objects). -/
inductive Call where
  | create
  | addChar (i c : Nat)
  | addRange (i a z : Nat)
  | addClass (i j : Nat)
  | subtractChar (i c : Nat)
  | subtractRange (i a z : Nat)
  | subtractClass (i j : Nat)
  | negate (i : Nat)

def World.refs (w : World) (i : Nat) : Refs := w.objs.getD i []
/-- The ranges object `i` shows. -/
def World.ranges (w : World) (i : Nat) : List Range := view w.cells (w.refs i)

def World.put (w : World) (i : Nat) (p : Cells × Refs) : World := ⟨p.1, w.objs.set i p.2⟩

def World.call (w : World) : Call → World
  | .create => ⟨w.cells, w.objs ++ [[]]⟩
  | .addChar i c => w.put i (hAddChar w.cells (w.refs i) c)
  | .addRange i a z => w.put i (hAddRange w.cells (w.refs i) a z)
  | .addClass i j => w.put i (hAddClass w.cells (w.refs i) (w.refs j))
  | .subtractChar i c => w.put i (hSubtractChar w.cells (w.refs i) c)
  | .subtractRange i a z => w.put i (hSubtractRange w.cells (w.refs i) a z)
  | .subtractClass i j => w.put i (hSubtractClass w.cells (w.refs i) (w.refs j))
  | .negate i => w.put i (hNegate w.cells (w.refs i))

def World.run (w : World) (cs : List Call) : World := cs.foldl World.call w
def World.init : World := ⟨[], []⟩

/-- The object modified by a call. -/
def Call.target : Call → Option Nat
  | .create => none
  | .addChar i _ | .addRange i _ _ | .addClass i _ | .subtractChar i _ | .subtractRange i _ _
  | .subtractClass i _ | .negate i => some i

/-- `subtract_class` with the object itself as argument: the `for` loop of
unicode5.py:509 then iterates over the list that `subtract_range` is changing, by
position.  `k` is the position of the list iterator; the loop ends when it passes the end.
(`fuel` bounds the number of iterations; each iteration either ends the loop or
advances `k`, and the list has at most `fuel` items.) -/
def subtractSelf (fuel : Nat) (k : Nat) (rs : List Range) : List Range :=
  match fuel with
  | 0 => rs
  | fuel + 1 =>
    match rs[k]? with
    | none => rs
    | some r => subtractSelf fuel (k + 1) (subtractRange rs r.1 r.2)

end Verif.CharClass.Heap

/-!
# Model of `pyslet/unicode5.py` class `CharClass`

Characters are modelled by their code points (`Nat`).  `CharClass` orders and
compares single characters by code point (the comment at unicode5.py:328-329 says so),
so nothing is lost.  A range `[a, z]` (a two element Python list) is a pair.
In this file ranges are *values*; the sharing of the mutable range lists is
modelled separately in `Verif/CharClass/Heap.lean`.
-/

namespace Verif.CharClass

/-- A range `[a, z]` of characters, unicode5.py:177-190,373 (`self.ranges` items). -/
abbrev Range := Nat × Nat

/-- `sys.maxunicode` on a wide build (unicode5.py:7,524). -/
def maxunicode : Nat := 0x10FFFF

/-- `self.ranges[i]`.  The code only evaluates this with `i` in range (proved:
`bisect_lt`, `bisect_match`); the default is never observed. -/
def rget (rs : List Range) (i : Nat) : Range := rs.getD i (0, 0)

/-- `self.ranges[i:j] = xs` and `del self.ranges[i:j]` (with `xs = []`), Python
slice assignment semantics for non-negative bounds. -/
def sliceSet (rs : List Range) (i j : Nat) (xs : List Range) : List Range :=
  rs.take i ++ xs ++ rs.drop (max i j)

/-- `self.ranges.insert(i, r)`. -/
def insertAt (rs : List Range) (i : Nat) (r : Range) : List Range :=
  rs.take i ++ [r] ++ rs.drop i

/-- `self.ranges[i][0] = v` -/
def setLo (rs : List Range) (i v : Nat) : List Range := rs.modify i (fun r => (v, r.2))
/-- `self.ranges[i][1] = v` -/
def setHi (rs : List Range) (i v : Nat) : List Range := rs.modify i (fun r => (r.1, v))

/-- `CharClass._bisection_search`, unicode5.py:644-668.  The Python test is
`rmin == rmax`; the method is only entered with `rmin ≤ rmax`, and `≥` makes the
recursion total. -/
def bisect (rs : List Range) (c rmin rmax : Nat) : Bool × Nat :=
  if rmin ≥ rmax then
    if c > (rget rs rmin).2 then (false, rmin + 1)
    else if c < (rget rs rmin).1 then (false, rmin)
    else (true, rmin)
  else
    let rtry := (rmin + rmax) / 2
    if c ≤ (rget rs rtry).2 then bisect rs c rmin rtry
    else bisect rs c (rtry + 1) rmax
termination_by rmax - rmin
decreasing_by all_goals omega

/-- `self._bisection_search(c, 0, len(self.ranges) - 1)` (every call site). -/
def search (rs : List Range) (c : Nat) : Bool × Nat := bisect rs c 0 (rs.length - 1)

/-- `CharClass._merge`, unicode5.py:529-548. -/
def merge (rs : List Range) (index : Nat) : List Range :=
  let a := (rget rs index).1
  let z := (rget rs index).2
  -- `ord(ap) >= ord(a) - 1` over ints: `ap + 1 ≥ a`
  let index_a := if index > 0 ∧ (rget rs (index - 1)).2 + 1 ≥ a then index - 1 else index
  let index_z := if index < rs.length - 1 ∧ (rget rs (index + 1)).1 ≤ z + 1
    then index + 1 else index
  if index_a ≠ index_z then
    sliceSet rs index_a (index_z + 1) [((rget rs index_a).1, (rget rs index_z).2)]
  else rs

/-- `CharClass.add_range`, unicode5.py:326-374. -/
def addRange (rs : List Range) (a0 z0 : Nat) : List Range :=
  let a := if z0 < a0 then z0 else a0
  let z := if z0 < a0 then a0 else z0
  if rs.isEmpty then [(a, z)]
  else
    let match_a := (search rs a).1
    let index_a := (search rs a).2
    let match_z := (search rs z).1
    let index_z := (search rs z).2
    if match_a then
      if match_z then
        if index_a = index_z then rs
        else merge (sliceSet rs index_a (index_z + 1)
          [((rget rs index_a).1, (rget rs index_z).2)]) index_a
      else merge (sliceSet rs index_a index_z [((rget rs index_a).1, z)]) index_a
    else if match_z then
      merge (sliceSet rs index_a (index_z + 1) [(a, (rget rs index_z).2)]) index_a
    else merge (sliceSet rs index_a index_z [(a, z)]) index_a

/-- `CharClass.subtract_range`, unicode5.py:376-459. -/
def subtractRange (rs : List Range) (a0 z0 : Nat) : List Range :=
  let a := if z0 < a0 then z0 else a0
  let z := if z0 < a0 then a0 else z0
  if rs.isEmpty then rs
  else
    let match_a := (search rs a).1
    let index_a := (search rs a).2
    let match_z := (search rs z).1
    let index_z := (search rs z).2
    if match_a then
      if match_z then
        if index_a = index_z then
          let rlower := (rget rs index_a).1
          let rupper := (rget rs index_a).2
          if rlower = rupper ∨ (rlower = a ∧ rupper = z) then sliceSet rs index_a (index_a + 1) []
          else if rlower = a then setLo rs index_a (z + 1)
          else if rupper = z then setHi rs index_a (a - 1)
          else insertAt (setHi rs index_a (a - 1)) (index_a + 1) (z + 1, rupper)
        else
          let dropA : Bool := (rget rs index_a).1 = (rget rs index_a).2 ∨ a = (rget rs index_a).1
          let rs1 := if dropA then rs else setHi rs index_a (a - 1)
          let snip_a := if dropA then index_a else index_a + 1
          let dropZ : Bool := (rget rs1 index_z).1 = (rget rs1 index_z).2 ∨ z = (rget rs1 index_z).2
          let rs2 := if dropZ then rs1 else setLo rs1 index_z (z + 1)
          let snip_z := if dropZ then index_z + 1 else index_z
          if snip_z ≥ snip_a then sliceSet rs2 snip_a snip_z [] else rs2
      else
        if (rget rs index_a).1 = (rget rs index_a).2 ∨ a = (rget rs index_a).1 then
          sliceSet rs index_a index_z []
        else sliceSet (setHi rs index_a (a - 1)) (index_a + 1) index_z []
    else if match_z then
      if (rget rs index_z).1 = (rget rs index_z).2 ∨ z = (rget rs index_z).2 then
        sliceSet rs index_a (index_z + 1) []
      else sliceSet (setLo rs index_z (z + 1)) index_a index_z []
    else sliceSet rs index_a index_z []

/-- `CharClass.add_char`, unicode5.py:461-471. -/
def addChar (rs : List Range) (c : Nat) : List Range :=
  if rs.isEmpty then [(c, c)]
  else
    if (search rs c).1 then rs
    else merge (insertAt rs (search rs c).2 (c, c)) (search rs c).2

/-- `CharClass.subtract_char`, unicode5.py:473-492. -/
def subtractChar (rs : List Range) (c : Nat) : List Range :=
  if rs.isEmpty then rs
  else
    let index := (search rs c).2
    if (search rs c).1 then
      let a := (rget rs index).1
      let z := (rget rs index).2
      if a = z then sliceSet rs index (index + 1) []
      else if a = c then setLo rs index (a + 1)
      else if z = c then setHi rs index (z - 1)
      else insertAt (setHi rs index (c - 1)) (index + 1) (c + 1, z)
    else rs

/-- `CharClass.add_class`, unicode5.py:494-505 (`self.ranges` is tested once, before the loop). -/
def addClass (rs cs : List Range) : List Range :=
  if rs.isEmpty then rs ++ cs
  else cs.foldl (fun acc r => addRange acc r.1 r.2) rs

/-- `CharClass.subtract_class`, unicode5.py:507-511. -/
def subtractClass (rs cs : List Range) : List Range :=
  cs.foldl (fun acc r => subtractRange acc r.1 r.2) rs

/-- `CharClass.negate`, unicode5.py:513-527.  `CharClass([chr(0), chr(maxunicode)])`
is the one-range class built by the constructor from a list argument. -/
def negate (rs : List Range) : List Range :=
  subtractClass (addRange [] 0 maxunicode) rs

/-- `CharClass.test_slow`, unicode5.py:634-642 (for `c` a character). -/
def testSlow (rs : List Range) (c : Nat) : Bool :=
  if rs.isEmpty then false else (search rs c).1

/-! ## The block cache of `CharClass.test` -/

/-- The local variables of the block filling loop of `test`, unicode5.py:589-620:
`match`, `index` and the range `rmatch` (with its `cmin`, `cmax`), `none` when
`rmatch` is `False`/`None`. -/
structure Fill where
  isMatch : Bool
  index : Nat
  rmatch : Option Range

/-- `rmatch = self.ranges[index]` or false/None, unicode5.py:594-599, 605-611. -/
def rangeAt (rs : List Range) (i : Nat) : Option Range := rs[i]?

/-- One iteration of `for i in range3(1, 256)`, unicode5.py:600-619; returns the
new loop state and the value of `block[i]`. -/
def fillStep (rs : List Range) (ccode : Nat) (s : Fill) : Fill × Bool :=
  -- second half: have we entered this range
  let enter (s : Fill) : Fill × Bool :=
    match s.rmatch with
    | some r => if ccode ≥ r.1 then ({ s with isMatch := true }, true) else (s, false)
    | none => (s, false)
  if s.isMatch then
    match s.rmatch with
    | some r =>
      if ccode > r.2 then
        enter { isMatch := false, index := s.index + 1, rmatch := rangeAt rs (s.index + 1) }
      else (s, true)
    | none => (s, false)   -- unreachable: a match always has a range (`fill_inv`)
  else enter s

/-- The loop of `test`: produces `n` further entries of the block. -/
def fillLoop (rs : List Range) : Nat → Nat → Fill → List Bool
  | 0, _, _ => []
  | n + 1, ccode, s =>
    let ccode' := ccode + 1
    let r := fillStep rs ccode' s
    r.2 :: fillLoop rs n ccode' r.1

/-- A freshly computed block (a `bytearray(256)` of flags), unicode5.py:586-620. -/
def buildBlock (rs : List Range) (blockNum : Nat) : List Bool :=
  let ccode := blockNum * 256
  let m := search rs ccode
  m.1 :: fillLoop rs 255 ccode { isMatch := m.1, index := m.2, rmatch := rangeAt rs m.2 }

/-- A CharClass object: ranges plus `_block_cache` (256 slots, unicode5.py:550-551). -/
structure Obj where
  ranges : List Range
  cache : List (Option (List Bool))

/-- `_clear_cache`, unicode5.py:550-551. -/
def emptyCache : List (Option (List Bool)) := List.replicate 256 none

/-- `CharClass.test`, unicode5.py:553-632, for a character `c`.  Returns the object with
its (possibly updated) cache and the answer.  `IndexError` is raised by the cache
lookup for `block_num ≥ 256`. -/
def Obj.test (o : Obj) (c : Nat) : Obj × Bool :=
  if o.ranges.isEmpty then (o, false)
  else
    let blockNum := c / 256           -- cv >> 8
    match o.cache[blockNum]? with
    | none => (o, (search o.ranges c).1)          -- except IndexError
    | some none =>
      let block := buildBlock o.ranges blockNum
      ({ o with cache := o.cache.set blockNum (some block) }, block.getD (c % 256) false)
    | some (some block) => (o, block.getD (c % 256) false)

/-! ## Operation histories -/

/-- The mutating methods of CharClass. -/
inductive Op where
  | addChar (c : Nat)
  | addRange (a z : Nat)
  | addClass (cs : List Range)        -- argument: the ranges of another object
  | subtractChar (c : Nat)
  | subtractRange (a z : Nat)
  | subtractClass (cs : List Range)
  | negate

/-- The effect of one mutating method on `self.ranges`. -/
def applyOp (rs : List Range) : Op → List Range
  | .addChar c => addChar rs c
  | .addRange a z => addRange rs a z
  | .addClass cs => addClass rs cs
  | .subtractChar c => subtractChar rs c
  | .subtractRange a z => subtractRange rs a z
  | .subtractClass cs => subtractClass rs cs
  | .negate => negate rs

/-- How a CharClass object came to be: `CharClass()` followed by method calls, where the
argument of `add_class`/`subtract_class` is another object with its own history.  The
constructor (unicode5.py:177-190) is itself such a sequence: it starts from no
ranges and calls `add_char` per character of a text argument, `add_range` for a
tuple/list and `add_class` for a class. -/
inductive Hist where
  | new
  | addChar (h : Hist) (c : Nat)
  | addRange (h : Hist) (a z : Nat)
  | addClass (h : Hist) (arg : Hist)
  | subtractChar (h : Hist) (c : Nat)
  | subtractRange (h : Hist) (a z : Nat)
  | subtractClass (h : Hist) (arg : Hist)
  | negate (h : Hist)

/-- The stored ranges of the object with the given history. -/
def Hist.ranges : Hist → List Range
  | .new => []
  | .addChar h c => applyOp h.ranges (.addChar c)
  | .addRange h a z => applyOp h.ranges (.addRange a z)
  | .addClass h arg => applyOp h.ranges (.addClass arg.ranges)
  | .subtractChar h c => applyOp h.ranges (.subtractChar c)
  | .subtractRange h a z => applyOp h.ranges (.subtractRange a z)
  | .subtractClass h arg => applyOp h.ranges (.subtractClass arg.ranges)
  | .negate h => applyOp h.ranges .negate

/-- Whether an operation clears the cache: every mutator ends with
`self._clear_cache()` except the early `return` of `add_range` when both ends
fall in the same range, unicode5.py:343-345 (`ranges` is then unchanged). -/
def clearsCache (rs : List Range) : Op → Bool
  | .addRange a0 z0 =>
    let a := if z0 < a0 then z0 else a0
    let z := if z0 < a0 then a0 else z0
    ¬ (!rs.isEmpty && (search rs a).1 && (search rs z).1 && (search rs a).2 == (search rs z).2)
  | _ => true

/-- A mutating method applied to an object with its cache. -/
def Obj.apply (o : Obj) (op : Op) : Obj :=
  { ranges := applyOp o.ranges op
    cache := if clearsCache o.ranges op then emptyCache else o.cache }

/-- An event in the life of one object: a mutation or a `test`. -/
inductive Event where
  | mutate (op : Op)
  | tst (c : Nat)

def Obj.step (o : Obj) : Event → Obj
  | .mutate op => o.apply op
  | .tst c => (o.test c).1

/-- The object after `CharClass()` and a history of events. -/
def Obj.run (evs : List Event) : Obj := evs.foldl Obj.step { ranges := [], cache := emptyCache }

end Verif.CharClass

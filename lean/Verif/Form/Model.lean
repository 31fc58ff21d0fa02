/-!
# QTI test forms: selection and ordering

Model of `TestForm` (`/repo/pyslet/qtiv2/tests.py` 560-754).

Identifiers are lists of character codes (45 is `-`).  A component of the list
built by `TestForm` is an `Option Id`: Python's list may hold `None` in the
place of a free slot.  The random module is an arbitrary infinite stream of
numbers: `random.choice` takes the next number modulo the length of the
sequence; `random.shuffle` repeatedly takes out a chosen element (a
simplification of CPython's Fisher-Yates loop; both reach every permutation).
-/

namespace Verif.Form

abbrev Id := List Nat

/-- An entry of `TestForm.components`: `None` is a free slot (tests.py:667). -/
abbrev Comp := Option Id

/-- The exceptions raised while a form is built: `core.SelectionError`,
`AttributeError`, `IndexError`, `KeyError`, `TypeError`, `ValueError`. -/
inductive Err
  | selection | attribute | index | key | type | value
  deriving DecidableEq, Repr

/-- The future results of the random module. -/
abbrev Src := Nat → Nat

/-- The selection element of a section (tests.py:274-302): its `select`
attribute (`None` when it is missing) and `withReplacement`. -/
structure Sel where
  select : Option Int
  repl : Bool
  deriving DecidableEq, Repr

/-- The attributes of a section part (tests.py:333-371, 432-476).  `visible` and
`keep` (keepTogether) matter only for sections. -/
structure Info where
  id : Id
  required : Bool := false
  fixed : Bool := false
  isSect : Bool := false
  visible : Bool := true
  keep : Bool := true
  deriving DecidableEq, Repr

/-- The tree of section parts: item references and sections with their
selection, ordering (`shuffle`) and children (tests.py:432-529). -/
inductive SPart
  | item (info : Info)
  | sect (info : Info) (sel : Option Sel) (shuffle : Bool) (ch : List SPart)

/-- The attributes of a section part; `isSect` is what `isinstance(child,
AssessmentSection)` finds. -/
def SPart.info : SPart → Info
  | .item i => { i with isSect := false }
  | .sect i _ _ _ => { i with isSect := true }

/-- A test part: identifier and sections (tests.py:168-220). -/
structure TPart where
  id : Id
  sections : List SPart

/-- An assessment test: its parts (tests.py:14-105). -/
abbrev Test := List TPart

mutual
/-- The section parts registered by `content_changed` (tests.py:383-386) under
a section part, itself included. -/
def SPart.all : SPart → List Info
  | .item i => [{ i with isSect := false }]
  | .sect i _ _ ch => { i with isSect := true } :: allL ch
/-- The same for a list of section parts. -/
def allL : List SPart → List Info
  | [] => []
  | p :: ps => p.all ++ allL ps
end

/-- All the section parts of the test. -/
def Test.all (t : Test) : List Info := t.flatMap (fun p => allL p.sections)

/-- `self.test.GetPart(id)` for identifiers of section parts
(tests.py:101-105). -/
def Test.get (t : Test) (id : Id) : Option Info := t.all.find? (fun i => i.id = id)

/-- `random.choice(range(n))`. -/
def draw (n : Nat) (s : Src) : Nat := s 0 % n
/-- The rest of the stream. -/
def next (s : Src) : Src := fun k => s (k + 1)

/-- Step 1, the required children (tests.py:630-634). -/
def requiredIdx (infos : List Info) : List Nat :=
  (List.range infos.length).filter (fun i => (infos[i]?.map Info.required).getD false)

/-- Step 1, the bag of children left (tests.py:627, 633-634). -/
def bag (infos : List Info) (repl : Bool) : List Nat :=
  if repl then List.range infos.length
  else (List.range infos.length).filter
    (fun i => !(infos[i]?.map Info.required).getD false)

/-- Step 2, top up the selection with `k` more children (tests.py:640-651). -/
def topUp (repl : Bool) : Nat → List Nat → List Nat → Src → Except Err (List Nat × Src)
  | 0, _, sel, s => .ok (sel, s)
  | k + 1, bag, sel, s =>
    if bag = [] then .error .selection
    else
      let i := bag.getD (draw bag.length s) 0
      topUp repl k (if repl then bag else bag.erase i) (sel ++ [i]) (next s)

/-- Insertion into a sorted list. -/
def insertNat (x : Nat) : List Nat → List Nat
  | [] => [x]
  | y :: l => if x ≤ y then x :: y :: l else y :: insertNat x l

/-- Step 3, `selection.sort()` (tests.py:655), as an insertion sort. -/
def sortNat : List Nat → List Nat
  | [] => []
  | x :: l => insertNat x (sortNat l)

/-- The grand-children of an invisible section go into the shuffle list
(tests.py:674-682). -/
def addGrand (get : Id → Option Info) : List Comp → List Id → Except Err (List Id)
  | [], acc => .ok acc
  | none :: _, _ => .error .key
  | some g :: r, acc =>
    match get g with
    | none => .error .key
    | some i => if i.fixed then .error .selection else addGrand get r (acc ++ [g])

/-- A child together with what `self.Select(child, expand)` does. -/
abbrev Child := Info × (Bool → Src → Except Err (List Comp × Src))

/-- Step 4, the loop over the selected children (tests.py:660-695): builds
`new_selection` and `shuffle_list`. -/
def place (get : Id → Option Info) (shuffle expand : Bool) (ch : List Child) :
    List Nat → List Comp → List Id → Src → Except Err (List Comp × List Id × Src)
  | [], new, shuf, s => .ok (new, shuf, s)
  | i :: is, new, shuf, s =>
    match ch[i]? with
    | none => .error .index
    | some (c, sub) =>
      if shuffle ∧ c.fixed = false then
        if c.isSect ∧ c.visible = false ∧ c.keep = false then
          match sub false s with
          | .error e => .error e
          | .ok (g, s) =>
            match addGrand get g shuf with
            | .error e => .error e
            | .ok shuf => place get shuffle expand ch is (new ++ [none]) shuf s
        else place get shuffle expand ch is (new ++ [none]) (shuf ++ [c.id]) s
      else if c.isSect ∧ expand = true then
        match sub true s with
        | .error e => .error e
        | .ok (b, s) =>
          place get shuffle expand ch is (new ++ [some c.id] ++ b ++ [some (45 :: c.id)]) shuf s
      else place get shuffle expand ch is (new ++ [some c.id]) shuf s

/-- `random.shuffle` (tests.py:699). -/
def shuffleList : Nat → List Id → Src → List Id × Src
  | 0, _, s => ([], s)
  | n + 1, l, s =>
    let i := draw l.length s
    let r := shuffleList n (l.eraseIdx i) (next s)
    (l.getD i [] :: r.1, r.2)

/-- One element of the shuffle list into each free slot (tests.py:709-714). -/
def mkBuckets : List Comp → List Id → Except Err (List (List Id) × List Id)
  | [], r => .ok ([], r)
  | some _ :: c, r => mkBuckets c r
  | none :: _, [] => .error .index
  | none :: c, x :: r =>
    match mkBuckets c r with
    | .error e => .error e
    | .ok (b, r) => .ok ([x] :: b, r)

/-- The rest go into buckets chosen at random (tests.py:715-718). -/
def spread : List Id → List (List Id) → Src → Except Err (List (List Id) × Src)
  | [], b, s => .ok (b, s)
  | x :: r, b, s =>
    if b = [] then .error .index
    else spread r (b.modify (draw b.length s) (· ++ [x])) (next s)

/-- A bucket becomes a list of components (tests.py:722-728).  For a section the
code calls `self.Select(childID, True)` with the identifier of the section in
the place of the section, so `section.SectionPart` raises AttributeError. -/
def newBucket (get : Id → Option Info) : List Id → Except Err (List Comp)
  | [] => .ok []
  | x :: b =>
    match get x with
    | none => .error .key
    | some i =>
      if i.isSect then .error .attribute
      else match newBucket get b with
        | .error e => .error e
        | .ok l => .ok (some x :: l)

/-- `i = selection.index(None); selection[i:i + 1] = new_bucket`
(tests.py:729-730). -/
def replaceNone (b : List Comp) : List Comp → Except Err (List Comp)
  | [] => .error .value
  | none :: l => .ok (b ++ l)
  | some x :: l =>
    match replaceNone b l with
    | .error e => .error e
    | .ok l => .ok (some x :: l)

/-- Splice the buckets into the selection (tests.py:720-730). -/
def splice (get : Id → Option Info) : List (List Id) → List Comp → Except Err (List Comp)
  | [], sel => .ok sel
  | b :: bs, sel =>
    match newBucket get b with
    | .error e => .error e
    | .ok nb =>
      match replaceNone nb sel with
      | .error e => .error e
      | .ok sel => splice get bs sel

/-- Step 5 (tests.py:697-731). -/
def step5 (get : Id → Option Info) (sel : List Comp) (shuf : List Id) (s : Src) :
    Except Err (List Comp × Src) :=
  if shuf = [] then .ok (sel, s)
  else
    let r := shuffleList shuf.length shuf s
    match mkBuckets sel r.1 with
    | .error e => .error e
    | .ok (b, rest) =>
      match spread rest b r.2 with
      | .error e => .error e
      | .ok (b, s) =>
        match splice get b sel with
        | .error e => .error e
        | .ok l => .ok (l, s)

/-- `target_size` and `with_replacement` (tests.py:620-625); the target is
`None` when the `select` attribute is missing. -/
def target (sel : Option Sel) (n : Nat) : Option Int × Bool :=
  match sel with
  | none => (some n, false)
  | some x => (x.select, x.repl)

/-- `TestForm.select` for a section with the given selection, ordering and
children (tests.py:609-731). -/
def selectBody (get : Id → Option Info) (sel : Option Sel) (shuffle : Bool)
    (ch : List Child) (expand : Bool) (s : Src) : Except Err (List Comp × Src) :=
  let infos := ch.map Prod.fst
  let req := requiredIdx infos
  match target sel infos.length with
  | (none, _) => .error .type
  | (some t, repl) =>
    if (req.length : Int) > t then .error .selection
    else
      match topUp repl (t - req.length).toNat (bag infos repl) req s with
      | .error e => .error e
      | .ok (picks, s) =>
        match place get shuffle expand ch (sortNat picks) [] [] s with
        | .error e => .error e
        | .ok (new, shuf, s) => step5 get new shuf s

mutual
/-- `self.Select(part, expand)`; an item reference has no `SectionPart`
attribute. -/
def select (get : Id → Option Info) : SPart → Bool → Src → Except Err (List Comp × Src)
  | .item _ => fun _ _ => .error .attribute
  | .sect _ sel sh ch => selectBody get sel sh (selects get ch)
/-- The children of a section, each with its `Select`. -/
def selects (get : Id → Option Info) : List SPart → List Child
  | [] => []
  | p :: ps => (p.info, select get p) :: selects get ps
end

/-- The sections of a test part (tests.py:600-605). -/
def formSections (get : Id → Option Info) : List SPart → Src → Except Err (List Comp × Src)
  | [], s => .ok ([], s)
  | p :: ps, s =>
    match select get p true s with
    | .error e => .error e
    | .ok (b, s) =>
      match formSections get ps s with
      | .error e => .error e
      | .ok (r, s) =>
        .ok ([some p.info.id] ++ b ++ [some (45 :: p.info.id)] ++ r, s)

/-- The parts of the test (tests.py:597-606). -/
def formParts (get : Id → Option Info) : List TPart → Src → Except Err (List Comp × Src)
  | [], s => .ok ([], s)
  | p :: ps, s =>
    match formSections get p.sections s with
    | .error e => .error e
    | .ok (b, s) =>
      match formParts get ps s with
      | .error e => .error e
      | .ok (r, s) => .ok ([some p.id] ++ b ++ [some (45 :: p.id)] ++ r, s)

/-- `TestForm(test).components` (tests.py:588-606). -/
def form (t : Test) (s : Src) : Except Err (List Comp) :=
  match formParts t.get t s with
  | .error e => .error e
  | .ok (r, _) => .ok (some [] :: r)

end Verif.Form

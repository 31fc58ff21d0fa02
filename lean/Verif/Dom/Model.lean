import Verif.Xml.Doc

/-!
# Elements, their parents and their ids: model (pyslet/xml/structures.py)

The heap of elements and documents, for element classes that declare an `ID` attribute and use the default content model
(`_children`, no attributes named after child classes, mixed content).
-/
namespace Verif.Dom

abbrev Str := List Nat

/-- `Node.parent`: a document or an element. -/
inductive Par where
  | doc (d : Nat)
  | el (n : Nat)
  deriving DecidableEq

/-- An item of `_children`. -/
inductive Kid where
  | text (s : Str)
  | el (n : Nat)
  deriving DecidableEq

/-- `Element`, structures.py:1442-1458: `parent`, `id`, `_children`. -/
structure ENode where
  parent : Option Par
  id : Option Str
  kids : List Kid

/-- `Document`, structures.py:572-603: `root` and `idTable`. -/
structure DDoc where
  root : Option Nat
  table : List (Str × Nat)

/-- The heap: elements below `next` and documents below `ndocs` have been created. -/
structure St where
  node : Nat → ENode
  next : Nat
  doc : Nat → DDoc
  ndocs : Nat

/-- Assignment to an attribute of an object. -/
def upd {α : Type} (f : Nat → α) (a : Nat) (v : α) : Nat → α := fun x => if x = a then v else f x

/-- No objects. -/
def St.init : St := ⟨fun _ => ⟨none, none, []⟩, 0, fun _ => ⟨none, []⟩, 0⟩

/-- The element children, in order. -/
def elKids (l : List Kid) : List Nat := l.filterMap (fun k => match k with | .el n => some n | .text _ => none)

/-- `Element.get_document`, structures.py:1487-1498; to a depth. -/
def docUp (s : St) : Nat → Nat → Option Nat
  | 0, _ => none
  | f + 1, n =>
    match (s.node n).parent with
    | none => none
    | some (.doc d) => some d
    | some (.el p) => docUp s f p

/-- `get_document`: a parent is older than its children (`Inv`), so the depth is never reached. -/
def getDoc (s : St) (n : Nat) : Option Nat := docUp s (n + 1) n

/-- `Document.unregister_element`, structures.py:755-762; none for `KeyError`. -/
def unreg (s : St) (t : List (Str × Nat)) (n : Nat) : Option (List (Str × Nat)) :=
  match (s.node n).id with
  | none => some t
  | some i => if (t.lookup i).isSome then some (t.filter (fun e => e.1 != i)) else none

/-- `Element.detach_from_doc(doc)`, structures.py:2218-2236: the element, then its children; to a depth. -/
def detachTab (s : St) : Nat → List (Str × Nat) → Nat → Option (List (Str × Nat))
  | 0, t, _ => some t
  | f + 1, t, n => (unreg s t n).bind (fun t => (elKids (s.node n).kids).foldlM (detachTab s f) t)

/-- `detach_from_doc()` without a document: structures.py:2229-2231. -/
def detachFromDoc (s : St) (n : Nat) : Option St :=
  match getDoc s n with
  | none => some s
  | some d => (detachTab s s.next (s.doc d).table n).map (fun t => { s with doc := upd s.doc d ⟨(s.doc d).root, t⟩ })

/-- `child.detach_from_doc(); child.parent = None`, structures.py:664-665, 1995-1996, 2014-2015, 2397-2398. -/
def orphan (s : St) (n : Nat) : Option St :=
  (detachFromDoc s n).map (fun s => { s with node := upd s.node n ⟨none, (s.node n).id, (s.node n).kids⟩ })

/-- What is raised. -/
inductive Err where
  | clash      -- XMLIDClashError
  | key        -- KeyError
  | attr       -- AttributeError
  | idValue    -- XMLIDValueError
  | unknown    -- XMLUnknownChild
  | value      -- ValueError
  | noSuch     -- the call names an object that does not exist
  deriving DecidableEq

/-- The calls. -/
inductive Op where
  | newElement                          -- `cls(None)`
  | newDocument                         -- `Document()`
  | newDocumentOf (e : Nat)             -- `Document(root=e)`
  | addRoot (d : Nat)                   -- `d.add_child(cls)`
  | addChild (p : Nat)                  -- `p.add_child(cls)`
  | removeChild (p c : Nat)             -- `p.remove_child(c)`
  | setId (e : Nat) (i : Str)           -- `e.set_id(i)`
  | addData (e : Nat) (t : Str)         -- `e.add_data(t)`
  | setValue (e : Nat) (t : Option Str) -- `e.set_value(t)`
  | reset (e : Nat)                     -- `e.reset()`

/-- `is_valid_name`, structures.py:214-224. -/
def isValidName : Str → Bool
  | [] => false
  | c :: r => Xml.isNameStart c && r.all Xml.isNameChar

/-- The element and all below it, in document order; to a depth. -/
def flat (s : St) : Nat → Nat → List Nat
  | 0, _ => []
  | f + 1, n => n :: (elKids (s.node n).kids).flatMap (flat s f)

/-- The result of a call that may raise `KeyError` part way (the state then does not matter below). -/
def orKey (s : St) : Option St → St × Option Err
  | some s' => (s', none)
  | none => (s, some .key)

/-- A new element with a parent, structures.py:1442-1458. -/
def create (s : St) (p : Option Par) : St := { s with node := upd s.node s.next ⟨p, none, []⟩, next := s.next + 1 }

/-- `Document.__init__` with an element, structures.py:589-603: `attach_to_doc` runs before the table is there. -/
def newDocumentOf (s : St) (e : Nat) : St × Option Err :=
  if (s.node e).parent.isSome then (s, some .value)
  else
    let s' := { s with node := upd s.node e ⟨some (.doc s.ndocs), (s.node e).id, (s.node e).kids⟩,
                       doc := upd s.doc s.ndocs ⟨some e, []⟩, ndocs := s.ndocs + 1 }
    if (flat s s.next e).any (fun x => (s.node x).id.isSome) then (s', some .attr) else (s', none)

/-- The end of `Document.add_child`, structures.py:667-670. -/
def putRoot (s : St) (d : Nat) : St :=
  { create s (some (.doc d)) with doc := upd s.doc d ⟨some s.next, (s.doc d).table⟩ }

/-- `Document.add_child`, structures.py:654-671. -/
def addRoot (s : St) (d : Nat) : St × Option Err :=
  match (s.doc d).root with
  | none => (putRoot s d, none)
  | some r => orKey s ((orphan s r).map (fun s => putRoot { s with doc := upd s.doc d ⟨none, (s.doc d).table⟩ } d))

/-- `Element.add_child`, structures.py:1949-1953. -/
def addChild (s : St) (p : Nat) : St :=
  let s' := create s (some (.el p))
  { s' with node := upd s'.node p ⟨(s'.node p).parent, (s'.node p).id, (s'.node p).kids ++ [.el s.next]⟩ }

/-- `Element.remove_child`, structures.py:2010-2020. -/
def removeChild (s : St) (p c : Nat) : St × Option Err :=
  if (s.node p).kids.contains (.el c) then
    orKey s ((orphan s c).map (fun s => { s with node := upd s.node p ⟨(s.node p).parent, (s.node p).id, (s.node p).kids.erase (.el c)⟩ }))
  else (s, some .unknown)

/-- `Element.set_id`, structures.py:1501-1514, and `Document.register_element`, structures.py:743-752. -/
def setId (s : St) (e : Nat) (i : Str) : St × Option Err :=
  if isValidName i = false then (s, some .idValue)
  else
    let named (s : St) : St := { s with node := upd s.node e ⟨(s.node e).parent, some i, (s.node e).kids⟩ }
    match getDoc s e with
    | none => (named s, none)
    | some d =>
      match unreg s (s.doc d).table e with
      | none => (s, some .key)
      | some t =>
        if (t.lookup i).isSome then (named { s with doc := upd s.doc d ⟨(s.doc d).root, t⟩ }, some .clash)
        else (named { s with doc := upd s.doc d ⟨(s.doc d).root, (i, e) :: t⟩ }, none)

/-- `Element.add_data` for mixed content, structures.py:2244-2250. -/
def addText (l : List Kid) (t : Str) : List Kid :=
  match l.getLast? with
  | some (.text u) => l.dropLast ++ [.text (u ++ t)]
  | _ => l ++ [.text t]

/-- `Element.reset`, structures.py:2395-2399: each element child in turn. -/
def resetKids (s : St) (e : Nat) : Option St :=
  ((elKids (s.node e).kids).foldlM orphan s).map
    (fun s => { s with node := upd s.node e ⟨(s.node e).parent, (s.node e).id, []⟩ })

/-- A call. -/
def step (s : St) : Op → St × Option Err
  | .newElement => (create s none, none)
  | .newDocument => ({ s with ndocs := s.ndocs + 1 }, none)
  | .newDocumentOf e => if e < s.next then newDocumentOf s e else (s, some .noSuch)
  | .addRoot d => if d < s.ndocs then addRoot s d else (s, some .noSuch)
  | .addChild p => if p < s.next then (addChild s p, none) else (s, some .noSuch)
  | .removeChild p c => if p < s.next ∧ c < s.next then removeChild s p c else (s, some .noSuch)
  | .setId e i => if e < s.next then setId s e i else (s, some .noSuch)
  | .addData e t =>
    if e < s.next then ({ s with node := upd s.node e ⟨(s.node e).parent, (s.node e).id, addText (s.node e).kids t⟩ }, none)
    else (s, some .noSuch)
  -- structures.py:2338-2360
  | .setValue e t =>
    if e < s.next then
      orKey s ((resetKids s e).map (fun s => { s with
        node := upd s.node e ⟨(s.node e).parent, (s.node e).id, match t with | none => [] | some t => [.text t]⟩ }))
    else (s, some .noSuch)
  | .reset e => if e < s.next then orKey s (resetKids s e) else (s, some .noSuch)

/-- `Document.get_element_by_id`, structures.py:765-769. -/
def getElementById (s : St) (d : Nat) (i : Str) : Option Nat := (s.doc d).table.lookup i

/-! ### Specification -/

/-- `x` is in the tree of the document `d`, going down from the root. -/
inductive Reach (s : St) (d : Nat) : Nat → Prop
  | root {x : Nat} : (s.doc d).root = some x → Reach s d x
  | child {p x : Nat} : Reach s d p → Kid.el x ∈ (s.node p).kids → Reach s d x

/-- A history of calls, none of which fails with `XMLIDClashError` or `AttributeError`: the state it leads to. -/
inductive History : List Op → St → Prop
  | nil : History [] St.init
  | call {ops : List Op} {s : St} (o : Op) : History ops s → (step s o).2 ≠ some .clash → (step s o).2 ≠ some .attr →
      History (ops ++ [o]) (step s o).1

end Verif.Dom

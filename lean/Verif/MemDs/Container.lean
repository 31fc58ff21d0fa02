import Verif.MemDs.Index

/-!
# The in-memory entity container

Models `pyslet.odata2.memds.InMemoryEntityStore` (keys, streams and deletion: memds.py:71-97,
165-195, 219-264), `EntityCollection.insert_entity`, `update_entity`, `__delitem__`
(memds.py:417-542), `NavigationCollection` (memds.py:650-782) and the binding of entities
(csdl.py:2231-2271, 2460-2486, memds.py:448-450).

Entity sets and association sets are numbered; keys have any type with equality; the values of an
entity are opaque here (`Row.lean` models them).  Every call is atomic: the container's lock is held
(memds.py:427, 478, 490).  Simplifications: bindings name existing entities by key (a binding that
is itself a new entity is inserted by a nested call, not modelled); automatic keys are not modelled;
arguments have the right entity set and matching keys (otherwise TypeError or ValueError).
-/
namespace Verif.MemDs

/-- csdl.py Multiplicity. -/
inductive Mult where
  | zeroToOne | one | many
  deriving DecidableEq, Repr

/-- An association set and its index (memds.py:280-301): the two entity sets, the multiplicity of
each end, and whether each end has a navigation property (`linkEnds[...]` is not None). -/
structure Assoc where
  fromSet : Nat
  toSet : Nat
  fromMult : Mult
  toMult : Mult
  fromNav : Bool
  toNav : Bool
  deriving DecidableEq, Repr

/-- The association sets of a container, by position. -/
abbrev Schema := List Assoc

/-- How a call ended. -/
inductive Res where
  | ok
  /-- KeyError -/
  | keyErr
  /-- NavigationConstraintError -/
  | navErr
  /-- ConstraintError (duplicate key) -/
  | dupErr
  /-- RecursionError -/
  | recErr
  deriving DecidableEq, Repr

variable {K V : Type} [DecidableEq K]

/-- The state of a container (memds.py:40-50, 293-295, 792-798). -/
structure St (K V : Type) where
  data : Nat → K → Option V
  streams : Nat → K → Option (List Nat)
  idx : Nat → Index K K
  deleting : List (Nat × K)

/-- A new container. -/
def St.empty : St K V := ⟨fun _ _ => none, fun _ _ => none, fun _ => Index.empty, []⟩

/-- Store a row. -/
def St.putData (s : St K V) (set : Nat) (key : K) (v : V) : St K V :=
  { s with data := fun n => if n = set then put (s.data n) key v else s.data n }

/-- Change one association index. -/
def St.setIdx (s : St K V) (aid : Nat) (i : Index K K) : St K V :=
  { s with idx := fun n => if n = aid then i else s.idx n }

/-! ## Navigation -/

/-- `lookupMethod(self.key)` (memds.py:656-661). -/
def St.lookup (s : St K V) (aid : Nat) (reverse : Bool) (k : K) : List K :=
  if reverse then (s.idx aid).linksTo k else (s.idx aid).linksFrom k

/-- `add_link` in the direction of a navigation collection (memds.py:733-736). -/
def St.link (s : St K V) (aid : Nat) (reverse : Bool) (self key : K) : St K V :=
  s.setIdx aid (if reverse then (s.idx aid).addLink key self else (s.idx aid).addLink self key)

/-- `remove_link` in the direction of a navigation collection (memds.py:748-751). -/
def St.unlink (s : St K V) (aid : Nat) (reverse : Bool) (self key : K) : St K V :=
  s.setIdx aid (if reverse then (s.idx aid).removeLink key self else (s.idx aid).removeLink self key)

/-- Multiplicity of the source of a navigation (csdl.py:4924-4936). -/
def Assoc.srcMult (a : Assoc) (reverse : Bool) : Mult := if reverse then a.toMult else a.fromMult

/-- Multiplicity of the target of a navigation. -/
def Assoc.tgtMult (a : Assoc) (reverse : Bool) : Mult := if reverse then a.fromMult else a.toMult

/-- The entity set navigated from. -/
def Assoc.srcSet (a : Assoc) (reverse : Bool) : Nat := if reverse then a.toSet else a.fromSet

/-- The entity set navigated to. -/
def Assoc.tgtSet (a : Assoc) (reverse : Bool) : Nat := if reverse then a.fromSet else a.toSet

/-- `NavigationCollection.__setitem__` (memds.py:715-736); `self.collection[key] = value` raises
KeyError unless the target exists (csdl.py:3237-3244). -/
def navSet (a : Assoc) (aid : Nat) (reverse : Bool) (s : St K V) (self key : K) : St K V × Res :=
  if key ∈ s.lookup aid reverse self then (s, .ok)
  else if s.data (a.tgtSet reverse) key |>.isNone then (s, .keyErr)
  else if a.tgtMult reverse ≠ .many ∧ s.lookup aid reverse self ≠ [] then (s, .navErr)
  else if a.srcMult reverse ≠ .many ∧ s.lookup aid (!reverse) key ≠ [] then (s, .navErr)
  else (s.link aid reverse self key, .ok)

/-- `NavigationCollection.__delitem__` (memds.py:738-751). -/
def navDel (a : Assoc) (aid : Nat) (reverse : Bool) (s : St K V) (self key : K) : St K V × Res :=
  if a.srcMult reverse = .one ∨ a.tgtMult reverse = .one then (s, .navErr)
  else if key ∉ s.lookup aid reverse self then (s, .keyErr)
  else (s.unlink aid reverse self key, .ok)

/-- The loop of memds.py:773-782. -/
def unlinkOthers (aid : Nat) (reverse : Bool) (self key : K) : List K → St K V → St K V
  | [], s => s
  | o :: os, s =>
    unlinkOthers aid reverse self key os (if o ≠ key then s.unlink aid reverse self o else s)

/-- `NavigationCollection.replace` (memds.py:753-782): the checks of `__setitem__` are skipped
unless the source is required. -/
def navReplace (a : Assoc) (aid : Nat) (reverse : Bool) (s : St K V) (self key : K) : St K V × Res :=
  if s.lookup aid reverse self = [key] then (s, .ok)
  else if a.srcMult reverse = .one then
    (if s.lookup aid reverse self ≠ [] then (s, .navErr)
     else navSet a aid reverse s self key)
  else
    (unlinkOthers aid reverse self key (s.lookup aid reverse self)
      (if key ∉ s.lookup aid reverse self then s.link aid reverse self key else s), .ok)

/-! ## Inserting and updating -/

/-- One navigation property with the keys bound to it (csdl.py:2091, 2200-2222). -/
structure Binding (K : Type) where
  aid : Nat
  reverse : Bool
  keys : List K

/-- Run a step over a list until one fails; the state keeps what was done before the failure. -/
def loopM {S X : Type} (f : S → X → S × Res) : S → List X → S × Res
  | s, [] => (s, .ok)
  | s, x :: xs =>
    match f s x with
    | (s', .ok) => loopM f s' xs
    | r => r

/-- One turn of `DeferredValue.update_bindings` (csdl.py:2248-2271) for a key: the target is read
from its base collection, then linked. -/
def bindOne (sch : Schema) (self : K) (b : Binding K) (s : St K V) (key : K) : St K V × Res :=
  match sch[b.aid]? with
  | none => (s, .keyErr)
  | some a =>
    if s.data (a.tgtSet b.reverse) key |>.isNone then (s, .keyErr)
    else if a.tgtMult b.reverse = .many then navSet a b.aid b.reverse s self key
    else navReplace a b.aid b.reverse s self key

/-- `update_bindings` of one navigation property (csdl.py:2237-2271). -/
def bindAll (sch : Schema) (self : K) (s : St K V) (b : Binding K) : St K V × Res :=
  loopM (bindOne sch self b) s b.keys

/-- `EntityCollection.update_bindings` (csdl.py:3212-3221). -/
def updateBindings (sch : Schema) (self : K) (bs : List (Binding K)) (s : St K V) : St K V × Res :=
  loopM (bindAll sch self) s bs

/-- The navigation properties of an entity set: association and direction. -/
def navProps (sch : Schema) (set : Nat) : List (Nat × Bool × Assoc) :=
  (sch.zipIdx).flatMap fun (a, aid) =>
    (if a.fromSet = set ∧ a.fromNav then [(aid, false, a)] else []) ++
    (if a.toSet = set ∧ a.toNav then [(aid, true, a)] else [])

/-- Is a navigation property bound? -/
def boundTo (bs : List (Binding K)) (aid : Nat) (reverse : Bool) : Bool :=
  bs.any fun b => b.aid == aid && b.reverse == reverse && !b.keys.isEmpty

/-- Ends of the entity set without navigation property whose other end is required
(`unboundPrincipal`, csdl.py:4624-4635, 4690-4698).  A set with two such ends is refused here; pyslet
weakens the associations instead (`drop_principal`). -/
def unboundEnds (sch : Schema) (set : Nat) : List (Nat × Bool) :=
  (sch.zipIdx).flatMap fun (a, aid) =>
    (if a.fromSet = set ∧ ¬ a.fromNav ∧ a.toMult = .one then [(aid, false)] else []) ++
    (if a.toSet = set ∧ ¬ a.toNav ∧ a.fromMult = .one then [(aid, true)] else [])

/-- `check_navigation_constraints` (csdl.py:2460-2486): every required navigation property is bound,
except the one for the end being inserted through. -/
def navOk (sch : Schema) (set : Nat) (bs : List (Binding K)) (ignore : Option (Nat × Bool)) : Bool :=
  (unboundEnds sch set).all (fun e => some e == ignore) &&
    (navProps sch set).all fun (aid, rev, a) =>
      a.tgtMult rev != .one || boundTo bs aid rev || some (aid, rev) == ignore

/-- `EntityCollection.insert_entity` (memds.py:417-450) with `add_entity` (memds.py:92-97). -/
def insertEntity (sch : Schema) (s : St K V) (set : Nat) (key : K) (v : V) (bs : List (Binding K))
    (ignore : Option (Nat × Bool)) : St K V × Res :=
  if navOk sch set bs ignore then
    (if (s.data set key).isSome then (s, .dupErr)
     else updateBindings sch key bs (s.putData set key v))
  else (s, .navErr)

/-- `NavigationCollection.insert_entity` (memds.py:674-680). -/
def navInsert (sch : Schema) (a : Assoc) (aid : Nat) (reverse : Bool) (s : St K V) (self key : K)
    (v : V) (bs : List (Binding K)) : St K V × Res :=
  match insertEntity sch s (a.tgtSet reverse) key v bs (some (aid, !reverse)) with
  | (s', .ok) => navSet a aid reverse s' self key
  | r => r

/-- `EntityCollection.update_entity` (memds.py:476-481, 165-191); the new row is computed from the
old one. -/
def updateEntity (sch : Schema) (s : St K V) (set : Nat) (key : K) (f : V → V)
    (bs : List (Binding K)) : St K V × Res :=
  match s.data set key with
  | none => (s, .keyErr)
  | some v => updateBindings sch key bs (s.putData set key (f v))

/-- `update_entity_stream` (memds.py:193-195), called with the key of an entity just read or
inserted (memds.py:591-592, 597, 625). -/
def writeStream (s : St K V) (set : Nat) (key : K) (d : List Nat) : St K V × Res :=
  if (s.data set key).isNone then (s, .keyErr)
  else ({ s with streams := fun n => if n = set then put (s.streams n) key d else s.streams n }, .ok)

/-! ## Deleting -/

/-- The hooks called for one association by `delete_entity` (memds.py:251-254). -/
def hooks (a : Assoc) (set : Nat) (key : K) (i : Index K K) : Index K K :=
  let i1 := if a.fromSet = set then i.deleteHook key else i
  if a.toSet = set then i1.rdeleteHook key else i1

/-- `InMemoryEntityStore.delete_entity` (memds.py:249-257). -/
def deleteEntity (sch : Schema) (s : St K V) (set : Nat) (key : K) : St K V :=
  { s with
    idx := fun n =>
      match sch[n]? with
      | none => s.idx n
      | some a => hooks a set key (s.idx n)
    data := fun n => if n = set then del (s.data n) key else s.data n
    streams := fun n => if n = set then del (s.streams n) key else s.streams n }

/-- The link ends of an entity set (csdl.py:4487-4491, 4684-4699): association, whether it is the
"to" end, and the association.  For an association between a set and itself both ends are listed. -/
def linkEnds (sch : Schema) (set : Nat) : List (Nat × Bool × Assoc) :=
  (sch.zipIdx).flatMap fun (a, aid) =>
    (if a.fromSet = set then [(aid, false, a)] else []) ++
    (if a.toSet = set then [(aid, true, a)] else [])

/-- Multiplicity of a link end (csdl.py:4935, memds.py:492). -/
def Assoc.endMult (a : Assoc) (isTo : Bool) : Mult := if isTo then a.toMult else a.fromMult

/-- Has a link end a navigation property (memds.py:491)? -/
def Assoc.endNav (a : Assoc) (isTo : Bool) : Bool := if isTo then a.toNav else a.fromNav

/-- The entity set of a link end. -/
def Assoc.endSet (a : Assoc) (isTo : Bool) : Nat := if isTo then a.toSet else a.fromSet

/-- One linked entity of a cascade (memds.py:509-523, 531-539). `reverse` is the direction in which
the index was read. -/
def cascadeOne (recur : St K V → Nat → K → St K V × Res) (a : Assoc) (aid : Nat) (nav : Bool)
    (reverse : Bool) (key : K) (s : St K V) (other : K) : St K V × Res :=
  if nav = false ∧ (a.tgtSet reverse, other) ∉ s.deleting then (s, .navErr)
  else recur (s.unlink aid reverse key other) (a.tgtSet reverse) other

/-- One link end (memds.py:491-539): ends that are not required are skipped; the index is looked up
first among the associations *from* this set, then among those *to* it; the linked keys are read
once, before the loop. -/
def cascadeEnd (recur : St K V → Nat → K → St K V × Res) (set : Nat) (key : K) (s : St K V)
    (e : Nat × Bool × Assoc) : St K V × Res :=
  if e.2.2.endMult e.2.1 ≠ .one then (s, .ok)
  else
    loopM (cascadeOne recur e.2.2 e.1 (e.2.2.endNav e.2.1) (decide (e.2.2.fromSet ≠ set)) key) s
      (s.lookup e.1 (decide (e.2.2.fromSet ≠ set)) key)

/-- `EntityCollection.__delitem__` (memds.py:483-542).  `fuel` is the depth of recursion Python
allows. -/
def delItem (sch : Schema) : Nat → St K V → Nat → K → St K V × Res
  | 0, s, _, _ => (s, .recErr)
  | fuel + 1, s, set, key =>
    if (set, key) ∈ s.deleting then (s, .ok)
    else if (s.data set key).isNone then (s, .keyErr)
    else
      let r := loopM (cascadeEnd (delItem sch fuel) set key)
        { s with deleting := (set, key) :: s.deleting } (linkEnds sch set)
      let s2 := if r.2 = .ok then deleteEntity sch r.1 set key else r.1
      ({ s2 with deleting := s2.deleting.erase (set, key) }, r.2)

/-! ## Calls -/

/-- The calls that change a container. -/
inductive Op (K V : Type) where
  | insert (set : Nat) (key : K) (v : V) (bs : List (Binding K))
  | navInsert (aid : Nat) (reverse : Bool) (self key : K) (v : V) (bs : List (Binding K))
  | update (set : Nat) (key : K) (f : V → V) (bs : List (Binding K))
  | stream (set : Nat) (key : K) (d : List Nat)
  | navSet (aid : Nat) (reverse : Bool) (self key : K)
  | navDel (aid : Nat) (reverse : Bool) (self key : K)
  | navReplace (aid : Nat) (reverse : Bool) (self key : K)
  | delete (set : Nat) (key : K)

/-- Use the association with a given number, if there is one. -/
def withAssoc (sch : Schema) (s : St K V) (aid : Nat) (f : Assoc → St K V × Res) : St K V × Res :=
  match sch[aid]? with
  | none => (s, .keyErr)
  | some a => f a

/-- A call; `depth` is Python's recursion limit. -/
def step (sch : Schema) (depth : Nat) (s : St K V) : Op K V → St K V × Res
  | .insert set key v bs => insertEntity sch s set key v bs none
  | .navInsert aid rev self key v bs =>
    withAssoc sch s aid fun a => navInsert sch a aid rev s self key v bs
  | .update set key f bs => updateEntity sch s set key f bs
  | .stream set key d => writeStream s set key d
  | .navSet aid rev self key => withAssoc sch s aid fun a => navSet a aid rev s self key
  | .navDel aid rev self key => withAssoc sch s aid fun a => navDel a aid rev s self key
  | .navReplace aid rev self key => withAssoc sch s aid fun a => navReplace a aid rev s self key
  | .delete set key => delItem sch depth s set key

end Verif.MemDs

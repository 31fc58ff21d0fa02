import Mathlib.Data.List.Induction
import Mathlib.Data.List.Nodup

/-!
# Element content models

Models `pyslet.xml.structures.XMLContentParticle` and its subclasses, `ElementType.build_model`,
`is_deterministic` (structures.py:1213-1240, 2865-3100), `pyslet.xml.parser.ContentParticleCursor`
(parser.py:432-542) and the use of the cursor by `parse_element` (parser.py:2076-2246, 2402-2419).

A name particle is identified by a number (its object identity); `N` is the type of element names.
The name `''`, which stands for the end tag, is kept apart: a particle map is the list of the entries
of the dictionary with a non-empty name, in order of insertion, and a flag for the entry
`'' : None`.
-/
namespace Verif.Xml

/-- Occurrence constants (structures.py:2867-2871). -/
inductive Occ where
  | once | opt | star | plus
  deriving DecidableEq, Repr

/-- `occurrence == ZeroOrMore or occurrence == OneOrMore` (structures.py:2978-2979). -/
def Occ.repeats : Occ → Bool
  | .star => true
  | .plus => true
  | _ => false

/-- `occurrence == OneOrMore or occurrence == ExactlyOnce` (structures.py:2995-2996). -/
def Occ.required : Occ → Bool
  | .once => true
  | .plus => true
  | _ => false

/-- Content particles: `XMLNameParticle`, `XMLChoiceList`, `XMLSequenceList`
(structures.py:2959-3100). -/
inductive CP (N : Type) where
  | name (id : Nat) (n : N) (occ : Occ)
  | choice (occ : Occ) (children : List (CP N))
  | seq (occ : Occ) (children : List (CP N))

/-- Entries of a particle map with a name. -/
abbrev Names (N : Type) := List (N × List Nat)

/-- A particle map. -/
structure PMap (N : Type) where
  names : Names N
  fin : Bool

variable {N : Type} [DecidableEq N]

/-- Add one particle under a name, unless it is there (structures.py:2984-2994, and one turn of the
double loop of 2921-2936). -/
def addId : Names N → N → Nat → Names N
  | [], n, i => [(n, [i])]
  | (m, ids) :: t, n, i =>
    if m = n then (m, if i ∈ ids then ids else ids ++ [i]) :: t else (m, ids) :: addId t n i

/-- `pmap.get(name, [])`. -/
def getIds : Names N → N → List Nat
  | [], _ => []
  | (m, ids) :: t, n => if m = n then ids else getIds t n

/-- `add_particles` (structures.py:2907-2936); the lists of a particle map are never empty. -/
def addAll (src dst : PMap N) : PMap N :=
  ⟨src.names.foldl (fun acc p => p.2.foldl (fun a i => addId a p.1 i) acc) dst.names,
    dst.fin || src.fin⟩

mutual
/-- `seek_particles` (structures.py:2984-2996, 3023-3032, 3080-3091): the map and the result "a
required particle was added". -/
def seek : CP N → Names N → Names N × Bool
  | .name i n occ, m => (addId m n i, occ.required)
  | .choice occ cs, m => ((seekChoice cs m).1, occ.required && (seekChoice cs m).2)
  | .seq occ cs, m => ((seekSeq cs m).1, (seekSeq cs m).2 && occ.required)
/-- The loop of structures.py:3026-3031. -/
def seekChoice : List (CP N) → Names N → Names N × Bool
  | [], m => (m, true)
  | c :: cs, m => ((seekChoice cs (seek c m).1).1, (seek c m).2 && (seekChoice cs (seek c m).1).2)
/-- The loop of structures.py:3082-3087, also that of 3066-3078: it stops at the first required
particle. -/
def seekSeq : List (CP N) → Names N → Names N × Bool
  | [], m => (m, false)
  | c :: cs, m => if (seek c m).2 then ((seek c m).1, true) else seekSeq cs (seek c m).1
end

/-- `new_exit_particles` (structures.py:3011-3019, 3053-3061), and the map of a name particle
(structures.py:2977-2982). -/
def newExit (cp : CP N) (occ : Occ) (exits : PMap N) : PMap N :=
  addAll exits ⟨if occ.repeats then (seek cp []).1 else [], false⟩

/-- `child_exits` (structures.py:3067-3078). -/
def childExits (rest : List (CP N)) (exits : PMap N) : PMap N :=
  if (seekSeq rest []).2 then ⟨(seekSeq rest []).1, false⟩
  else addAll exits ⟨(seekSeq rest []).1, false⟩

mutual
/-- `build_particle_maps` (structures.py:2976-2982, 3010-3021, 3052-3078): the `particle_map` given
to each name particle. -/
def build : CP N → PMap N → List (Nat × PMap N)
  | .name i n occ, e => [(i, newExit (.name i n occ) occ e)]
  | .choice occ cs, e => buildChoice cs (newExit (.choice occ cs) occ e)
  | .seq occ cs, e => buildSeq cs (newExit (.seq occ cs) occ e)
/-- The loop of structures.py:3020-3021. -/
def buildChoice : List (CP N) → PMap N → List (Nat × PMap N)
  | [], _ => []
  | c :: cs, e => build c e ++ buildChoice cs e
/-- The loop of structures.py:3062-3078. -/
def buildSeq : List (CP N) → PMap N → List (Nat × PMap N)
  | [], _ => []
  | c :: cs, e => build c (childExits cs e) ++ buildSeq cs e
end

/-- The content of an element type (structures.py:1175-1192): `any`, `empty` (also unparsed SGML
content), a content model, or mixed content with its model. -/
inductive Content (N : Type) where
  | any
  | empty
  | model (cp : CP N)
  | mixed (cp : CP N)

/-- `ElementType.particle_map` (structures.py:1213-1227). -/
def rootMap : Content N → Option (PMap N)
  | .any => none
  | .empty => none
  | .model cp => some ⟨(seek cp []).1, !(seek cp []).2⟩
  | .mixed cp => some ⟨(seek cp []).1, true⟩

/-- The maps of the name particles after `build_model` (structures.py:1213-1227). -/
def allMaps : Content N → List (Nat × PMap N)
  | .any => []
  | .empty => []
  | .model cp => build cp ⟨[], true⟩
  | .mixed cp => build cp ⟨(seek cp []).1, true⟩

/-- The `particle_map` of a particle. -/
def mapOf (maps : List (Nat × PMap N)) (i : Nat) : PMap N := (maps.lookup i).getD ⟨[], false⟩

/-! ## The cursor -/

/-- `state` and `plist` of a cursor (parser.py:449-456). -/
inductive Cur where
  | start
  | at (plist : List Nat)
  | fin
  deriving DecidableEq, Repr

/-- The START state with a particle map (parser.py:465-476). -/
def startMap (m : PMap N) : Option N → Bool × Cur
  | none => if m.fin then (true, .fin) else (false, .start)
  | some n => if n ∈ m.names.map Prod.fst then (true, .at (getIds m.names n)) else (false, .start)

/-- The START state (parser.py:464-492). -/
def startNext (ct : Content N) (name : Option N) : Bool × Cur :=
  match rootMap ct, ct, name with
  | some m, _, name => startMap m name
  | none, .any, none => (true, .fin)
  | none, .any, some _ => (true, .start)
  | none, _, none => (true, .fin)
  | none, _, some _ => (false, .start)

/-- The PARTICLE state (parser.py:493-515). -/
def atNext (maps : List (Nat × PMap N)) (ps : List Nat) : Option N → Bool × Cur
  | none => if ps.any (fun p => (mapOf maps p).fin) then (true, .fin) else (false, .at ps)
  | some n =>
    if ps.flatMap (fun p => getIds (mapOf maps p).names n) = [] then (false, .at ps)
    else (true, .at (ps.flatMap (fun p => getIds (mapOf maps p).names n)))

/-- `next(name)` (parser.py:458-518); `none` is the end tag. -/
def next (ct : Content N) (cur : Cur) (name : Option N) : Bool × Cur :=
  match cur with
  | .start => startNext ct name
  | .at ps => atNext (allMaps ct) ps name
  | .fin => (false, .fin)

/-- Feed names to the cursor; `none` when one is refused. -/
def feed (ct : Content N) : Cur → List N → Option Cur
  | c, [] => some c
  | c, n :: ns => if (next ct c (some n)).1 then feed ct (next ct c (some n)).2 ns else none

/-- Are these children, and then the end tag, accepted? -/
def accepts (ct : Content N) (w : List N) : Bool :=
  match feed ct .start w with
  | some c => (next ct c none).1
  | none => false

/-- `expected()` (parser.py:518-542): the names, and whether the end tag is expected.  Simplified:
the names are sorted by `le` (Python's order of strings), without duplicates; `none` is the
AttributeError of an element type without particle map. -/
def expected (le : N → N → Bool) (ct : Content N) (cur : Cur) : Option (List N × Bool) :=
  match cur with
  | .start => (rootMap ct).map fun m => ((m.names.map Prod.fst).dedup.mergeSort le, m.fin)
  | .at ps => some
      (((ps.flatMap fun p => (mapOf (allMaps ct) p).names.map Prod.fst).dedup.mergeSort le),
        ps.any fun p => (mapOf (allMaps ct) p).fin)
  | .fin => some ([], false)

/-- `XMLContentParticle.is_deterministic` (structures.py:2938-2956). -/
def mapDet (m : PMap N) : Bool := m.names.all fun p => decide (p.2.length ≤ 1)

/-- `is_deterministic` of an element type (structures.py:1229-1240, 2998-3000, 3034-3042,
3093-3100): the root map and the maps of all name particles. -/
def isDeterministic (ct : Content N) : Bool :=
  (match rootMap ct with
   | none => true
   | some m => mapDet m) && (allMaps ct).all fun p => mapDet p.2

/-! ## Specification: the language of a content model (XML 1.0, section 3.2.1) -/

/-- Words allowed by an occurrence indicator over a language. -/
def Occ.lang {α : Type} : Occ → (List α → Prop) → List α → Prop
  | .once, L, w => L w
  | .opt, L, w => w = [] ∨ L w
  | .star, L, w => ∃ ws : List (List α), (∀ v ∈ ws, L v) ∧ w = ws.flatten
  | .plus, L, w => ∃ ws : List (List α), ws ≠ [] ∧ (∀ v ∈ ws, L v) ∧ w = ws.flatten

mutual
/-- The language of a particle; `f` says what a name particle contributes. -/
def Lang {α : Type} (f : Nat → N → α) : CP N → List α → Prop
  | .name i n occ, w => occ.lang (fun v => v = [f i n]) w
  | .choice occ cs, w => occ.lang (LangAny f cs) w
  | .seq occ cs, w => occ.lang (LangSeq f cs) w
/-- One of the particles. -/
def LangAny {α : Type} (f : Nat → N → α) : List (CP N) → List α → Prop
  | [], _ => False
  | c :: cs, w => Lang f c w ∨ LangAny f cs w
/-- All the particles in order. -/
def LangSeq {α : Type} (f : Nat → N → α) : List (CP N) → List α → Prop
  | [], w => w = []
  | c :: cs, w => ∃ u v, w = u ++ v ∧ Lang f c u ∧ LangSeq f cs v
end

/-- The sequences of child elements a content model allows. -/
def Allowed (cp : CP N) (w : List N) : Prop := Lang (fun _ n => n) cp w

/-- The same sequences, each element marked with the particle that matches it. -/
def Marked (cp : CP N) (w : List (N × Nat)) : Prop := Lang (fun i n => (n, i)) cp w

mutual
/-- The name particles. -/
def CP.parts : CP N → List (N × Nat)
  | .name i n _ => [(n, i)]
  | .choice _ cs => partsL cs
  | .seq _ cs => partsL cs
/-- The name particles of a list. -/
def partsL : List (CP N) → List (N × Nat)
  | [] => []
  | c :: cs => c.parts ++ partsL cs
end

mutual
/-- Choices have at least one alternative, as the grammar (and parser.py:2913-2968) ensures. -/
def CP.Wf : CP N → Prop
  | .name _ _ _ => True
  | .choice _ cs => cs ≠ [] ∧ WfL cs
  | .seq _ cs => WfL cs
/-- All particles of a list. -/
def WfL : List (CP N) → Prop
  | [] => True
  | c :: cs => c.Wf ∧ WfL cs
end

/-- Different particles are different objects. -/
def CP.Distinct (cp : CP N) : Prop := (cp.parts.map Prod.snd).Nodup

end Verif.Xml

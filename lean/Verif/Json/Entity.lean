import Verif.Json.Value
/-!
# Model of the JSON form of entities and pages of entities (`pyslet/odata2/core.py`)
-/
namespace Verif.Json
open Verif.Text Verif.OData

/-! ## Existing entities -/

mutual
/-- An existing entity: its location, the full name of its type, its etag (formatted), its content type if it is a media link entry, its
data properties with "is it selected?", and its navigation properties with "is it selected?". -/
inductive Ent where
  | mk (loc ty : Str) (etag media : Option Str) (data : List (Str × Bool × PV)) (nav : List (Str × Bool × Nav))
/-- A navigation property: not expanded, expanded with no entity or one entity, or expanded to a page of a collection with the count if it was
asked for and the location of the next page if there is one. -/
inductive Nav where
  | deferred
  | empty
  | one (e : Ent)
  | many (count : Option Nat) (es : List Ent) (next : Option Str)
end

/-- A member that is written only if there is a value (the etags, core.py:2597-2599 and 2605-2607). -/
def optText (pre : Str) : Option Str → Str
  | some e => pre ++ dumps e
  | none => []

/-- The members of a media link entry, core.py:2600-2607. -/
def mediaText (loc : Str) (etag : Option Str) : Option Str → Str
  | some ct => chars ",\"media_src\":" ++ dumps (loc ++ chars "/$value") ++ (chars ",\"content_type\":" ++ dumps ct)
      ++ (chars ",\"edit_media\":" ++ dumps (loc ++ chars "/$value")) ++ optText (chars ",\"media_etag\":") etag
  | none => []

/-- The `__metadata` members, core.py:2593-2607. -/
def metaText (loc ty : Str) (etag media : Option Str) : Str :=
  chars "\"uri\":" ++ dumps loc ++ (chars ",\"type\":" ++ dumps ty) ++ optText (chars ",\"etag\":") etag ++ mediaText loc etag media

/-- The data properties, core.py:2609-2616. -/
def dataText : List (Str × Bool × PV) → Option Str
  | [] => some []
  | (k, sel, v) :: r => do
    let t ← (if sel then (pvJson v).map fun t => 44 :: (dumps k ++ 58 :: t) else some [])
    let ts ← dataText r
    return t ++ ts

/-- The start of `generate_entity_set_in_json`, core.py:3053-3059. -/
def collStart (v2 : Bool) (count : Option Nat) : Str :=
  if v2 then [123] ++ (match count with | some n => chars "\"__count\":" ++ decStr n ++ [44] | none => []) ++ chars "\"results\":["
  else [91]

/-- The end of `generate_entity_set_in_json`, core.py:3068-3076. -/
def collEnd (v2 : Bool) (next : Option Str) : Str :=
  if v2 then (match next with | some u => chars "],\"__next\":{\"uri\":" ++ dumps u ++ chars "}}" | none => chars "]}") else [93]

mutual
/-- `generate_entity_type_in_json` of an existing entity, not for update, core.py:2581-2638 and 2689. -/
def entText (v2 : Bool) : Ent → Option Str
  | .mk loc ty etag media data nav => do
    let ds ← dataText data
    let ns ← navsText v2 loc nav
    return chars "{\"__metadata\":{" ++ metaText loc ty etag media ++ [125] ++ ds ++ ns ++ [125]
/-- The navigation properties, core.py:2618-2620. -/
def navsText (v2 : Bool) (loc : Str) : List (Str × Bool × Nav) → Option Str
  | [] => some []
  | (k, sel, n) :: r => do
    let t ← (if sel then (navText v2 loc k n).map fun t => chars ", " ++ dumps k ++ t else some [])
    let ts ← navsText v2 loc r
    return t ++ ts
/-- One navigation property after its name, core.py:2621-2638. -/
def navText (v2 : Bool) (loc k : Str) : Nav → Option Str
  | .deferred => some (chars ":{\"__deferred\":{\"uri\":" ++ dumps (loc ++ 47 :: k) ++ chars "}}")
  | .empty => some (58 :: chars "null")
  | .one e => (entText v2 e).map fun t => 58 :: t
  | .many count es next => (entsText v2 es).map fun ts => 58 :: (collStart v2 count ++ commas ts ++ collEnd v2 next)
/-- The entities of a page, core.py:3060-3067 (they are joined with commas). -/
def entsText (v2 : Bool) : List Ent → Option (List Str)
  | [] => some []
  | e :: r => do
    let t ← entText v2 e
    let ts ← entsText v2 r
    return t :: ts
end

/-- `generate_entity_set_in_json`, core.py:3051-3076. -/
def collText (v2 : Bool) (count : Option Nat) (es : List Ent) (next : Option Str) : Option Str :=
  (entsText v2 es).map fun ts => collStart v2 count ++ commas ts ++ collEnd v2 next

/-! ## New entities -/

mutual
/-- An entity that does not exist yet, with its bindings. -/
inductive NewEnt where
  | mk (loc ty : Str) (etag media : Option Str) (data : List (Str × PV)) (links : List (Str × List Bind))
/-- A binding to an existing entity (by its location) or to another new entity. -/
inductive Bind where
  | ref (uri : Str)
  | deep (e : NewEnt)
end

mutual
/-- `generate_entity_type_in_json` of a new entity, core.py:2590-2616 and 2661-2689.  All its data properties are taken to be selected. -/
def newText : NewEnt → Option Str
  | .mk loc ty etag media data links => do
    let ds ← dataText (data.map fun x => (x.1, true, x.2))
    let ls ← linksText links
    return chars "{\"__metadata\":{" ++ metaText loc ty etag media ++ [125] ++ ds ++ ls ++ [125]
/-- The navigation properties with bindings, core.py:2662-2688. -/
def linksText : List (Str × List Bind) → Option Str
  | [] => some []
  | (k, bs) :: r => do
    let t ← (if bs.isEmpty then some [] else (bindsText bs).map fun ts => chars ", " ++ dumps k ++ chars " :[" ++ ts ++ [93])
    let ts ← linksText r
    return t ++ ts
/-- The bindings with `, ` between them. -/
def bindsText : List Bind → Option Str
  | [] => some []
  | b :: r => do
    let t ← bindText b
    let ts ← bindsText r
    return if r.isEmpty then t else t ++ (chars ", " ++ ts)
/-- One binding, core.py:2673-2687. -/
def bindText : Bind → Option Str
  | .ref u => some (chars "{ \"__metadata\":{\"uri\":" ++ dumps u ++ chars "}}")
  | .deep e => newText e
end

/-! ## Reading -/

/-- An entity set: its data properties, and its navigation properties with "is it a collection?" and the target set. -/
structure SetDef where
  data : List (Str × PTy)
  nav : List (Str × Bool × Nat)

mutual
/-- What a new entity holds after `set_from_json_object`. -/
inductive Got where
  | mk (data : List (Str × PV)) (links : List (Str × List GotBind))
/-- A binding: to the entity that the resolver gives for a URI, or to another new entity. -/
inductive GotBind where
  | ref (uri : Str)
  | deep (e : Got)
end

/-- All the properties NULL: what is read from a JSON array, in which no property name occurs. -/
def allNull (d : SetDef) : Option Got := (fieldsFrom d.data []).map fun vs => .mk vs []

/-- A JSON string. -/
def J.isStr : J → Bool
  | .str _ => true
  | _ => false

mutual
/-- `set_from_json_object` of an entity that does not exist, core.py:2498-2550; the fuel is the depth of the entities.  Objects are taken not to
repeat a name.  An array is treated as an object without names: arrays with strings among their elements are not modelled. -/
def readNew (schema : Nat → SetDef) : Nat → Nat → J → Option Got
  | 0, _, _ => none
  | f + 1, set, .obj m => do
    let vs ← fieldsFrom (schema set).data m
    let ls ← readLinks schema f (schema set).nav m
    return .mk vs ls
  | _ + 1, set, .arr l => if l.any J.isStr then none else allNull (schema set)
  | _ + 1, _, _ => none
/-- The loop over the navigation properties, core.py:2509-2516. -/
def readLinks (schema : Nat → SetDef) (f : Nat) : List (Str × Bool × Nat) → List (Str × J) → Option (List (Str × List GotBind))
  | [], _ => some []
  | (k, coll, target) :: r, m =>
    match J.get? m k with
    | none => readLinks schema f r m
    | some j => do
      let bs ← (if coll then
          match j with
          | .arr l => readBinds schema f target l
          | _ => none
        else readBinds schema f target [j])
      let ls ← readLinks schema f r m
      return (k, bs) :: ls
/-- The loop over the links, core.py:2518. -/
def readBinds (schema : Nat → SetDef) (f : Nat) (target : Nat) : List J → Option (List GotBind)
  | [] => some []
  | j :: r => do
    let b ← readBind schema f target j
    let bs ← readBinds schema f target r
    return b :: bs
/-- One link, core.py:2519-2550: a single member `__metadata` makes it a reference. -/
def readBind (schema : Nat → SetDef) (f : Nat) (target : Nat) (j : J) : Option GotBind :=
  match j with
  | .obj [(k, md)] =>
    if k = chars "__metadata" then
      match md with
      | .obj mm => match J.get? mm (chars "uri") with
        | some (.str u) => some (.ref u)
        | _ => none
      | _ => none
    else (readNew schema f target j).map .deep
  | _ => (readNew schema f target j).map .deep
end

end Verif.Json

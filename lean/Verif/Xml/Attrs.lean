import Mathlib.Data.List.Basic
import Mathlib.Data.List.Nodup
/-!
# Model of the checking of attributes, `pyslet/xml/parser.py:114-146`, `1163-1167`, `2249-2382`, `3376-3378` and
`pyslet/xml/structures.py:214-224`, `1099-1124`

Text is a list of character codes.  A dictionary is the list of its items in the order of insertion.  The parser does not stop at the
first validity error (`raiseValidityErrors` is False); the messages are reduced to their kind.
-/
namespace Verif.Xml.Attrs

abbrev Str := List Nat

/-- The types, structures.py:3114-3123. -/
inductive Ty where
  | cdata | id | idref | idrefs | entity | entities | nmtoken | nmtokens | notation | enumeration
  deriving DecidableEq, Repr

/-- structures.py:3152-3155. -/
inductive Presence where
  | implied | required | fixed | default
  deriving DecidableEq, Repr

/-- `XMLAttributeDefinition`: `lit` is the literal of the default value (empty if there is none); `external` is
`adef.entity is not self.docEntity`. -/
structure AttDef where
  name : Str
  ty : Ty
  presence : Presence
  lit : Str
  values : List Str
  external : Bool
  deriving DecidableEq, Repr

/-- The kinds of errors. -/
inductive Err where
  | standaloneDefault | standaloneNormal | required | fixed | undeclared | idName | idUsed | refName | entName | entUndeclared | entParsed
  | nmtoken | notation | enumeration | noId
  deriving DecidableEq, Repr

/-- What else the checks use: the characters of names, and entities (whether they are unparsed), and whether the document is declared
standalone. -/
structure Env where
  nameStart : Nat → Bool
  nameChar : Nat → Bool
  entity : Str → Option Bool
  standalone : Bool

/-- The loop of `normalize_space`, parser.py:124-135: `scount` and the rest of the text. -/
def normLoop : Nat → Str → Str
  | _, [] => []
  | k, c :: cs =>
    if c = 32 then normLoop (if k = 0 then 1 else k) cs
    else (if k = 1 then [32, c] else [c]) ++ normLoop 0 cs

/-- `normalize_space`, parser.py:114-135. -/
def normSpace (s : Str) : Str := normLoop 2 s

/-- `value.split(' ')`. -/
def split : Str → List Str
  | [] => [[]]
  | c :: cs =>
    if c = 32 then [] :: split cs
    else match split cs with
      | [] => [[c]]
      | w :: ws => (c :: w) :: ws

/-- `is_valid_name`, structures.py:214-224. -/
def isName (E : Env) : Str → Bool
  | [] => false
  | c :: cs => E.nameStart c && cs.all E.nameChar

/-- `is_valid_nmtoken`, parser.py:138-146. -/
def isNmtoken (E : Env) (s : Str) : Bool := !s.isEmpty && s.all E.nameChar

/-- `a.defaultValue`, parser.py:3376-3378. -/
def AttDef.value (d : AttDef) : Str := if d.ty = .cdata then d.lit else normSpace d.lit

/-- `declare_attribute`, structures.py:1099-1113: the first declaration is binding. -/
def declareAttr (t : List (Str × List AttDef)) (el : Str) (d : AttDef) : List (Str × List AttDef) :=
  if t.any (·.1 == el) then t.map fun p => if p.1 == el then (p.1, if p.2.any (·.name == d.name) then p.2 else p.2 ++ [d]) else p
  else t ++ [(el, [d])]

/-- `get_attribute_list`, structures.py:1116-1124; an empty list for None. -/
def attrList (t : List (Str × List AttDef)) (el : Str) : List AttDef := ((t.find? (·.1 == el)).map (·.2)).getD []

/-- `attrs.get(a)`. -/
def getAttr (as : List (Str × Str)) (a : Str) : Option Str := (as.find? (·.1 == a)).map (·.2)

/-- `attrs[a] = v`. -/
def setAttr (as : List (Str × Str)) (a v : Str) : List (Str × Str) :=
  if as.any (·.1 == a) then as.map fun p => if p.1 == a then (a, v) else p else as ++ [(a, v)]

/-- The state of the parser: the keys of `idTable` and `idRefTable`, and the errors. -/
structure St where
  ids : List Str
  refs : List Str
  errs : List Err
  deriving DecidableEq, Repr

/-- `validity_error`. -/
def St.add (s : St) (b : Bool) (e : Err) : St := if b then { s with errs := s.errs ++ [e] } else s

/-- One turn of the first loop, parser.py:2267-2305. -/
def declStep (E : Env) (x : List (Str × Str) × St) (d : AttDef) : List (Str × Str) × St :=
  let ext := E.standalone && d.external
  let v := getAttr x.1 d.name
  let y : List (Str × Str) × St := match v with
    | none =>
      if d.presence = .default then (setAttr x.1 d.name d.value, x.2.add ext .standaloneDefault)
      else (x.1, x.2.add (d.presence == .required) .required)
    | some v =>
      if d.ty = .cdata then x
      else (setAttr x.1 d.name (normSpace v), x.2.add (ext && normSpace v != v) .standaloneNormal)
  (y.1, y.2.add (d.presence == .fixed && v != some d.value) .fixed)

/-- `self.idRefTable[i] = True`, with the check before. -/
def refStep (E : Env) (s : St) (v : Str) : St :=
  let s := s.add (!isName E v) .refName
  { s with refs := if s.refs.contains v then s.refs else s.refs ++ [v] }

/-- parser.py:2346-2359. -/
def entStep (E : Env) (s : St) (v : Str) : St :=
  let s := s.add (!isName E v) .entName
  match E.entity v with
  | none => s.add true .entUndeclared
  | some u => s.add (!u) .entParsed

/-- parser.py:2318-2327. -/
def idStep (E : Env) (s : St) (v : Str) : St :=
  let s := s.add (!isName E v) .idName
  if s.ids.contains v then s.add true .idUsed else { s with ids := s.ids ++ [v] }

/-- One turn of the second loop, parser.py:2307-2382. -/
def valStep (E : Env) (alist : List AttDef) (s : St) (p : Str × Str) : St :=
  match alist.find? (·.name == p.1) with
  | none => s.add true .undeclared
  | some d => match d.ty with
    | .cdata => s
    | .id => idStep E s p.2
    | .idref => refStep E s p.2
    | .idrefs => (split p.2).foldl (refStep E) s
    | .entity => entStep E s p.2
    | .entities => (split p.2).foldl (entStep E) s
    | .nmtoken => s.add (!isNmtoken E p.2) .nmtoken
    | .nmtokens => (split p.2).foldl (fun s v => s.add (!isNmtoken E v) .nmtoken) s
    | .notation => s.add (!d.values.contains p.2) .notation
    | .enumeration => s.add (!d.values.contains p.2) .enumeration

/-- `check_attributes`, parser.py:2249-2382, with `check_validity`. -/
def checkAttrs (E : Env) (alist : List AttDef) (as : List (Str × Str)) (s : St) : List (Str × Str) × St :=
  let x := alist.foldl (declStep E) (as, s)
  (x.1, x.1.foldl (valStep E alist) x.2)

/-- The elements of a document in the order of their start tags. -/
def checkElements (E : Env) (t : List (Str × List AttDef)) : List (Str × List (Str × Str)) → St → List (List (Str × Str)) × St
  | [], s => ([], s)
  | (el, as) :: r, s =>
    let x := checkAttrs E (attrList t el) as s
    let y := checkElements E t r x.2
    (x.1 :: y.1, y.2)

/-- The document: and then the references are looked up, parser.py:1163-1167. -/
def checkDoc (E : Env) (t : List (Str × List AttDef)) (doc : List (Str × List (Str × Str))) : List (List (Str × Str)) × List Err :=
  let x := checkElements E t doc ⟨[], [], []⟩
  (x.1, x.2.errs ++ (x.2.refs.filter fun r => !x.2.ids.contains r).map fun _ => .noId)

end Verif.Xml.Attrs

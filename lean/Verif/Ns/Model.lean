import Verif.Text.Decimal

/-!
# Names and namespaces

Models the prefix maps of `NSNode` (pyslet/xml/namespace.py:86-250), the writing of names by
`NSElement.write_xml_attributes` and `generate_xml` (440-535) and their expansion by `XMLNSParser`
(639-789), with `NSElement.set_attribute` for the maps (375-380) and the check for repeated
attributes of `XMLParser.parse_stag` (parser.py:2512-2528).

Text is a list of character codes.  Elements are instances of the base class `NSElement`; text
content, white space and the escaping of values, which do not bear on names, are left out (they are
the subject of C75-C80), so that what is written is a tree of tags.  An exception is `none`.
-/
namespace Verif.Ns

abbrev Str := List Nat

/-- A Python dictionary from strings to strings, in order of insertion. -/
abbrev Dict := List (Str × Str)

/-- `d.get(k)` -/
def get : Dict → Str → Option Str
  | [], _ => none
  | (a, b) :: r, k => if a = k then some b else get r k

/-- `d[k] = v` -/
def put : Dict → Str → Str → Dict
  | [], k, v => [(k, v)]
  | (a, b) :: r, k, v => if a = k then (k, v) :: r else (a, b) :: put r k v

/-- "xml" -/
def xmlP : Str := [120, 109, 108]

/-- "xmlns" -/
def xmlnsP : Str := [120, 109, 108, 110, 115]

/-- `XML_NAMESPACE` (namespace.py:29), http://www.w3.org/XML/1998/namespace -/
def XML : Str :=
  [104, 116, 116, 112, 58, 47, 47, 119, 119, 119, 46, 119, 51, 46, 111, 114, 103, 47, 88, 77, 76, 47, 49, 57, 57, 56,
   47, 110, 97, 109, 101, 115, 112, 97, 99, 101]

/-- `XMLNS_NAMESPACE` (namespace.py:32), http://www.w3.org/2000/xmlns/ -/
def XMLNS : Str :=
  [104, 116, 116, 112, 58, 47, 47, 119, 119, 119, 46, 119, 51, 46, 111, 114, 103, 47, 50, 48, 48, 48, 47, 120, 109, 108,
   110, 115, 47]

/-- `NO_NAMESPACE` (namespace.py:36), "~" -/
def NONS : Str := [126]

/-- The two maps of a node (namespace.py:86-89). -/
structure Frame where
  p2n : Dict
  n2p : Dict
deriving DecidableEq

/-- A node that declares nothing. -/
def Frame.empty : Frame := ⟨[], []⟩

/-! ## Looking up

A chain of frames starts with the node itself and goes up through its parents to the document. -/

/-- The search of lines 111-130: `near` are the frames between the node and the one examined. -/
def search (ns : Str) : List Frame → List Frame → Option Str
  | _, [] => none
  | near, f :: r =>
    match get f.n2p ns with
    | some p => if near.any (fun g => (get g.p2n p).isSome) then search ns (near ++ [f]) r else some p
    | none => search ns (near ++ [f]) r

/-- `get_prefix` (namespace.py:99-131). -/
def getPrefix (chain : List Frame) (ns : Option Str) : Option Str :=
  match ns with
  | none => some []
  | some n => if n = XML then some xmlP else if n = NONS then some [] else search n [] chain

/-- The loop of `get_ns` (lines 148-158); `ns` is the value last looked up.  Only documents have the
class attribute `default_ns` (line 544), so `dflt` comes into play when the last frame, that of the
document, has been examined; on the way there, for the empty prefix, `ns` is overwritten. -/
def nsLoop (dflt : Option Str) (p : Str) : Option Str → List Frame → Option Str
  | ns, [] => if p = [] then dflt else ns
  | _, f :: r =>
    match get f.p2n p with
    | some (c :: s) => some (c :: s)
    | v => nsLoop dflt p v r

/-- `get_ns` (namespace.py:133-159). -/
def getNs (dflt : Option Str) (chain : List Frame) (p : Str) : Option Str :=
  if p = xmlP then some XML else nsLoop dflt p none chain

/-- The prefix made from the stem "ns" and a number (line 172). -/
def nsN (n : Nat) : Str := [110, 115] ++ Text.decStr n

/-- The loop of `new_prefix` (lines 171-176), for a number of rounds. -/
def tryPrefix (dflt : Option Str) (chain : List Frame) : Nat → Nat → Option Str
  | 0, _ => none
  | k + 1, n => if (getNs dflt chain (nsN n)).isSome then tryPrefix dflt chain k (n + 1) else some (nsN n)

/-- The number of declarations in a chain. -/
def size (chain : List Frame) : Nat := (chain.map (fun f => f.p2n.length)).sum

/-- `new_prefix` (namespace.py:161-177).  The Python loop has no bound; C119 shows that it always
ends within the rounds allowed here. -/
def newPrefix (dflt : Option Str) (chain : List Frame) : Option Str := tryPrefix dflt chain (size chain + 1) 1

/-- `make_prefix` (namespace.py:199-204), given the prefix. -/
def makePrefix (f : Frame) (ns p : Str) : Option Frame :=
  if (get f.p2n p).isSome then none else some ⟨put f.p2n p ns, put f.n2p ns p⟩

/-- Adds the declarations of a node that are not hidden by those already found
(lines 215-218). -/
def addMap (acc : Dict) : Dict → Dict
  | [] => acc
  | (p, v) :: r => addMap (if (get acc p).isSome then acc else acc ++ [(p, v)]) r

/-- `get_prefix_map` (namespace.py:206-220). -/
def prefixMap (chain : List Frame) : Dict := chain.foldl (fun acc f => addMap acc f.p2n) []

/-! ## Writing -/

/-- An attribute: its expanded name and its value.  (`None` as namespace is the deprecated form of
`NO_NAMESPACE`.) -/
structure Attr where
  ns : Option Str
  name : Str
  val : Str
deriving DecidableEq

/-- An element: its expanded name, its attributes, its maps and its child elements. -/
inductive Elem where
  | mk (ns : Option Str) (name : Str) (attrs : List Attr) (map : Frame) (kids : List Elem)

/-- What is written for an element: its qualified name, the attributes of its start tag in order,
and its children. -/
inductive Tag where
  | mk (qname : Str) (attrs : List (Str × Str)) (kids : List Tag)

/-- The comparison of `sorted(dict_keys(attrs))` (namespace.py:445); `None` is put first (Python 3
cannot compare it with a string). -/
def Attr.le (a b : Attr) : Bool :=
  match a.ns, b.ns with
  | none, none => decide (a.name ≤ b.name)
  | none, some _ => true
  | some _, none => false
  | some x, some y => if x = y then decide (a.name ≤ b.name) else decide (x ≤ y)

/-- A qualified name (lines 457-462 and 490-491, 508). -/
def qn (p n : Str) : Str := if p = [] then n else p ++ [58] ++ n

/-- The prefix for an attribute (namespace.py:452-456), and the maps of the element after it has been
found. -/
def attrPrefix (dflt : Option Str) (anc : List Frame) (f : Frame) (ns : Option Str) : Option (Str × Frame) :=
  match getPrefix (f :: anc) ns with
  | some p => some (p, f)
  | none =>
    match newPrefix dflt (f :: anc) with
    | none => none
    | some p => (makePrefix f (ns.getD []) p).map (fun g => (p, g))

/-- The loop of `write_xml_attributes` (namespace.py:446-462). -/
def writeAttrs (dflt : Option Str) (anc : List Frame) : Frame → List Attr → Option (List (Str × Str) × Frame)
  | f, [] => some ([], f)
  | f, a :: r =>
    match attrPrefix dflt anc f a.ns with
    | none => none
    | some (p, f1) =>
      match writeAttrs dflt anc f1 r with
      | none => none
      | some (out, f2) => some ((qn p a.name, a.val) :: out, f2)

/-- The name of the attribute declaring a prefix (lines 243-249). -/
def declName (p : Str) : Str := if p = [] then xmlnsP else xmlnsP ++ [58] ++ p

/-- `write_nsattrs` (namespace.py:222-250): what it puts before the attributes. -/
def nsAttrs (root : Bool) (chain : List Frame) : List (Str × Str) :=
  let d : Dict := if root then prefixMap chain else match chain with | [] => [] | f :: _ => f.p2n
  (d.mergeSort (fun a b => decide (a.1 ≤ b.1))).map (fun pv => (declName pv.1, pv.2))

/-- The prefix for the name of an element (namespace.py:482-489), and its maps after that. -/
def elemPrefix (anc : List Frame) (f : Frame) (ns : Option Str) : Option (Str × Frame) :=
  match ns with
  | none => some ([], f)
  | some [] => some ([], f)
  | some (c :: s) =>
    match getPrefix (f :: anc) (some (c :: s)) with
    | some p => some (p, f)
    | none => (makePrefix f (c :: s) []).map (fun g => ([], g))

mutual
/-- `generate_xml` (namespace.py:466-535) for an element below the nodes `anc`: the tags, and the
element with its maps as they have become.  `dflt` is `default_ns` of the document. -/
def write (dflt : Option Str) (anc : List Frame) (root : Bool) : Elem → Option (Tag × Elem)
  | .mk ns name attrs map kids =>
    match elemPrefix anc map ns with
    | none => none
    | some (p, f1) =>
      match writeAttrs dflt anc f1 (attrs.mergeSort Attr.le) with
      | none => none
      | some (out, f2) =>
        match writeAll dflt (f2 :: anc) kids with
        | none => none
        | some (ts, ks) =>
          some (.mk (qn p name) (nsAttrs root (f2 :: anc) ++ out) ts, .mk ns name attrs f2 ks)
/-- The loop over the children (lines 515-525). -/
def writeAll (dflt : Option Str) (anc : List Frame) : List Elem → Option (List Tag × List Elem)
  | [] => some ([], [])
  | e :: r =>
    match write dflt anc false e with
    | none => none
    | some (t, e') =>
      match writeAll dflt anc r with
      | none => none
      | some (ts, es) => some (t :: ts, e' :: es)
end

/-- `NSDocument.generate_xml` (structures.py:900-904): the root is written with `root=True`, below the
document, whose maps are `doc`. -/
def writeDoc (dflt : Option Str) (doc : Frame) (e : Elem) : Option (Tag × Elem) := write dflt [doc] true e

/-! ## Reading -/

/-- `expand_qname` (namespace.py:639-684): `ns` are the declarations of the tag, `ctx` the chain of
the parent. -/
def expand (dflt : Option Str) (ctx : List Frame) (ns : Dict) (useDefault : Bool) (q : Str) :
    Option (Option Str × Str) :=
  if 58 ∈ q then
    let p := q.takeWhile (· ≠ 58)
    let l := (q.dropWhile (· ≠ 58)).tail
    if 58 ∈ l then none
    else if p = xmlP then some (some XML, l)
    else if p = xmlnsP then some (some XMLNS, l)
    else some ((get ns p).or (getNs dflt ctx p), l)
  else if q = xmlnsP then some (some XMLNS, [])
  else if useDefault then some ((get ns []).or (getNs dflt ctx []), q)
  else some (some NONS, q)

/-- The declarations of a tag (namespace.py:708-716). -/
def decls : List (Str × Str) → Dict → Dict
  | [], d => d
  | (a, v) :: r, d =>
    if xmlnsP <+: a then
      decls r (if a.length = 5 then put d [] v else if a[5]? = some 58 then put d (a.drop 6) v else d)
    else decls r d

/-- The attributes left when the declarations are taken out (line 717). -/
def plain (l : List (Str × Str)) : List (Str × Str) := l.filter (fun a => ¬ (xmlnsP <+: a.1))

/-- `attrs[xname] = value`, for expanded names. -/
def putAttr : List Attr → Attr → List Attr
  | [], a => [a]
  | b :: r, a => if b.ns = a.ns ∧ b.name = a.name then a :: r else b :: putAttr r a

/-- The attributes, with their names expanded (namespace.py:718-721). -/
def expandAll (dflt : Option Str) (ctx : List Frame) (ns : Dict) : List (Str × Str) → List Attr → Option (List Attr)
  | [], acc => some acc
  | (a, v) :: r, acc =>
    match expand dflt ctx ns false a with
    | none => none
    | some (n, l) => expandAll dflt ctx ns r (putAttr acc ⟨n, l, v⟩)

/-- The reverse map that `set_attribute` makes (namespace.py:378-380): of two prefixes for a namespace
the later one stays. -/
def reverse (d : Dict) : Dict := d.foldl (fun acc pv => put acc pv.2 pv.1) []

/-- Whether the attributes of a start tag have different names (parser.py:2524-2527). -/
def unique (l : List (Str × Str)) : Bool := decide ((l.map Prod.fst).Nodup)

mutual
/-- Reading the tags written for an element: `parse_stag`, `get_stag_class` and `set_attribute`
(parser.py:2512-2528, namespace.py:727-789, 375-380). -/
def read (dflt : Option Str) (ctx : List Frame) : Tag → Option Elem
  | .mk q attrs kids =>
    if unique attrs then
      let ns := decls attrs []
      match expandAll dflt ctx ns (plain attrs) [] with
      | none => none
      | some as =>
        match expand dflt ctx ns true q with
        | none => none
        | some (n, l) =>
          let f : Frame := ⟨ns, reverse ns⟩
          match readAll dflt (f :: ctx) kids with
          | none => none
          | some ks => some (.mk (n.or dflt) l as f ks)
    else none
/-- Reading the children. -/
def readAll (dflt : Option Str) (ctx : List Frame) : List Tag → Option (List Elem)
  | [] => some []
  | t :: r =>
    match read dflt ctx t with
    | none => none
    | some e =>
      match readAll dflt ctx r with
      | none => none
      | some es => some (e :: es)
end

end Verif.Ns

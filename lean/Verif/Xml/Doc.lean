import Verif.Xml.Entity
import Mathlib.Data.List.Infix

/-!
# Parsing documents without a document type declaration

Models the parts of `pyslet.xml.parser.XMLParser` that read a document after its XML declaration, with
the default options (no validation, no SGML options, `unicodeCompatibility` off): `parse_misc`,
`parse_element`, `parse_stag`, `parse_attribute`, `parse_att_value`, `parse_content`,
`parse_char_data`, `parse_cdsect`, `parse_comment`, `parse_pi`, `parse_reference`, `parse_etag`
(pyslet/xml/parser.py).  The text is what `XMLEntity` delivers (see `Verif.Xml.Entity`); `buff_text`
puts characters back, so that a failed `parse_literal` leaves the text as it was.

The elements made are instances of the base class `Element`.  Loops have a bound on the number of
turns; `Out.more` means that the bound was reached, `Out.bad` is an exception.
-/
namespace Verif.Xml

mutual
/-- An `Element` with its attributes (in the order of the dictionary) and children. -/
inductive Elt where
  | mk (name : Str) (attrs : List (Str × Str)) (kids : List Kid)
/-- A child: data or an element. -/
inductive Kid where
  | text (s : Str)
  | elt (e : Elt)
end

/-- Result of a parser: a value and the remaining text, an exception, or no result yet. -/
inductive Out (α : Type) where
  | ok (a : α) (rest : Str)
  | bad
  | more

/-- Go on with a result. -/
def Out.then {α β : Type} (x : Out α) (f : α → Str → Out β) : Out β :=
  match x with
  | .ok a r => f a r
  | .bad => .bad
  | .more => .more

/-- A parser without loop. -/
def need {α : Type} : Option (α × Str) → Out α
  | some (a, r) => .ok a r
  | none => .bad

/-- `is_s` (structures.py:143-147). -/
def isS (c : Nat) : Bool := c == 32 || c == 9 || c == 10 || c == 13

/-- `is_name_start_char` (structures.py:177-198). -/
def isNameStart (c : Nat) : Bool :=
  c == 58 || (65 ≤ c && c ≤ 90) || c == 95 || (97 ≤ c && c ≤ 122) || (0xC0 ≤ c && c ≤ 0xD6) ||
  (0xD8 ≤ c && c ≤ 0xF6) || (0xF8 ≤ c && c ≤ 0x2FF) || (0x370 ≤ c && c ≤ 0x37D) ||
  (0x37F ≤ c && c ≤ 0x1FFF) || (0x200C ≤ c && c ≤ 0x200D) || (0x2070 ≤ c && c ≤ 0x218F) ||
  (0x2C00 ≤ c && c ≤ 0x2FEF) || (0x3001 ≤ c && c ≤ 0xD7FF) || (0xF900 ≤ c && c ≤ 0xFDCF) ||
  (0xFDF0 ≤ c && c ≤ 0xFFFD)

/-- `is_name_char` (structures.py:201-210). -/
def isNameChar (c : Nat) : Bool :=
  isNameStart c || c == 45 || c == 46 || (48 ≤ c && c ≤ 57) || c == 0xB7 ||
  (0x300 ≤ c && c ≤ 0x36F) || (0x203F ≤ c && c ≤ 0x2040)

/-- `is_char` (parser.py:37-45). -/
def isChar (c : Nat) : Bool :=
  c == 9 || c == 10 || c == 13 || (32 ≤ c && c ≤ 0xD7FF) || (0xE000 ≤ c && c ≤ 0xFFFD) ||
  (0x10000 ≤ c && c ≤ 0x10FFFF)

/-- `parse_literal` (parser.py:1019-1037). -/
def lit : Str → Str → Option Str
  | [], s => some s
  | m :: ms, c :: s => if m = c then lit ms s else none
  | _ :: _, [] => none

/-- `parse_name` (parser.py:1319-1334). -/
def parseName : Str → Option (Str × Str)
  | c :: t => if isNameStart c then some (c :: t.takeWhile isNameChar, t.dropWhile isNameChar) else none
  | [] => none

/-- `]]>` -/
def cdEnd : Str := [93, 93, 62]

/-- `<![CDATA[` -/
def cdStart : Str := [60, 33, 91, 67, 68, 65, 84, 65, 91]

/-- The value of a hexadecimal digit (parser.py:1084-1088). -/
def hexDigit (c : Nat) : Option Nat :=
  if 48 ≤ c ∧ c ≤ 57 then some (c - 48)
  else if 97 ≤ c ∧ c ≤ 102 then some (c - 87)
  else if 65 ≤ c ∧ c ≤ 70 then some (c - 55)
  else none

/-- The value of a decimal digit (parser.py:1059-1062). -/
def decDigit (c : Nat) : Option Nat := if 48 ≤ c ∧ c ≤ 57 then some (c - 48) else none

/-- `int(digits, base)`, with the digits read from the left. -/
def digitsVal (digit : Nat → Option Nat) (base : Nat) (ds : Str) : Nat :=
  ds.foldl (fun n c => n * base + (digit c).getD 0) 0

/-- The end of a character reference (parser.py:3541-3558); `character` raises ValueError above
0x10FFFF. -/
def charRefEnd (digit : Nat → Option Nat) (base : Nat) (s : Str) : Option (Str × Str) :=
  let ds := s.takeWhile fun c => (digit c).isSome
  if ds = [] then none
  else
    match s.dropWhile fun c => (digit c).isSome with
    | 59 :: r =>
      if isChar (digitsVal digit base ds) then some ([digitsVal digit base ds], r) else none
    | _ => none

/-- `lookup_predefined_entity` (parser.py:613-618, 3671-3676). -/
def predefined (name : Str) : Option Nat :=
  if name = [108, 116] then some 60
  else if name = [103, 116] then some 62
  else if name = [97, 112, 111, 115] then some 39
  else if name = [113, 117, 111, 116] then some 34
  else if name = [97, 109, 112] then some 38
  else none

/-- `parse_entity_ref` after `&` (parser.py:3574-3669): without a document type declaration, an
entity that is not predefined is an error. -/
def entityRef (s : Str) : Option (Str × Str) :=
  match parseName s with
  | some (name, 59 :: r) => (predefined name).map fun c => ([c], r)
  | _ => none

/-- `parse_reference` after `&` (parser.py:3527-3572). -/
def parseRef : Str → Option (Str × Str)
  | 35 :: 120 :: s => charRefEnd hexDigit 16 s
  | 35 :: s => charRefEnd decDigit 10 s
  | s => entityRef s

/-- The loop of `parse_att_value` (parser.py:1470-1504); the result is appended to `acc`. -/
def attLoop (q : Nat) : Nat → Str → Str → Out Str
  | 0, _, _ => .more
  | _ + 1, _, [] => .bad
  | k + 1, acc, c :: t =>
    if c = q then .ok acc t
    else if c = 38 then (need (parseRef t)).then fun d r => attLoop q k (acc ++ d) r
    else if isS c then attLoop q k (acc ++ [32]) t
    else if c = 60 then .bad
    else attLoop q k (acc ++ [c]) t

/-- `parse_eq` (parser.py:1849-1860) and `parse_quote` (1105-1124). -/
def eqQuote (s : Str) : Option (Nat × Str) :=
  match s.dropWhile isS with
  | 61 :: t =>
    match t.dropWhile isS with
    | 34 :: r => some (34, r)
    | 39 :: r => some (39, r)
    | _ => none
  | _ => none

/-- `parse_attribute` (parser.py:2541-2569). -/
def parseAttribute (k : Nat) (s : Str) : Out (Str × Str) :=
  (need (parseName s)).then fun name r =>
    (need (eqQuote r)).then fun q r' =>
      (attLoop q k [] r').then fun v r'' => .ok (name, v) r''

/-- The loop of `parse_stag` (parser.py:2512-2539): the attributes and whether the tag is an
empty-element tag. -/
def stagLoop : Nat → List (Str × Str) → Str → Out (List (Str × Str) × Bool)
  | 0, _, _ => .more
  | k + 1, acc, s =>
    match s.dropWhile isS with
    | 62 :: r => .ok (acc, false) r
    | 47 :: 62 :: r => .ok (acc, true) r
    | 47 :: _ => .bad
    | t =>
      if s.takeWhile isS = [] then .bad
      else
        (parseAttribute k t).then fun a r =>
          if a.1 ∈ acc.map Prod.fst then .bad else stagLoop k (acc ++ [a]) r

/-- `parse_comment` after `<!--` (parser.py:1611-1646), with the number of hyphens just read; the
text of the comment is not used. -/
def comment : Nat → Str → Option Str
  | _, [] => some []
  | h, c :: t =>
    if c = 45 then (if h + 1 > 2 then none else comment (h + 1) t)
    else if c = 62 then (if h = 2 then some t else comment 0 t)
    else if isS c then comment (if h < 2 then 0 else h) t
    else if 2 ≤ h then none
    else comment 0 t

/-- The data of a processing instruction (parser.py:1665-1675), which is not used. -/
def piData : Str → Option Str
  | [] => some []
  | [63] => none
  | 63 :: 62 :: t => some t
  | 63 :: _ :: t => piData t
  | _ :: t => piData t

/-- Is a name `xml` in any letter case (parser.py:1690)? -/
def isXmlName : Str → Bool
  | [a, b, c] => (a == 120 || a == 88) && (b == 109 || b == 77) && (c == 108 || c == 76)
  | _ => false

/-- `parse_pi` after `<?` (parser.py:1648-1682). -/
def parsePI (s : Str) : Option Str :=
  match parseName s with
  | none => none
  | some (name, r) =>
    if isXmlName name then none
    else if r.takeWhile isS = [] then lit [63, 62] r
    else piData (r.dropWhile isS)

/-- `parse_char_data` (parser.py:1554-1595): the data and the rest.  Simplified: the data is not
passed on in pieces. -/
def charData : Str → Str × Str
  | [] => ([], [])
  | c :: t =>
    if c = 60 ∨ c = 38 ∨ (lit cdEnd (c :: t)).isSome then ([], c :: t)
    else (c :: (charData t).1, (charData t).2)

/-- `parse_cdata` (parser.py:1722-1741), with the same simplification. -/
def cdata : Str → Str × Str
  | [] => ([], [])
  | c :: t =>
    if (lit cdEnd (c :: t)).isSome then ([], c :: t)
    else (c :: (cdata t).1, (cdata t).2)

/-- `handle_data` and `add_data` (parser.py:2707, 2730; structures.py:2245-2250). -/
def addData : List Kid → Str → List Kid
  | ks, [] => ks
  | [], d => [.text d]
  | [.text s], d => [.text (s ++ d)]
  | k :: ks, d => k :: addData ks d

/-- `parse_etag` (parser.py:2571-2593). -/
def parseETag (s : Str) : Option (Str × Str) :=
  match lit [60, 47] s with
  | none => none
  | some r =>
    match parseName r with
    | none => none
    | some (name, r') =>
      match r'.dropWhile isS with
      | 62 :: r'' => some (name, r'')
      | _ => none

/-- What starts at a position of the content (parser.py:2612-2690). -/
inductive Lead where
  | stop
  | com (r : Str)
  | cd (r : Str)
  | pi (r : Str)
  | elt
  | ref (r : Str)
  | data
  | bad

/-- The decisions of `parse_content` (parser.py:2612-2690). -/
def lead : Str → Lead
  | [] => .stop
  | 60 :: 33 :: 45 :: t =>
    match t with
    | 45 :: r => .com r
    | _ => .bad
  | 60 :: 33 :: 91 :: t =>
    match lit [67, 68, 65, 84, 65, 91] t with
    | some r => .cd r
    | none => .bad
  | 60 :: 33 :: _ => .bad
  | 60 :: 63 :: t => .pi t
  | 60 :: 47 :: _ => .stop
  | 60 :: _ => .elt
  | 38 :: t => .ref t
  | _ => .data

mutual
/-- `parse_content` (parser.py:2595-2692): the children after adding to `acc`. -/
def content : Nat → List Kid → Str → Out (List Kid)
  | 0, _, _ => .more
  | k + 1, acc, s =>
    match lead s with
    | .stop => .ok acc s
    | .com r =>
      match comment 0 r with
      | some r' => content k acc r'
      | none => .bad
    | .cd r =>
      match lit cdEnd (cdata r).2 with
      | some r' => content k (addData acc (cdata r).1) r'
      | none => .bad
    | .pi r =>
      match parsePI r with
      | some r' => content k acc r'
      | none => .bad
    | .elt => (element k s).then fun e r => content k (acc ++ [.elt e]) r
    | .ref r => (need (parseRef r)).then fun d r' => content k (addData acc d) r'
    | .data => content k (addData acc (charData s).1) (charData s).2
    | .bad => .bad
/-- `parse_element` (parser.py:2103-2247). -/
def element : Nat → Str → Out Elt
  | 0, _ => .more
  | k + 1, s =>
    match s with
    | 60 :: t =>
      (need (parseName t)).then fun name r =>
        (stagLoop k [] r).then fun p r' =>
          if p.2 then .ok (.mk name p.1 []) r'
          else
            (content k [] r').then fun kids r'' =>
              (need (parseETag r'')).then fun en r3 =>
                if en = name then .ok (.mk name p.1 kids) r3 else .bad
    | _ => .bad
end

/-- `parse_misc` (parser.py:1871-1886). -/
def misc : Nat → Str → Out Unit
  | 0, _ => .more
  | _ + 1, [] => .ok () []
  | k + 1, c :: t =>
    if isS c then misc k t
    else
      match lit [60, 33, 45, 45] (c :: t), lit [60, 63] (c :: t) with
      | some r, _ =>
        (match comment 0 r with
        | some r' => misc k r'
        | none => .bad)
      | none, some r =>
        (match parsePI r with
        | some r' => misc k r'
        | none => .bad)
      | none, none => .ok () (c :: t)

/-- `parse_document` after the XML declaration (parser.py:1126-1174, 1761). -/
def parseDoc (k : Nat) (s : Str) : Out Elt :=
  (misc k s).then fun _ r =>
    (element k r).then fun e r' =>
      (misc k r').then fun _ r'' =>
        match r'' with
        | [] => .ok e []
        | _ => .bad

/-! ## Specification: the grammar of XML 1.0 -/

/-- [5] Name -/
def GName : Str → Prop
  | [] => False
  | c :: t => isNameStart c = true ∧ ∀ d ∈ t, isNameChar d = true

/-- [3] S, possibly empty -/
def GSpace (s : Str) : Prop := ∀ c ∈ s, isS c = true

/-- [66] [67] Reference: a predefined entity or the number of a character. -/
inductive GRef : Str → Nat → Prop where
  | lt : GRef [38, 108, 116, 59] 60
  | gt : GRef [38, 103, 116, 59] 62
  | amp : GRef [38, 97, 109, 112, 59] 38
  | apos : GRef [38, 97, 112, 111, 115, 59] 39
  | quot : GRef [38, 113, 117, 111, 116, 59] 34
  | dec (ds : Str) : ds ≠ [] → (∀ c ∈ ds, (decDigit c).isSome = true) →
      isChar (digitsVal decDigit 10 ds) = true →
      GRef ([38, 35] ++ ds ++ [59]) (digitsVal decDigit 10 ds)
  | hex (ds : Str) : ds ≠ [] → (∀ c ∈ ds, (hexDigit c).isSome = true) →
      isChar (digitsVal hexDigit 16 ds) = true →
      GRef ([38, 35, 120] ++ ds ++ [59]) (digitsVal hexDigit 16 ds)

/-- The inside of [10] AttValue with quote `q`, and its value after the normalization of section
3.3.3. -/
inductive GAtt (q : Nat) : Str → Str → Prop where
  | nil : GAtt q [] []
  | char {c : Nat} {t v : Str} : c ≠ q → c ≠ 60 → c ≠ 38 → GAtt q t v →
      GAtt q (c :: t) ((if isS c then 32 else c) :: v)
  | ref {r : Str} {c : Nat} {t v : Str} : GRef r c → GAtt q t v → GAtt q (r ++ t) (c :: v)

/-- (S Attribute)* of [40] STag -/
inductive GAtts : Str → List (Str × Str) → Prop where
  | nil : GAtts [] []
  | cons {sp name sp1 sp2 v value t : Str} {q : Nat} {attrs : List (Str × Str)} :
      GSpace sp → sp ≠ [] → GName name → GSpace sp1 → GSpace sp2 → (q = 34 ∨ q = 39) →
      GAtt q v value → GAtts t attrs →
      GAtts (sp ++ (name ++ (sp1 ++ ([61] ++ (sp2 ++ ([q] ++ (v ++ ([q] ++ t))))))))
        ((name, value) :: attrs)

/-- [14] CharData -/
def GCharData (d : Str) : Prop := 60 ∉ d ∧ 38 ∉ d ∧ ¬ cdEnd <:+: d

/-- A piece of content. -/
inductive Piece where
  | data (d : Str)
  | elt (e : Elt)

/-- The children: adjacent data is joined, empty data disappears. -/
def joinData : List Piece → List Kid
  | [] => []
  | .elt e :: ps => .elt e :: joinData ps
  | .data d :: ps =>
    match joinData ps with
    | .text s :: ks => .text (d ++ s) :: ks
    | ks => if d = [] then ks else .text d :: ks

mutual
/-- [39] element; `Skip` are the comments and processing instructions. -/
inductive GElement (Skip : Str → Prop) : Str → Elt → Prop where
  | tag {name atext sp : Str} {attrs : List (Str × Str)} : GName name → GAtts atext attrs →
      (attrs.map Prod.fst).Nodup → GSpace sp →
      GElement Skip ([60] ++ (name ++ (atext ++ (sp ++ [47, 62])))) (.mk name attrs [])
  | full {name atext sp ctext sp2 : Str} {attrs : List (Str × Str)} {ps : List Piece} :
      GName name → GAtts atext attrs → (attrs.map Prod.fst).Nodup → GSpace sp →
      GContent Skip ctext ps → GSpace sp2 →
      GElement Skip ([60] ++ (name ++ (atext ++ (sp ++ ([62] ++ (ctext ++ ([60, 47] ++
        (name ++ (sp2 ++ [62]))))))))) (.mk name attrs (joinData ps))
/-- [43] content -/
inductive GContent (Skip : Str → Prop) : Str → List Piece → Prop where
  | mk {d t : Str} {ps : List Piece} : GCharData d → GTail Skip t ps →
      GContent Skip (d ++ t) (.data d :: ps)
/-- [43] content, after CharData -/
inductive GTail (Skip : Str → Prop) : Str → List Piece → Prop where
  | nil : GTail Skip [] []
  | elt {i t : Str} {e : Elt} {ps : List Piece} : GElement Skip i e → GContent Skip t ps →
      GTail Skip (i ++ t) (.elt e :: ps)
  | ref {i t : Str} {c : Nat} {ps : List Piece} : GRef i c → GContent Skip t ps →
      GTail Skip (i ++ t) (.data [c] :: ps)
  | cd {d t : Str} {ps : List Piece} : ¬ cdEnd <:+: d → GContent Skip t ps →
      GTail Skip (cdStart ++ (d ++ (cdEnd ++ t))) (.data d :: ps)
  | skip {i t : Str} {ps : List Piece} : Skip i → GContent Skip t ps → GTail Skip (i ++ t) ps
end

/-- [27] Misc, repeated -/
inductive GMisc (Skip : Str → Prop) : Str → Prop where
  | nil : GMisc Skip []
  | space {c : Nat} {t : Str} : isS c = true → GMisc Skip t → GMisc Skip (c :: t)
  | skip {i t : Str} : Skip i → GMisc Skip t → GMisc Skip (i ++ t)

/-- [1] document, after the XML declaration and without document type declaration -/
inductive GDocument (Skip : Str → Prop) : Str → Elt → Prop where
  | mk {m1 t m2 : Str} {e : Elt} : GMisc Skip m1 → GElement Skip t e → GMisc Skip m2 →
      GDocument Skip (m1 ++ (t ++ m2)) e

/-- [15] Comment: no two hyphens in a row, no hyphen at the end. -/
def GComment (t : Str) : Prop :=
  ∃ b, t = [60, 33, 45, 45] ++ b ++ [45, 45, 62] ∧ ¬ [45, 45] <:+: b ∧ ¬ [45] <:+ b

/-- [16] PI with target and data; the data has no `?>`, the target is not `xml`. -/
def GPI (t : Str) (data : Str) : Prop :=
  ∃ name sp, GName name ∧ isXmlName name = false ∧ GSpace sp ∧ ¬ [63, 62] <:+: data ∧
    (∀ c, data.head? = some c → isS c = false) ∧ (data ≠ [] → sp ≠ []) ∧
    t = [60, 63] ++ name ++ sp ++ data ++ [63, 62]

end Verif.Xml

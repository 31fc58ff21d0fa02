import Verif.Xml.DocClaims
import Mathlib.Data.List.Sort

/-!
# Writing elements as XML

Models `escape_char_data`, `escape_char_data7`, `escape_cdsect`, `collapse_space`,
`Element.get_canonical_children`, `Element.write_xml_attributes`, `Element.generate_xml` and
`Element.__eq__` (pyslet/xml/structures.py:150-178, 245-367, 1766-1850, 2439-2466, 2732-2847), for
instances of the base class `Element`, whose content is mixed (line 1440), so that nothing is
pretty-printed (2721-2722).
-/
namespace Verif.Xml

/-! ## Escaping -/

/-- The character after escaping (structures.py:277-293). -/
def escChar (c : Nat) : Str :=
  if c = 38 then [38, 97, 109, 112, 59]
  else if c = 60 then [38, 108, 116, 59]
  else if c = 62 then [38, 103, 116, 59]
  else if c = 13 then [38, 35, 120, 68, 59]
  else [c]

/-- The character after escaping, in a string quoted with `'` (structures.py:296-301). -/
def escApos (c : Nat) : Str := if c = 39 then [38, 97, 112, 111, 115, 59] else escChar c

/-- The character after escaping, in a string quoted with `"` (structures.py:302-308). -/
def escQuot (c : Nat) : Str := if c = 34 then [38, 113, 117, 111, 116, 59] else escChar c

/-- `escape_char_data` (structures.py:269-309).  When there are no quotes of the kind used, the
replacement loop has no effect, so the tests of lines 296 and 303 make no difference. -/
def escape (quote : Bool) (s : Str) : Str :=
  if quote then
    if s.count 34 > s.count 39 then [39] ++ s.flatMap escApos ++ [39]
    else [34] ++ s.flatMap escQuot ++ [34]
  else s.flatMap escChar

/-- A hexadecimal digit of `%X`. -/
def hexChar (d : Nat) : Nat := if d < 10 then 48 + d else 55 + d

/-- `%0nX`, with `n` digits, for numbers that need no more. -/
def hexN : Nat → Nat → Str
  | 0, _ => []
  | n + 1, v => hexN n (v / 16) ++ [hexChar (v % 16)]

/-- The character after escaping to ASCII, with the replacement for the quote `q`
(structures.py:341-364). -/
def escChar7 (q : Option Nat) (qstr : Str) (c : Nat) : Str :=
  if c > 0x7F then
    [38, 35, 120] ++
      (if c > 0xFF then (if c > 0xFFFF then (if c > 0xFFFFFF then hexN 8 c else hexN 6 c) else hexN 4 c)
      else hexN 2 c) ++ [59]
  else if c = 60 then [38, 108, 116, 59]
  else if c = 38 then [38, 97, 109, 112, 59]
  else if c = 62 then [38, 103, 116, 59]
  else if c = 13 then [38, 35, 120, 68, 59]
  else if some c = q then qstr
  else [c]

/-- `escape_char_data7` (structures.py:313-367). -/
def escape7 (quote : Bool) (s : Str) : Str :=
  if quote then
    if 39 ∈ s then [34] ++ s.flatMap (escChar7 (some 34) [38, 35, 120, 50, 50, 59]) ++ [34]
    else if 34 ∈ s then [39] ++ s.flatMap (escChar7 (some 39) [38, 35, 120, 50, 55, 59]) ++ [39]
    else [34] ++ s.flatMap (escChar7 (some 34) [38, 35, 120, 50, 50, 59]) ++ [34]
  else s.flatMap (escChar7 none [])

/-- `src.split("]]>")` (structures.py:256), given the part before, in reverse. -/
def splitCd : Str → Str → List Str
  | acc, [] => [acc.reverse]
  | acc, 93 :: 93 :: 62 :: t => acc.reverse :: splitCd [] t
  | acc, c :: t => splitCd (c :: acc) t

/-- `escape_cdsect` (structures.py:245-265). -/
def escapeCd (s : Str) : Str :=
  match splitCd [] s with
  | [] => []
  | d :: ds =>
    cdStart ++ d ++
      ds.flatMap (fun d => cdEnd ++ [93, 93, 38, 103, 116, 59] ++ cdStart ++ d) ++ cdEnd

/-! ## Canonical children -/

/-- The loop of `collapse_space` (structures.py:166-174). -/
def squeeze : Bool → Str → Str
  | _, [] => []
  | smode, c :: t =>
    if isS c then (if smode then squeeze true t else 32 :: squeeze true t) else c :: squeeze false t

/-- `collapse_space` (structures.py:150-178). -/
def collapse (smode : Bool) (s : Str) : Str :=
  if squeeze smode s = [] then [32] else squeeze smode s

/-- The loop of `get_canonical_children` (structures.py:1813-1850), with the data collected (if any)
and `smode`.  A child is data or something else. -/
def canonLoop {α : Type} : Option Str → Bool → List (Str ⊕ α) → List (Str ⊕ α)
  | none, _, [] => []
  | some d, smode, [] =>
    if collapse smode d = [32] then (if smode then [.inl []] else [])
    else if (collapse smode d).getLast? = some 32 then [.inl (collapse smode d).dropLast]
    else [.inl (collapse smode d)]
  | none, smode, .inl s :: ks => canonLoop (some s) smode ks
  | some d, smode, .inl s :: ks => canonLoop (some (d ++ s)) smode ks
  | none, _, .inr e :: ks => .inr e :: canonLoop none false ks
  | some d, smode, .inr e :: ks =>
    (if smode = false ∨ collapse smode d ≠ [32] then [.inl (collapse smode d)] else []) ++
      .inr e :: canonLoop none false ks

/-- `get_canonical_children` (structures.py:1766-1850), given whether space is preserved. -/
def canonKids {α : Type} (preserve : Bool) (ks : List (Str ⊕ α)) : List (Str ⊕ α) :=
  if preserve then ks
  else
    match ks with
    | [] => []
    | [.inl s] => [.inl (collapse true s)]
    | ks => canonLoop none true ks

/-- `xml:space` -/
def xmlSpace : Str := [120, 109, 108, 58, 115, 112, 97, 99, 101]

/-- `preserve` -/
def preserveVal : Str := [112, 114, 101, 115, 101, 114, 118, 101]

/-- Is space preserved in an element (structures.py:1782-1803, 2657-2659), given the answer for its
parent? -/
def presOf (p : Bool) (attrs : List (Str × Str)) : Bool :=
  match attrs.lookup xmlSpace with
  | some v => v == preserveVal
  | none => p

/-! ## Attributes -/

/-- Comparison of names in `sort_names` (structures.py:2429-2437): the order of Python strings. -/
def nameLe : Str → Str → Bool
  | [], _ => true
  | _ :: _, [] => false
  | a :: s, b :: t => a < b || (a == b && nameLe s t)

/-- The attributes in the order of their names (structures.py:2450-2463, 2759-2760). -/
def sortAttrs (attrs : List (Str × Str)) : List (Str × Str) :=
  attrs.insertionSort fun a b => nameLe a.1 b.1

/-- `write_xml_attributes` (structures.py:2732-2763) and the joining of lines 2809-2813. -/
def attrText (esc : Bool → Str → Str) (attrs : List (Str × Str)) : Str :=
  (sortAttrs attrs).flatMap fun a => [32] ++ a.1 ++ [61] ++ esc true a.2

/-! ## Elements -/

/-- The text of children (structures.py:2826-2840). -/
def kidText (esc : Bool → Str → Str) : Str ⊕ Str → Str
  | .inl s => esc false s
  | .inr t => t

mutual
/-- `generate_xml` (structures.py:2766-2847) without the newline before the root, given whether space
is preserved in the parent. -/
def gen (esc : Bool → Str → Str) (p : Bool) : Elt → Str
  | .mk name attrs kids =>
    match canonKids (presOf p attrs) (genKids esc (presOf p attrs) kids) with
    | [] => [60] ++ name ++ attrText esc attrs ++ [47, 62]
    | ks => [60] ++ name ++ attrText esc attrs ++ [62] ++ ks.flatMap (kidText esc) ++
        [60, 47] ++ name ++ [62]
/-- The children, with the text generated for elements. -/
def genKids (esc : Bool → Str → Str) (p : Bool) : List Kid → List (Str ⊕ Str)
  | [] => []
  | .text s :: ks => .inl s :: genKids esc p ks
  | .elt e :: ks => .inr (gen esc p e) :: genKids esc p ks
end

/-- Children from their canonical form. -/
def toKid : Str ⊕ Elt → Kid
  | .inl s => .text s
  | .inr e => .elt e

mutual
/-- What `__eq__` (structures.py:2439-2466) compares: the name, the sorted attributes and the canonical
children, where elements are compared in the same way. -/
def key (p : Bool) : Elt → Elt
  | .mk name attrs kids =>
    .mk name (sortAttrs attrs) ((canonKids (presOf p attrs) (keyKids (presOf p attrs) kids)).map toKid)
/-- The children, with elements replaced by what is compared. -/
def keyKids (p : Bool) : List Kid → List (Str ⊕ Elt)
  | [] => []
  | .text s :: ks => .inl s :: keyKids p ks
  | .elt e :: ks => .inr (key p e) :: keyKids p ks
end

/-- `e == e'` for root elements (structures.py:2439-2466). -/
def EqElt (e e' : Elt) : Prop := key false e = key false e'

/-- The text of a document after its XML declaration (structures.py:877-905, 2798-2800): a newline and
the root element. -/
def genDoc (esc : Bool → Str → Str) (e : Elt) : Str := 10 :: gen esc false e

end Verif.Xml

import Verif.CharClass.Format
/-!
# Model of `RegularExpression`, `pyslet/xml/xsdatatypes.py:911-1474`

The parser translates an XML Schema regular expression to the text of a regular expression of Python and compiles it.
The model represents the text by its structure `Re`: that `re.compile` reads the text `(r)`, `r|s`, `rs`, `r*`, `r+`,
`r?`, `r{n,m}` as this structure is assumed.  How the text of a character class is read is not assumed: it is computed
with `pyAtom` from the text, see `Verif.CharClass.Format`.  The position of a parser is represented by the characters
that remain, and a `ParserError` by `none`.  `CharClass` objects are values: the sharing of ranges between objects (C04)
is not represented here.
-/
namespace Verif.Xsd
open Verif.CharClass (Range Str Mem Canon maxunicode addClass addChar subtractClass negate classText pyAtom PyAtom)

/-- The tables of characters the parser uses: `CharClass.ucd_category`, `CharClass.ucd_block` (KeyError is `none`) and
the classes `letter` and `name_char` of the XML parser. -/
structure Ucd where
  cat : Str → List Range
  block : Str → Option (List Range)
  letter : List Range
  nameChar : List Range

/-- The structure of a pattern. -/
inductive Re where
  | eps
  | cls (rs : List Range)
  | seq (a b : Re)
  | alt (a b : Re)
  | rep (a : Re) (n : Nat) (m : Option Nat)
  deriving DecidableEq, Repr

/-- The result of a `require_` method: the value and what remains, or `ParserError`. -/
abbrev P (α : Type) := Option (α × Str)

/-! ### character classes -/

/-- `single_char_escapes`, xsdatatypes.py:1301-1318. -/
def singleEsc (c : Nat) : Option Nat :=
  if c = 110 then some 10 else if c = 114 then some 13 else if c = 116 then some 9
  else if c ∈ [92, 124, 46, 45, 94, 63, 42, 43, 123, 125, 40, 41, 91, 93] then some c else none

/-- `require_single_char_esc`, xsdatatypes.py:1320-1330. -/
def requireSingleCharEsc : Str → P Nat
  | 92 :: c :: r => (singleEsc c).map fun x => (x, r)
  | _ => none

/-- The one letter keys of `categories`, xsdatatypes.py:1363-1400. -/
def cat1 : List Nat := [76, 77, 78, 80, 90, 83, 67]

/-- The two letter keys of `categories`, xsdatatypes.py:1363-1400. -/
def cat2 : List (Nat × Nat) :=
  [(76, 117), (76, 108), (76, 116), (76, 109), (76, 111), (77, 110), (77, 99), (77, 101), (78, 100), (78, 108), (78, 111),
   (80, 99), (80, 100), (80, 115), (80, 101), (80, 105), (80, 102), (80, 111), (90, 115), (90, 108), (90, 112),
   (83, 109), (83, 99), (83, 107), (83, 111), (67, 99), (67, 102), (67, 111), (67, 110)]

/-- `require_is_category`, xsdatatypes.py:1402-1413. -/
def requireIsCategory (U : Ucd) : Str → P (List Range)
  | [] => none
  | c :: r =>
    if c ∈ cat1 then
      match r with
      | d :: r' => if (c, d) ∈ cat2 then some (U.cat [c, d], r') else some (U.cat [c], r)
      | [] => some (U.cat [c], [])
    else none

/-- `is_block_class`, xsdatatypes.py:1415. -/
def isBlockChar (c : Nat) : Bool := (97 ≤ c && c ≤ 122) || (65 ≤ c && c ≤ 90) || (48 ≤ c && c ≤ 57) || c == 45

/-- `require_is_block`, xsdatatypes.py:1417-1430. -/
def requireIsBlock (U : Ucd) (s : Str) : P (List Range) :=
  match s.takeWhile isBlockChar with
  | 73 :: 115 :: name => (U.block name).map fun rs => (rs, s.dropWhile isBlockChar)
  | _ => none

/-- `require_char_prop`, xsdatatypes.py:1353-1361. -/
def requireCharProp (U : Ucd) (s : Str) : P (List Range) :=
  match requireIsCategory U s with
  | some p => some p
  | none => requireIsBlock U s

/-- `require_cat_esc`, xsdatatypes.py:1332-1340. -/
def requireCatEsc (U : Ucd) : Str → P (List Range)
  | 92 :: 112 :: 123 :: s => match requireCharProp U s with
    | some (rs, 125 :: r) => some (rs, r)
    | _ => none
  | _ => none

/-- `require_compl_esc`, xsdatatypes.py:1342-1351. -/
def requireComplEsc (U : Ucd) : Str → P (List Range)
  | 92 :: 80 :: 123 :: s => match requireCharProp U s with
    | some (rs, 125 :: r) => some (negate rs, r)
    | _ => none
  | _ => none

/-- `multi_char_escapes`, xsdatatypes.py:1432-1447. -/
def multiEsc (U : Ucd) (c : Nat) : Option (List Range) :=
  if c = 115 then some [(9, 10), (13, 13), (32, 32)]
  else if c = 83 then some (negate [(9, 10), (13, 13), (32, 32)])
  else if c = 105 then some (addChar (addChar U.letter 95) 58)
  else if c = 73 then some (negate (addChar (addChar U.letter 95) 58))
  else if c = 99 then some U.nameChar
  else if c = 67 then some (negate U.nameChar)
  else if c = 100 then some (U.cat [78, 100])
  else if c = 68 then some (negate (U.cat [78, 100]))
  else if c = 119 then some (negate (addClass (addClass (U.cat [80]) (U.cat [90])) (U.cat [67])))
  else if c = 87 then some (addClass (addClass (U.cat [80]) (U.cat [90])) (U.cat [67]))
  else none

/-- `require_multi_char_esc`, xsdatatypes.py:1449-1461. -/
def requireMultiCharEsc (U : Ucd) : Str → P (List Range)
  | 92 :: c :: r => (multiEsc U c).map fun rs => (rs, r)
  | _ => none

/-- `require_char_class_esc`, xsdatatypes.py:1283-1299. -/
def requireCharClassEsc (U : Ucd) (s : Str) : P (List Range) :=
  match requireCatEsc U s with
  | some p => some p
  | none => match requireComplEsc U s with
    | some p => some p
    | none => match requireMultiCharEsc U s with
      | some p => some p
      | none => (requireSingleCharEsc s).map fun p => ([(p.1, p.1)], p.2)

/-- `require_char_or_esc` with `is_xml_char`, xsdatatypes.py:1264-1276. -/
def requireCharOrEsc : Str → P Nat
  | [] => none
  | c :: r => if c ∈ [92, 45, 91, 93] then requireSingleCharEsc (c :: r) else some (c, r)

/-- `require_se_range`, xsdatatypes.py:1252-1262. -/
def requireSeRange (s : Str) : P (List Range) :=
  match requireCharOrEsc s with
  | some (a, 45 :: r) => match requireCharOrEsc r with
    | some (b, r) => if a > b then none else some ([(a, b)], r)
    | none => none
  | _ => none

/-- `require_char_range` with `is_xml_char_inc_dash`, xsdatatypes.py:1241-1250, 1278-1281. -/
def requireCharRange (s : Str) : P (List Range) :=
  match requireSeRange s with
  | some p => some p
  | none => match s with
    | [] => none
    | c :: r => if c ∈ [92, 91, 93] then none else some ([(c, c)], r)

/-- The loop of `require_pos_char_group`, xsdatatypes.py:1174-1210; `got` tells whether `nranges` is not 0 and the first
argument bounds the number of iterations. -/
def posCharGroup (U : Ucd) : Nat → Bool → List Range → Str → P (List Range)
  | 0, _, _, _ => none
  | n + 1, got, acc, s =>
    if got && s.head? == some 45 then
      if s.tail.head? == some 91 then some (acc, s)
      else if s.tail.head? == some 93 || (s.tail.head? == some 45 && s.tail.tail.head? == some 91) then some (addChar acc 45, s.tail)
      else none
    else match requireCharRange s with
      | some (rs, r) => posCharGroup U n true (addClass acc rs) r
      | none => match requireCharClassEsc U s with
        | some (rs, r) => posCharGroup U n true (addClass acc rs) r
        | none => if got then some (acc, s) else none

/-- `require_pos_char_group`, xsdatatypes.py:1174-1210. -/
def requirePosCharGroup (U : Ucd) (s : Str) : P (List Range) := posCharGroup U (s.length + 1) false [] s

/-- The first part of `require_char_group`, with `require_neg_char_group`, xsdatatypes.py:1164-1167, 1212-1221. -/
def requireGroupBase (U : Ucd) (s : Str) : P (List Range) :=
  match s with
  | 94 :: r => (requirePosCharGroup U r).map fun p => (negate p.1, p.2)
  | s => requirePosCharGroup U s

/-- `require_char_class_expr` and `require_char_group`, xsdatatypes.py:1144-1172; the first argument bounds the depth of
nested classes. -/
def requireCharClassExpr (U : Ucd) : Nat → Str → P (List Range)
  | 0, _ => none
  | n + 1, 91 :: s =>
    match requireGroupBase U s with
    | some (rs, 45 :: r) => match requireCharClassExpr U n r with
      | some (sub, 93 :: r) => some (subtractClass rs sub, r)
      | _ => none
    | some (rs, 93 :: r) => some (rs, r)
    | _ => none
  | _ + 1, _ => none

/-- `dot_class`, xsdatatypes.py:1463-1466. -/
def dotClass : List Range := [(0, 9), (11, 12), (14, maxunicode)]

/-- `require_char_class`, xsdatatypes.py:1133-1142, 1468-1474. -/
def requireCharClass (U : Ucd) (s : Str) : P (List Range) :=
  match s with
  | 91 :: _ => requireCharClassExpr U (s.length + 1) s
  | 92 :: _ => requireCharClassEsc U s
  | 46 :: r => some (dotClass, r)
  | _ => none

/-! ### pieces and branches -/

/-- `is_char`, xsdatatypes.py:1115-1131. -/
def isNormal (c : Nat) : Bool := !([46, 92, 63, 42, 43, 123, 125, 40, 41, 91, 93, 124].contains c)

/-- The decimal digits at the beginning. -/
def isDig (c : Nat) : Bool := 48 ≤ c && c ≤ 57

/-- `require_quant_exact`, xsdatatypes.py:1081-1093. -/
def requireQuantExact (s : Str) : P Nat :=
  if s.takeWhile isDig = [] then none
  else some ((s.takeWhile isDig).foldl (fun acc d => acc * 10 + d - 48) 0, s.dropWhile isDig)

/-- `require_quantity`, xsdatatypes.py:1061-1079. -/
def requireQuantity (s : Str) : P (Nat × Option Nat) :=
  match requireQuantExact s with
  | none => none
  | some (n, 44 :: r) => if (r.head?.map isDig).getD false then
      match requireQuantExact r with
      | some (m, r) => if n > m then none else some ((n, some m), r)
      | none => none
    else some ((n, none), r)
  | some (n, r) => some ((n, some n), r)

/-- `require_quantifier`, xsdatatypes.py:1033-1059; `none` when the text does not begin with a quantifier. -/
def quantifier : Str → Option (P (Nat × Option Nat))
  | 63 :: r => some (some ((0, some 1), r))
  | 42 :: r => some (some ((0, none), r))
  | 43 :: r => some (some ((1, none), r))
  | 123 :: r => some (match requireQuantity r with
    | some (q, 125 :: r) => some (q, r)
    | _ => none)
  | _ => none

/-- The piece made from an atom and a quantity, xsdatatypes.py:1006-1029. -/
def quantified (a : Re) (n : Nat) (m : Option Nat) : Re :=
  if n = 0 ∧ m = some 0 then .eps else if n = 1 ∧ m = some 1 then a else .rep a n m

/-- The end of `require_piece`, xsdatatypes.py:1006-1031: the quantifier, if any. -/
def withQuantifier (a : Re) (s : Str) : P Re :=
  match quantifier s with
  | none => some (a, s)
  | some none => none
  | some (some ((n, m), r)) => some (quantified a n m, r)

/-- The condition of the loop of `require_branch`, xsdatatypes.py:996. -/
def atomStart : Str → Bool
  | [] => false
  | c :: _ => isNormal c || [46, 92, 91, 40].contains c

mutual
/-- `require_atom`, xsdatatypes.py:1095-1113.  The first argument of this and the following functions bounds the number
of nested calls. -/
def requireAtom (U : Ucd) : Nat → Str → P Re
  | 0, _ => none
  | n + 1, s =>
    match s with
    | [] => none
    | c :: r =>
      if isNormal c then some (.cls [(c, c)], r)
      else if c = 40 then
        match requireRegExp U n r with
        | some (a, 41 :: r) => some (a, r)
        | _ => none
      else (requireCharClass U s).map fun p => (.cls p.1, p.2)

/-- `require_branch` with `require_piece`, xsdatatypes.py:990-1031. -/
def requireBranch (U : Ucd) : Nat → Str → P Re
  | 0, _ => none
  | n + 1, s =>
    if atomStart s then
      match requireAtom U n s with
      | none => none
      | some (a, r) => match withQuantifier a r with
        | none => none
        | some (p, r) => (requireBranch U n r).map fun q => (.seq p q.1, q.2)
    else some (.eps, s)

/-- `require_reg_exp`, xsdatatypes.py:974-988. -/
def requireRegExp (U : Ucd) : Nat → Str → P Re
  | 0, _ => none
  | n + 1, s =>
    match requireBranch U n s with
    | none => none
    | some (b, 124 :: r) => (requireRegExp U n r).map fun q => (.alt b q.1, q.2)
    | some (b, r) => some (b, r)
end

/-- The structure parsed by `RegularExpression.__init__`, xsdatatypes.py:923-927; what remains is ignored. -/
def parse (U : Ucd) (src : Str) : Option Re := (requireRegExp U (3 * src.length + 3) src).map (·.1)

/-! ### compilation and matching -/

/-- The characters an atom matches. -/
def atomTest (a : PyAtom) (c : Nat) : Bool := a.neg != a.items.any fun r => decide (r.1 ≤ c) && decide (c ≤ r.2)

/-- What the text of a class matches. -/
def classTest (rs : List Range) (c : Nat) : Bool :=
  match pyAtom (classText rs) with
  | some (a, []) => atomTest a c
  | _ => false

/-- Every class of the pattern has a text that is an atom: otherwise the pattern cannot be compiled or means
something else. -/
def Re.compiles : Re → Bool
  | .eps => true
  | .cls rs => match pyAtom (classText rs) with
    | some (_, []) => true
    | _ => false
  | .seq a b => a.compiles && b.compiles
  | .alt a b => a.compiles && b.compiles
  | .rep a _ _ => a.compiles

/-- `n` times `f`. -/
def iter (f : Str → List Str) : Nat → Str → List Str
  | 0, s => [s]
  | n + 1, s => (f s).flatMap (iter f n)

/-- Up to `k` more times `f`, as often as possible first; after an iteration that consumed nothing there is no other. -/
def more (f : Str → List Str) : Nat → Str → List Str
  | 0, s => [s]
  | k + 1, s => (f s).flatMap (fun e => if e.length = s.length then [s] else more f k e) ++ [s]

/-- The ways in which Python's `re` matches a pattern at the beginning of a text, in the order in which it tries them:
what remains of the text after each.  The first alternative is tried first and repetitions are greedy. -/
def ends : Re → Str → List Str
  | .eps, s => [s]
  | .cls rs, s => match s with
    | [] => []
    | c :: r => if classTest rs c then [r] else []
  | .seq a b, s => (ends a s).flatMap (ends b)
  | .alt a b, s => ends a s ++ ends b s
  | .rep a n m, s => (iter (ends a) n s).flatMap fun e =>
      more (ends a) (match m with
        | none => e.length + 1
        | some m => m - n) e

/-- `RegularExpression.match`, xsdatatypes.py:937-943: the first way of matching counts, whether or not it ends at the end of
the text. -/
def reMatch (r : Re) (t : Str) : Bool := (ends r t).head? == some []

/-- `RegularExpression(src).match(target)`; `none` when the constructor raises. -/
def regexMatch (U : Ucd) (src target : Str) : Option Bool :=
  match parse U src with
  | some r => if r.compiles then some (reMatch r target) else none
  | none => none

end Verif.Xsd

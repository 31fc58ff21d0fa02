import Verif.Text.Loop
import Verif.Text.Decimal
/-!
# Model of `pyslet/http/grammar.py`

Byte strings are lists of numbers; a byte is a number below 256.  The position of an `OctetParser` is represented by
the bytes that remain, so `the_char` is the head.  `none` as the result of a function that can raise stands for the
`ParserError`.
-/
namespace Verif.Http
open Text (Step run isDigit decVal)

abbrev Bytes := List Nat

/-- `is_char`, grammar.py:19-21. -/
def isChar (b : Nat) : Bool := b < 128
/-- `is_ctl`, grammar.py:57-59. -/
def isCtl (b : Nat) : Bool := b < 32 || b == 127
/-- `is_octet`, grammar.py:14-16. -/
def isOctet (b : Nat) : Bool := b < 256
/-- `is_digits`, grammar.py:44-54. -/
def isDigits (s : Bytes) : Bool := !s.isEmpty && s.all isDigit
/-- `is_hex`, grammar.py:81-84. -/
def isHex (b : Nat) : Bool := isDigit b || (65 ≤ b && b ≤ 70) || (97 ≤ b && b ≤ 102)
/-- `is_hexdigits`, grammar.py:87-97. -/
def isHexDigits (s : Bytes) : Bool := !s.isEmpty && s.all isHex
/-- `SEPARATORS`, the bytes of ``()<>@,;:\"/[]?={} `` and HT, grammar.py:100. -/
def separators : List Nat := [40, 41, 60, 62, 64, 44, 59, 58, 92, 34, 47, 91, 93, 63, 61, 123, 125, 32, 9]
/-- `is_separator`, grammar.py:120-122. -/
def isSeparator (b : Nat) : Bool := separators.contains b

/-- `check_token` on a byte string, grammar.py:125-140: `false` is ValueError. -/
def checkToken (t : Bytes) : Bool := t.all fun b => !(isSeparator b) && !(isCtl b || !isChar b)

/-- The loop of `decode_quoted_string`, grammar.py:156-164; the flag is `escape`. -/
def unescape : Bool → Bytes → Bytes
  | _, [] => []
  | e, b :: r => if !e && b == 92 then unescape true r else b :: unescape false r

/-- `decode_quoted_string`, grammar.py:143-166. -/
def decodeQuotedString (q : Bytes) : Bytes :=
  let q := q.tail.dropLast
  if q.contains 92 then unescape false q else q

/-- The loop of `quote_string`, grammar.py:180-189: the bytes appended to `qstring`, and whether `force` was set. -/
def quoteLoop : Bytes → Bytes × Bool
  | [] => ([], false)
  | b :: r =>
    let p := quoteLoop r
    if (b == 92 || b == 34) || (isCtl b && !(b == 32 || b == 9)) then (92 :: b :: p.1, true)
    else if isCtl b || isSeparator b then (b :: p.1, true)
    else (b :: p.1, p.2)

/-- `quote_string`, grammar.py:169-194. -/
def quoteString (s : Bytes) (force : Bool) : Bytes :=
  let p := quoteLoop s
  if force || p.2 then 34 :: p.1 ++ [34] else p.1

/-- The loop of `parse_lws` over SP and HT, grammar.py:242-249. -/
def spanSp : Bytes → Bytes × Bytes
  | [] => ([], [])
  | b :: r => if b = 32 ∨ b = 9 then (b :: (spanSp r).1, (spanSp r).2) else ([], b :: r)

/-- `OctetParser.parse_lws`, grammar.py:233-253. -/
def parseLws (s : Bytes) : Option (Bytes × Bytes) :=
  let p := if s.take 2 = [13, 10] then ([13, 10], s.drop 2) else ([], s)
  let q := spanSp p.2
  if q.1.isEmpty then none else some (p.1 ++ q.1, q.2)

/-- `OctetParser.parse_onetext`, grammar.py:255-286 (a single byte is returned as a byte string of length one). -/
def parseOneText (unfold : Bool) (s : Bytes) : Option (Bytes × Bytes) :=
  match parseLws s with
  | some (lws, r) => some (if unfold && lws.take 2 == [13, 10] then [32] else lws, r)
  | none => match s with
    | [] => none
    | b :: r => if isOctet b && !isCtl b then some ([b], r) else none

/-- One iteration of the loops of `parse_text`, `parse_ctext` and `parse_qdtext`, which stop in front of the bytes
of `ends`, grammar.py:299-307, 390-401, 452-463. -/
def textStep (unfold : Bool) (ends : List Nat) : Bytes → Step Bytes Bytes
  | [] => .stop
  | b :: r =>
    if ends.contains b then .stop
    else match parseOneText unfold (b :: r) with
      | some (t, r') => .emit t r'
      | none => .stop

/-- `parse_text` (`ends = []`), `parse_ctext` (`ends = b"()\\"`), `parse_qdtext` (`ends = b'"\\'`),
grammar.py:288-311, 372-405, 438-467. -/
def parseTextTo (unfold : Bool) (ends : List Nat) (s : Bytes) : Option (Bytes × Bytes) :=
  match run (textStep unfold ends) List.length s with
  | some (ts, r) => if ts.flatten = [] then none else some (ts.flatten, r)
  | none => none

/-- `OctetParser.parse_token`, grammar.py:313-329. -/
def parseToken (s : Bytes) : Option (Bytes × Bytes) :=
  let t := s.takeWhile fun b => !(isCtl b || isSeparator b)
  if t = [] then none else some (t, s.drop t.length)

/-- `OctetParser.parse_quoted_pair`, grammar.py:469-483. -/
def parseQuotedPair : Bytes → Option (Bytes × Bytes)
  | 92 :: b :: r => if isChar b then some ([92, b], r) else none
  | _ => none

/-- One iteration of the loop of `parse_quoted_string`, grammar.py:420-435. -/
def qstrStep (unfold : Bool) : Bytes → Step Bytes Bytes
  | [] => .stop
  | b :: r =>
    if b = 34 then .last [34] r
    else if b = 92 then match parseQuotedPair (b :: r) with
      | some (q, r') => .emit q r'
      | none => .fail
    else match parseTextTo unfold [34, 92] (b :: r) with
      | some (q, r') => .emit q r'
      | none => .fail

/-- `OctetParser.parse_quoted_string` when `the_char` is DQUOTE, grammar.py:407-436; the argument is what follows
the DQUOTE. -/
def parseQuotedString (unfold : Bool) (s : Bytes) : Option (Bytes × Bytes) :=
  match run (qstrStep unfold) List.length s with
  | some (qs, r) => some (34 :: qs.flatten, r)
  | none => none

/-- One iteration of the loop of `parse_comment`, grammar.py:346-366; the state is `depth` and what remains. -/
def commentStep (unfold : Bool) : Nat × Bytes → Step Bytes (Nat × Bytes)
  | (_, []) => .stop
  | (d, b :: r) =>
    if b = 41 then if d - 1 < 1 then .last [41] (d - 1, r) else .emit [41] (d - 1, r)
    else if b = 40 then .emit [40] (d + 1, r)
    else if b = 92 then match parseQuotedPair (b :: r) with
      | some (q, r') => .emit q (d, r')
      | none => .fail
    else match parseTextTo unfold [40, 41, 92] (b :: r) with
      | some (q, r') => .emit q (d, r')
      | none => .stop

/-- `OctetParser.parse_comment` when `the_char` is "(", grammar.py:331-370; the argument is what follows it. -/
def parseComment (unfold : Bool) (s : Bytes) : Option (Bytes × Bytes) :=
  match run (commentStep unfold) (fun p => p.2.length) (1, s) with
  | some (cs, (d, r)) => if d ≠ 0 then none else some (40 :: cs.flatten, r)
  | none => none

/-- A word of a `WordParser`: a separator, held as a number in Python 3, or a byte string (token, quoted string or
comment). -/
inductive Word where
  | sep (b : Nat)
  | text (s : Bytes)
  deriving DecidableEq, Repr

/-- `while p.parse_lws()`, grammar.py:582: what is left, and whether anything was parsed. -/
def skipLws : Nat → Bytes → Bytes
  | 0, s => s
  | n + 1, s => match parseLws s with
    | some (_, r) => skipLws n r
    | none => s

/-- One iteration of the loop of `WordParser._init_parser`, grammar.py:579-603: the words appended. -/
def wordStep (ignoreSp : Bool) : Bytes → Step (List Word) Bytes
  | [] => .stop
  | b :: r =>
    let s := skipLws (b :: r).length (b :: r)
    let sp := if !ignoreSp && (parseLws (b :: r)).isSome then [Word.sep 32] else []
    match s with
    | [] => .last sp []
    | c :: t =>
      if isSeparator c then
        if c = 40 then match parseComment true t with
          | some (w, t') => .emit (sp ++ [.text w]) t'
          | none => .fail
        else if c = 34 then match parseQuotedString true t with
          | some (w, t') => .emit (sp ++ [.text w]) t'
          | none => .fail
        else .emit (sp ++ [.sep c]) t
      else match parseToken (c :: t) with
        | some (w, t') => .emit (sp ++ [.text w]) t'
        | none => .fail

/-- `WordParser(source, ignore_sp)`: the list `words`, grammar.py:566-608. -/
def words (ignoreSp : Bool) (s : Bytes) : Option (List Word) :=
  (run (wordStep ignoreSp) List.length s).map fun p => p.1.flatten

end Verif.Http

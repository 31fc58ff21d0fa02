/-!
# Model of `pyslet/rfc2396.py`: character classes, escaping and unescaping

Text is a list of character codes, a byte string a list of byte values.  Exceptions are `none`.
The character classes are `CharClass.test` methods (see `Verif.CharClass`), written here as predicates.
-/
namespace Verif.Uri

/-- Text: a list of character codes. -/
abbrev Str := List Nat

/-- `is_upalpha`, rfc2396.py:40-41. -/
def isUpper (c : Nat) : Bool := 65 ≤ c && c ≤ 90
/-- `is_lowalpha`, rfc2396.py:43-44. -/
def isLower (c : Nat) : Bool := 97 ≤ c && c ≤ 122
/-- `is_alpha`, rfc2396.py:46-47. -/
def isAlpha (c : Nat) : Bool := isUpper c || isLower c
/-- `is_digit`, rfc2396.py:49-50. -/
def isDigit (c : Nat) : Bool := 48 ≤ c && c ≤ 57
/-- `is_alphanum`, rfc2396.py:52-53. -/
def isAlnum (c : Nat) : Bool := isUpper c || isLower c || isDigit c
/-- `is_reserved`, the characters ";/?:@&=+$,[]", rfc2396.py:61-62. -/
def isReserved (c : Nat) : Bool := [59, 47, 63, 58, 64, 38, 61, 43, 36, 44, 91, 93].contains c
/-- `is_mark`, the characters "-_.!~*'()", rfc2396.py:73-74. -/
def isMark (c : Nat) : Bool := [45, 95, 46, 33, 126, 42, 39, 40, 41].contains c
/-- `is_unreserved`, rfc2396.py:76-77. -/
def isUnreserved (c : Nat) : Bool := isAlnum c || isMark c
/-- `is_allowed`, rfc2396.py:85-86. -/
def isAllowed (c : Nat) : Bool := isReserved c || isUnreserved c
/-- `is_hex`, rfc2396.py:88-89. -/
def isHex (c : Nat) : Bool := isDigit c || (97 ≤ c && c ≤ 102) || (65 ≤ c && c ≤ 70)
/-- `_is_scheme_char`, rfc2396.py:108-109. -/
def isSchemeChar (c : Nat) : Bool := isAlnum c || c == 43 || c == 45 || c == 46

/-- The value of a hexadecimal digit, as used by `int(..., 16)`. -/
def hexVal (c : Nat) : Nat := if c ≤ 57 then c - 48 else if c ≤ 70 then c - 55 else c - 87

/-- An upper case hexadecimal digit. -/
def hexDigit (n : Nat) : Nat := if n < 10 then 48 + n else 55 + n

/-- `"%%%02X" % n` for `n < 256` (it is only used on bytes and ASCII characters). -/
def percent (n : Nat) : Str := [37, hexDigit (n / 16), hexDigit (n % 16)]

/-- The `mode` variable of the scanners: None, '%', or the first hexadecimal digit. -/
inductive Mode | none | pct | hex (c : Nat)
deriving DecidableEq

/-- The loop of `parse_uric`, rfc2396.py:150-173. -/
def uricLoop (allowed : Nat → Bool) : Mode → Nat → Str → Nat
  | _, uric, [] => uric
  | .none, uric, c :: r =>
    if allowed c then uricLoop allowed .none (uric + 1) r
    else if c = 37 then uricLoop allowed .pct uric r
    else uric
  | .pct, uric, c :: r => if isHex c then uricLoop allowed (.hex c) uric r else uric
  | .hex _, uric, c :: r => if isHex c then uricLoop allowed .none (uric + 3) r else uric

/-- `parse_uric`, rfc2396.py:116-173. -/
def parseUric (source : Str) (pos : Nat := 0) (allowed : Nat → Bool := isAllowed) : Nat :=
  uricLoop allowed .none 0 (source.drop pos)

/-- `escape_data`, rfc2396.py:253-344, on a byte string. -/
def escapeData (source : List Nat) (reserved : Nat → Bool := isReserved) (allowed : Nat → Bool := isAllowed) : Str :=
  source.flatMap fun c => if reserved c || !allowed c then percent c else [c]

/-- `escape_data` on text: the text must be ASCII, rfc2396.py:334-335. -/
def escapeText (source : Str) (reserved : Nat → Bool := isReserved) (allowed : Nat → Bool := isAllowed) : Option Str :=
  if source.all (· < 128) then some (escapeData source reserved allowed) else none

/-- The loop of `unescape_data`, rfc2396.py:361-388: an unfinished escape at the end is dropped. -/
def unescapeLoop : Mode → Str → List Nat
  | _, [] => []
  | .none, c :: r => if c = 37 then unescapeLoop .pct r else c :: unescapeLoop .none r
  | .pct, c :: r => if isHex c then unescapeLoop (.hex c) r else 37 :: c :: unescapeLoop .none r
  | .hex m, c :: r =>
    if isHex c then (16 * hexVal m + hexVal c) :: unescapeLoop .none r
    else 37 :: m :: c :: unescapeLoop .none r

/-- `unescape_data`, rfc2396.py:348-388: `source.encode('ascii')` raises for other text. -/
def unescapeData (source : Str) : Option (List Nat) :=
  if source.all (· < 128) then some (unescapeLoop .none source) else none

/-- White space for `int()` on ASCII text. -/
def isSpace (c : Nat) : Bool := (9 ≤ c && c ≤ 13) || c == 32

/-- `int(escape, 16)` for ASCII text of at most two characters; `none`: ValueError, also for a negative
result, which `chr` refuses. -/
def pyInt16 : Str → Option Nat
  | [a] => if isHex a then some (hexVal a) else none
  | [a, b] =>
    if isHex a ∧ isHex b then some (16 * hexVal a + hexVal b)
    else if isSpace a ∧ isHex b then some (hexVal b)
    else if isHex a ∧ isSpace b then some (hexVal a)
    else if a = 43 ∧ isHex b then some (hexVal b)
    else if a = 45 ∧ b = 48 then some 0
    else none
  | _ => none

/-- The loop of `canonicalize_data`, rfc2396.py:233-249, from the rest of the text. -/
def canonicalizeLoop (unreserved allowed : Nat → Bool) (s : Str) : Option Str :=
  match s with
  | [] => some []
  | c :: r =>
    if c = 37 then do
      let n ← pyInt16 (r.take 2)
      let t ← canonicalizeLoop unreserved allowed (r.drop 2)
      return (if unreserved n then [n] else percent n) ++ t
    else do
      let t ← canonicalizeLoop unreserved allowed r
      return (if !allowed c then percent c else [c]) ++ t
termination_by s.length
decreasing_by all_goals simp <;> omega

/-- `canonicalize_data`, rfc2396.py:192-249. -/
def canonicalizeData (source : Str) (unreserved : Nat → Bool := isUnreserved) (allowed : Nat → Bool := isAllowed) :
    Option Str :=
  if source.all (· < 128) then canonicalizeLoop unreserved allowed source else none

end Verif.Uri

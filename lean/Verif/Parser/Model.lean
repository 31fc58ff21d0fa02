import Verif.Text.Decimal
/-!
# Model of `pyslet/unicode5.py` class `BasicParser`

The source is a list of characters or bytes (`Nat` codes), text and binary mode are treated
alike (in Python 3 the elements of a bytes object are ints).  `the_char` is not stored: every change
of `pos` goes through `next_char` (unicode5.py:1024-1046), which
sets `the_char` to `src[pos]`, or None when `pos` is not an index.
Positions are `Nat`: the parser starts at 0 and no method moves before 0 (a caller
could pass a negative number to `setpos`; not modelled).
-/
namespace Verif.Parser
open Verif.Text

/-- Parser state: `src`, `pos`, and the position of `last_error`. -/
structure P where
  src : List Nat
  pos : Nat := 0
  last : Option Nat := none
deriving Repr, DecidableEq

/-- Exceptions: a ParserError carrying its position, or another ValueError (bad arguments). -/
inductive Exc where
  | parser (pos : Nat)
  | value
deriving Repr, DecidableEq

/-- The result of a method that may raise. -/
abbrev Out (β : Type) := Except Exc β

/-- `the_char`, unicode5.py:1038-1046. -/
def P.char (s : P) : Option Nat := s.src[s.pos]?

/-- `src[i:j]` for `i ≤ j`. -/
def slice (src : List Nat) (i j : Nat) : List Nat := (src.drop i).take (j - i)

/-- `setpos`, unicode5.py:1024-1036. -/
def P.setpos (s : P) (n : Nat) : P := { s with pos := n }
/-- `next_char`, unicode5.py:1038-1046. -/
def P.next (s : P) : P := { s with pos := s.pos + 1 }

/-- `peek`, unicode5.py:1091-1096. -/
def P.peek (s : P) (n : Nat) : List Nat := slice s.src s.pos (s.pos + n)
/-- `match_end`, unicode5.py:1098-1100. -/
def P.atEnd (s : P) : Bool := s.char.isNone

/-- `match`, unicode5.py:1102-1108. -/
def P.matches (s : P) (m : List Nat) : Bool :=
  match s.char with
  | none => false
  | some _ => slice s.src s.pos (s.pos + m.length) == m

/-- `parse`, unicode5.py:1110-1118. -/
def P.parse (s : P) (m : List Nat) : Option (List Nat) × P :=
  if s.matches m then (some m, s.setpos (s.pos + m.length)) else (none, s)

/-- `parser_error`, unicode5.py:1048-1089: `named` says whether a production is given.
Only the position of the error is kept. -/
def P.error (s : P) (named : Bool) : Exc × P :=
  let e : Nat :=
    if named then s.pos
    else match s.last with
      | some l => if s.pos ≤ l then l else s.pos
      | none => s.pos
  let last' := match s.last with
    | none => some e
    | some l => if e > l then some e else some l
  (.parser e, { s with last := last', pos := e })

/-- `require`, unicode5.py:1120-1141: `if not self.parse(match_string)` - the empty string
is falsy, so `require('')` always fails.  The production defaults to the match string, which
is then non-empty exactly when it can be a production name. -/
def P.require (s : P) (m : List Nat) (named : Bool) : Out (List Nat) × P :=
  let r := s.parse m
  match r.1 with
  | some t =>
    if t.isEmpty then
      let e := r.2.error named
      (.error e.1, e.2)
    else (.ok m, r.2)
  | none =>
    let e := r.2.error (named || !m.isEmpty)
    (.error e.1, e.2)

/-- `require_production`, unicode5.py:868-888. -/
def P.requireProduction {β : Type} (s : P) (r : Option β) (named : Bool) : Out β × P :=
  match r with
  | none => let e := s.error named; (.error e.1, e.2)
  | some b => (.ok b, s)

/-- `parse_production`, unicode5.py:890-914, for an arbitrary method. -/
def P.parseProduction {β : Type} (s : P) (method : P → Out β × P) : Option β × P :=
  match method s with
  | (.ok b, s') => (some b, s')
  | (.error _, s') => (none, s'.setpos s.pos)

/-- `require_end`, unicode5.py:916-921 (the production name is given). -/
def P.requireEnd (s : P) : Out Unit × P :=
  if s.atEnd then (.ok (), s) else let e := s.error true; (.error e.1, e.2)

/-- `match_insensitive`, unicode5.py:1143-1151; `lower` is Python's str.lower / bytes.lower. -/
def P.matchesInsensitive (lower : List Nat → List Nat) (s : P) (m : List Nat) : Bool :=
  match s.char with
  | none => false
  | some _ => lower (slice s.src s.pos (s.pos + m.length)) == m

/-- `parse_insensitive`, unicode5.py:1153-1167. -/
def P.parseInsensitive (lower : List Nat → List Nat) (s : P) (m : List Nat) : Option (List Nat) × P :=
  if s.matchesInsensitive lower m then
    (some (slice s.src s.pos (s.pos + m.length)), s.setpos (s.pos + m.length))
  else (none, s)

/-- `str.find(sub, start)`: the first position `k ≥ start` at which `sub` occurs; `start` may be at
most `len(src)`.  Recursion on the rest of the text. -/
def findFrom (rest : List Nat) (m : List Nat) (k : Nat) : Option Nat :=
  if m.isPrefixOf rest then some k
  else match rest with
    | [] => none
    | _ :: rest' => findFrom rest' m (k + 1)

/-- `self.src.find(match_string, self.pos)`: `None` is -1. -/
def find (src m : List Nat) (start : Nat) : Option Nat :=
  if start ≤ src.length then findFrom (src.drop start) m start else none

/-- `parse_until`, unicode5.py:1169-1187 (`m = none` models `match_string=None`). -/
def P.parseUntil (s : P) (m : Option (List Nat)) : List Nat × P :=
  match m.bind (fun m => find s.src m s.pos) with
  | none => (s.src.drop s.pos, s.setpos s.src.length)
  | some k => (slice s.src s.pos k, s.setpos k)

/-- `match_one`, unicode5.py:1189-1198. -/
def P.matchOne (s : P) (cs : Nat → Bool) : Bool :=
  match s.char with
  | none => false
  | some c => cs c

/-- `parse_one`, unicode5.py:1200-1228; `cs` is membership in *match_chars*. -/
def P.parseOne (s : P) (cs : Nat → Bool) : Option Nat × P :=
  match s.char with
  | none => (none, s)
  | some c => if cs c then (some c, s.next) else (none, s)

/-- `parse_digit`, unicode5.py:1230-1251. -/
def P.parseDigit (s : P) : Option Nat × P := s.parseOne isDigit

/-- `parse_digit_value`, unicode5.py:1253-1266. -/
def P.parseDigitValue (s : P) : Option Nat × P :=
  let r := s.parseOne isDigit
  (r.1.map (· - 0x30), r.2)

/-- Hexadecimal digits, unicode5.py:1333-1334. -/
def isHexDigit (c : Nat) : Bool := isDigit c || (97 ≤ c && c ≤ 102) || (65 ≤ c && c ≤ 70)

/-- `parse_hex_digit`, unicode5.py:1347-1356. -/
def P.parseHexDigit (s : P) : Option Nat × P := s.parseOne isHexDigit

/-- The `while` loop of parse_digits / parse_hex_digits, unicode5.py:1286-1291,1377-1382:
`left` is how many more characters the maximum allows (none: unbounded).  `fuel` only
makes the recursion structural; every iteration but the last consumes a character so
`len(src) + 1` is enough (`runLoop_spec`). -/
def runLoop (cs : Nat → Bool) : Nat → P → Option Nat → List Nat → List Nat × P
  | 0, s, _, acc => (acc, s)
  | fuel + 1, s, left, acc =>
    if left = some 0 then (acc, s)
    else
      match s.parseOne cs with
      | (none, s') => (acc, s')
      | (some d, s') => runLoop cs fuel s' (left.map (· - 1)) (acc ++ [d])

/-- `parse_digits` (unicode5.py:1268-1298) and `parse_hex_digits` (1358-1386); they differ in
the digit test only. `min`, `max` are ints as in Python. -/
def P.parseRun (cs : Nat → Bool) (s : P) (min : Int) (max : Option Int) : Out (Option (List Nat)) × P :=
  if min < 0 ∨ (∃ m ∈ max, min > m) then (.error .value, s)
  else
    let r := runLoop cs (s.src.length + 1) s (max.map Int.toNat) []
    if (r.1.length : Int) < min then (.ok none, r.2.setpos s.pos)
    else (.ok (some r.1), r.2)

def P.parseDigits := P.parseRun isDigit
def P.parseHexDigits := P.parseRun isHexDigit

/-- `parse_integer`, unicode5.py:1300-1331 (`min=None` becomes 0). -/
def P.parseInteger (s : P) (min : Option Int) (max : Option Int) (maxDigits : Option Int) :
    Out (Option Nat) × P :=
  let min := min.getD 0
  if min < 0 ∨ (∃ m ∈ max, m < min) then (.error .value, s)
  else
    match s.parseDigits 1 maxDigits with
    | (.error e, s') => (.error e, s')
    | (.ok none, s') => (.ok none, s')
    | (.ok (some d), s') =>
      if (decVal d : Int) < min ∨ (∃ m ∈ max, (decVal d : Int) > m) then (.ok none, s'.setpos s.pos)
      else (.ok (some (decVal d)), s')

end Verif.Parser

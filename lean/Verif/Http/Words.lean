import Verif.Http.Grammar
/-!
# Model of `WordParser` methods, `pyslet/http/grammar.py:610-928`

The position of a `WordParser` is represented by the words that remain, `the_word` is the head.  Methods that can
raise return `Except Err`: `badSyntax` is `BadSyntax`, `value` any other `ValueError` (`ParserError` from the
tokenizer, `UnicodeDecodeError`, ...), `type` a `TypeError`, `dateTime` a `DateTimeError` (not a `ValueError`).  Only the kind of the exception is modelled, not its
position and message.
-/
namespace Verif.Http
open Text (Step run isDigit decVal)

inductive Err where
  | badSyntax | value | type | dateTime
  deriving DecidableEq, Repr

instance {α : Type} [DecidableEq α] : DecidableEq (Except Err α)
  | .ok a, .ok b => if h : a = b then .isTrue (h ▸ rfl) else .isFalse fun e => h (by cases e; rfl)
  | .error a, .error b => if h : a = b then .isTrue (h ▸ rfl) else .isFalse fun e => h (by cases e; rfl)
  | .ok _, .error _ => .isFalse fun e => by cases e
  | .error _, .ok _ => .isFalse fun e => by cases e

/-- `bytes.lower` on one byte. -/
def lowerByte (b : Nat) : Nat := if 65 ≤ b ∧ b ≤ 90 then b + 32 else b
/-- `bytes.upper` on one byte. -/
def upperByte (b : Nat) : Nat := if 97 ≤ b ∧ b ≤ 122 then b - 32 else b
/-- `str.lower` on one character below 256. -/
def lowerChar (c : Nat) : Nat := if (65 ≤ c ∧ c ≤ 90) ∨ (192 ≤ c ∧ c ≤ 222 ∧ c ≠ 215) then c + 32 else c

/-- `bytes.lower()`. -/
def lowerBytes (s : Bytes) : Bytes := s.map lowerByte
/-- `bytes.upper()`. -/
def upperBytes (s : Bytes) : Bytes := s.map upperByte
/-- `str.lower()` for strings of characters below 256. -/
def lowerText (s : Bytes) : Bytes := s.map lowerChar

/-- `bytes.decode('ascii')` and `str.encode('ascii')`: UnicodeError above 127. -/
def ascii (s : Bytes) : Except Err Bytes := if s.all (· < 128) then .ok s else .error .value

/-- `is_token`, grammar.py:686-690. -/
def isToken : List Word → Bool
  | .text (b :: _) :: _ => !isSeparator b
  | _ => false

/-- `parse_token`, grammar.py:692-702. -/
def wpToken : List Word → Option Bytes × List Word
  | .text (b :: t) :: ws => if !isSeparator b then (some (b :: t), ws) else (none, .text (b :: t) :: ws)
  | ws => (none, ws)

/-- `require_token`, grammar.py:734-744. -/
def requireToken (ws : List Word) : Except Err (Bytes × List Word) :=
  match wpToken ws with
  | (some t, ws') => .ok (t, ws')
  | (none, _) => .error .badSyntax

/-- `parse_separator`, grammar.py:800-809. -/
def parseSep (c : Nat) : List Word → Bool × List Word
  | .sep b :: ws => if b = c then (true, ws) else (false, .sep b :: ws)
  | ws => (false, ws)

/-- `require_separator`, grammar.py:811-822. -/
def requireSep (c : Nat) (ws : List Word) : Except Err (List Word) :=
  match parseSep c ws with
  | (true, ws') => .ok ws'
  | (false, _) => .error .badSyntax

/-- `parse_sp`, grammar.py:837-841. -/
def parseSp (ws : List Word) : List Word := (parseSep 32 ws).2

/-- `is_quoted_string`, grammar.py:824-826. -/
def isQuoted : List Word → Bool
  | .text (b :: _) :: _ => b == 34
  | _ => false

/-- `parse_quoted_string`, grammar.py:828-835. -/
def wpQuoted : List Word → Option Bytes × List Word
  | .text (b :: t) :: ws => if b = 34 then (some (decodeQuotedString (b :: t)), ws) else (none, .text (b :: t) :: ws)
  | ws => (none, ws)

/-- `require_end`, unicode5.py:916-921. -/
def requireEnd : List Word → Except Err Unit
  | [] => .ok ()
  | _ => .error .badSyntax

/-- `parse_integer`, grammar.py:746-757.  When `the_word` is a separator, a number in Python 3, `is_digits` raises
TypeError because it iterates over it. -/
def wpInteger : List Word → Except Err (Option Nat × List Word)
  | [] => .ok (none, [])
  | .sep _ :: _ => .error .type
  | .text t :: ws => if isDigits t then .ok (some (decVal t), ws) else .ok (none, .text t :: ws)

/-- `require_integer`, grammar.py:759-769. -/
def requireInteger (ws : List Word) : Except Err (Nat × List Word) :=
  match wpInteger ws with
  | .ok (some n, ws') => .ok (n, ws')
  | .ok (none, _) => .error .badSyntax
  | .error e => .error e

/-- The value of a hexadecimal digit. -/
def hexDigit (b : Nat) : Nat := if b ≤ 57 then b - 48 else if b ≤ 70 then b - 55 else b - 87
/-- `int(s, 16)` on hexadecimal digits. -/
def hexVal (s : Bytes) : Nat := s.foldl (fun acc b => 16 * acc + hexDigit b) 0

/-- `parse_hexinteger`, grammar.py:771-782; TypeError as in `parse_integer`. -/
def wpHexInteger : List Word → Except Err (Option Nat × List Word)
  | [] => .ok (none, [])
  | .sep _ :: _ => .error .type
  | .text t :: ws => if isHexDigits t then .ok (some (hexVal t), ws) else .ok (none, .text t :: ws)

/-- `require_hexinteger`, grammar.py:784-794. -/
def requireHexInteger (ws : List Word) : Except Err (Nat × List Word) :=
  match wpHexInteger ws with
  | .ok (some n, ws') => .ok (n, ws')
  | .ok (none, _) => .error .badSyntax
  | .error e => .error e

/-- A dictionary of parameters: from keys to pairs of the name as written and the value, in insertion order. -/
abbrev Params := List (Bytes × Bytes × Bytes)

/-- `d[k] = v`. -/
def dictSet (d : Params) (k : Bytes) (v : Bytes × Bytes) : Params :=
  if d.any (·.1 == k) then d.map fun e => if e.1 == k then (k, v) else e else d ++ [(k, v)]

/-- `if ignore_allsp: self.parse_sp()`, grammar.py:897-898, 900-901. -/
def optSp (ignoreAllSp : Bool) (ws : List Word) : List Word := if ignoreAllSp then parseSp ws else ws

/-- One iteration of the loop of `parse_parameters`, grammar.py:883-911: the key, name and value of a parameter.
`stop` is the end of the loop or the caught BadSyntax, which restores the position. -/
def paramStep (ignoreAllSp caseSensitive : Bool) (qmode : Option Bytes) (ws : List Word) :
    Step (Bytes × Bytes × Bytes) (List Word) :=
  match requireSep 59 (parseSp ws) with
  | .error _ => .stop
  | .ok ws1 => match requireToken (parseSp ws1) with
    | .error _ => .stop
    | .ok (name, ws2) =>
      let key := if caseSensitive then name else lowerText name
      if qmode.isSome && qmode ≠ some [] && qmode = some key then .stop
      else match requireSep 61 (optSp ignoreAllSp ws2) with
        | .error _ => .stop
        | .ok ws3 =>
          if isToken (optSp ignoreAllSp ws3) then
            match wpToken (optSp ignoreAllSp ws3) with
            | (some v, ws4) => .emit (key, name, v) ws4
            | (none, _) => .stop
          else if isQuoted (optSp ignoreAllSp ws3) then
            match wpQuoted (optSp ignoreAllSp ws3) with
            | (some v, ws4) => .emit (key, name, v) ws4
            | (none, _) => .stop
          else .stop

/-- `parse_parameters`, grammar.py:843-912. -/
def parseParameters (params : Params) (ignoreAllSp caseSensitive : Bool) (qmode : Option Bytes) (ws : List Word) :
    Params × List Word :=
  match run (paramStep ignoreAllSp caseSensitive qmode) List.length (parseSp ws) with
  | some (es, ws') => (es.foldl (fun d e => dictSet d e.1 e.2) params, ws')
  | none => (params, ws)

/-- `WordParser(source, ignore_sp)` as a constructor that can raise ParserError. -/
def openWords (ignoreSp : Bool) (s : Bytes) : Except Err (List Word) :=
  match words ignoreSp s with
  | some ws => .ok ws
  | none => .error .value

/-- The order in which Python sorts strings. -/
def bytesLe (a b : Bytes) : Bool := decide (a ≤ b)

/-- `format_parameters`, grammar.py:197-215. -/
def formatParameters (d : Params) : Except Err Bytes :=
  (d.mergeSort fun a b => bytesLe a.1 b.1).foldlM (init := []) fun acc e => do
    let n ← ascii e.2.1
    return acc ++ [59, 32] ++ n ++ [61] ++ quoteString e.2.2 false

end Verif.Http

import Verif.Http.ParamProps
/-!
# Model of `ContentRange`, `AcceptRanges`, `Allow` and `CacheControl`, `pyslet/http/messages.py:2498-2756`

Byte strings and texts of Latin-1 characters are lists of codes.
-/
namespace Verif.Http
open Text (isDigit decVal decStr)

/-! ### ContentRange -/

/-- `ContentRange`, messages.py:2684-2715. -/
structure ContentRange where
  first : Option Int
  last : Option Int
  total : Option Int
  deriving DecidableEq, Repr

/-- `ContentRange.__init__`, messages.py:2708-2715. -/
def ContentRange.make (first last total : Option Int) : Except Err ContentRange :=
  if first.isSome && last.isNone then .error .type else .ok ⟨first, last, total⟩

/-- `"%i" % n`. -/
def fmtInt (n : Int) : Bytes := if n < 0 then 45 :: decStr n.natAbs else decStr n.natAbs

/-- `ContentRange.__str__`, messages.py:2727-2738.  `"%i" % None` is a TypeError. -/
def ContentRange.str (c : ContentRange) : Except Err Bytes := do
  let r ← match c.first, c.last with
    | none, _ => .ok [42]
    | some a, some b => .ok (fmtInt a ++ 45 :: fmtInt b)
    | some _, none => .error .type
  return [98, 121, 116, 101, 115, 32] ++ r ++ [47] ++
    (match c.total with
      | none => [42]
      | some n => fmtInt n)

/-- `ContentRange.__len__`, messages.py:2740-2745 (`last_byte` None after an assignment to the field is a TypeError). -/
def ContentRange.len (c : ContentRange) : Except Err Int :=
  match c.first, c.last with
  | some a, some b => if b - a + 1 > 0 then .ok (b - a + 1) else .error .value
  | some _, none => .error .type
  | none, _ => .error .value

/-- `ContentRange.is_valid`, messages.py:2747-2756. -/
def ContentRange.isValid (c : ContentRange) : Except Err Bool :=
  match c.first, c.last with
  | none, _ => .ok false
  | some _, none => .error .type
  | some a, some b => .ok (decide (a ≤ b) && decide (a ≥ 0) &&
      (match c.total with
        | none => true
        | some n => decide (b < n)))

/-- The branch of `require_contentrange` that reads byte-range-resp-spec, messages.py:2891-2900. -/
def rangeSpec (spec : Bytes) : Except Err (Option Int × Option Int) :=
  if spec = [42] then .ok (none, none)
  else match splitByte 45 spec with
    | [a, b] => if isDigits a && isDigits b then .ok (some (decVal a), some (decVal b)) else .error .badSyntax
    | _ => .error .badSyntax

/-- The branch of `require_contentrange` that reads instance-length, messages.py:2905-2911. -/
def rangeTotal (t : Bytes) : Except Err (Option Int) :=
  if t = [42] then .ok none
  else if isDigits t then .ok (some (decVal t))
  else .error .badSyntax

/-- `require_contentrange`, messages.py:2881-2912. -/
def requireContentRange (ws : List Word) : Except Err (ContentRange × List Word) := do
  let (u, ws) ← requireToken (parseSp ws)
  let u ← ascii u
  if lowerText u ≠ [98, 121, 116, 101, 115] then throw .badSyntax
  let (spec, ws) ← requireToken (parseSp ws)
  let (a, b) ← rangeSpec spec
  let ws ← requireSep 47 (parseSp ws)
  let (t, ws) ← requireToken (parseSp ws)
  let t ← rangeTotal t
  return (← ContentRange.make a b t, ws)

/-- `ContentRange.from_str`, messages.py:2717-2725. -/
def ContentRange.fromStr (s : Bytes) : Except Err ContentRange := do
  let (c, ws) ← requireContentRange (parseSp (← openWords true s))
  requireEnd (parseSp ws)
  return c

/-! ### lists of tokens, Allow, AcceptRanges -/

/-- `parse_tokenlist`, grammar.py:714-732: the loop ends at the end of the words or at a word that is neither a token
nor a comma.  The first argument bounds the number of iterations, one per word. -/
def tokenList : Nat → List Word → Except Err (List Bytes × List Word)
  | 0, ws => .ok ([], ws)
  | _ + 1, [] => .ok ([], [])
  | n + 1, w :: ws =>
    match wpToken (w :: ws) with
    | (some t, r) => do
      let t ← ascii t
      let (ts, r) ← tokenList n r
      return (t :: ts, r)
    | (none, _) =>
      match parseSep 44 (w :: ws) with
      | (true, r) => tokenList n r
      | (false, _) => .ok ([], w :: ws)

/-- `b', '.join(l)`. -/
def commaJoin : List Bytes → Bytes
  | [] => []
  | [a] => a
  | a :: l => a ++ [44, 32] ++ commaJoin l

/-- `Allow`, messages.py:2550-2589: the methods, as kept by the constructor, which converts them to upper case. -/
structure Allow where
  methods : List Bytes
  deriving DecidableEq, Repr

/-- `Allow.__init__`, messages.py:2560-2562. -/
def Allow.make (args : List Bytes) : Allow := ⟨args.map upperBytes⟩

/-- `Allow.from_str`, messages.py:2564-2570. -/
def Allow.fromStr (s : Bytes) : Except Err Allow := do
  let ws ← openWords true s
  let (ts, ws) ← tokenList ws.length ws
  requireEnd ws
  return Allow.make ts

/-- `Allow.is_allowed`, messages.py:2572-2574. -/
def Allow.isAllowed (a : Allow) (m : Bytes) : Bool := (a.methods.mergeSort bytesLe).contains (upperBytes m)

/-- `Allow.to_bytes`, messages.py:2576-2577. -/
def Allow.toBytes (a : Allow) : Bytes := commaJoin a.methods

/-- `Allow.sortkey`, messages.py:2588-2589; `==` compares it. -/
def Allow.sortkey (a : Allow) : List Bytes := a.methods.mergeSort bytesLe

/-- `AcceptRanges`, messages.py:2498-2547. -/
structure AcceptRanges where
  ranges : List Bytes
  sorted : List Bytes
  deriving DecidableEq, Repr

/-- `AcceptRanges.__init__`, messages.py:2509-2518. -/
def AcceptRanges.make (args : List Bytes) : Except Err AcceptRanges :=
  let low := args.map lowerBytes
  if low.contains [110, 111, 110, 101] then
    if low.length = 1 then .ok ⟨[], []⟩ else .error .badSyntax
  else .ok ⟨args, low.mergeSort bytesLe⟩

/-- `AcceptRanges.from_str`, messages.py:2520-2529. -/
def AcceptRanges.fromStr (s : Bytes) : Except Err AcceptRanges := do
  let ws ← openWords true s
  let (ts, ws) ← tokenList ws.length ws
  if ts = [] then throw .badSyntax
  requireEnd ws
  AcceptRanges.make ts

/-- `AcceptRanges.to_bytes`, messages.py:2531-2535. -/
def AcceptRanges.toBytes (a : AcceptRanges) : Bytes :=
  if a.ranges = [] then [110, 111, 110, 101] else commaJoin a.ranges

/-! ### CacheControl -/

/-- The value of a directive given to `CacheControl`: None, a tuple of values, or another value.  A value is
represented by the text `str()` gives for it (a `bytes` value therefore by `b'...'`). -/
inductive CCVal where
  | none
  | tuple (vs : List Bytes)
  | one (v : Bytes)
  deriving DecidableEq, Repr

/-- `CacheControl`, messages.py:2592-2681: the directives in order and the dictionary of values. -/
structure CacheControl where
  directives : List Bytes
  values : List (Bytes × CCVal)
  deriving DecidableEq, Repr

/-- `d[k] = v` in the dictionary of values. -/
def ccSet (d : List (Bytes × CCVal)) (k : Bytes) (v : CCVal) : List (Bytes × CCVal) :=
  if d.any (·.1 == k) then d.map fun e => if e.1 == k then (k, v) else e else d ++ [(k, v)]

/-- `CacheControl.__init__`, messages.py:2615-2629 (a directive without value has the value None). -/
def CacheControl.make (args : List (Bytes × CCVal)) : Except Err CacheControl :=
  if args = [] then .error .type
  else .ok (args.foldl (fun c a => ⟨c.directives ++ [lowerBytes a.1], ccSet c.values (lowerBytes a.1) a.2⟩) ⟨[], []⟩)

/-- What `from_str` of a class can do: return, raise, or fail because of a missing attribute. -/
inductive CCOut where
  | raise (e : Err)
  | attributeError
  deriving DecidableEq, Repr

/-- `CacheControl.from_str`, messages.py:2631-2637: the method `ParseCacheControl` it calls exists nowhere in the
package, so that only the failure of `HeaderParser(source)` precedes the AttributeError. -/
def CacheControl.fromStr (s : Bytes) : CCOut :=
  match openWords true s with
  | .error e => .raise e
  | .ok _ => .attributeError

/-- `self._values[d]`. -/
def CacheControl.value (c : CacheControl) (d : Bytes) : Option CCVal := (c.values.find? (·.1 == d)).map (·.2)

/-- What `to_bytes` writes for one directive, messages.py:2641-2653. -/
def ccPiece (d : Bytes) : CCVal → Except Err Bytes
  | .none => .ok d
  | .tuple vs => do
    let vs ← vs.mapM ascii
    return d ++ 61 :: quoteString (commaJoin vs) true
  | .one v => do
    let v ← ascii v
    return d ++ 61 :: quoteString v false

/-- `CacheControl.to_bytes`, messages.py:2639-2654. -/
def CacheControl.toBytes (c : CacheControl) : Except Err Bytes := do
  let l ← c.directives.mapM fun d => match c.value d with
    | some v => ccPiece d v
    | none => .error .value
  return commaJoin l

/-- `cc[name]`, messages.py:2659-2663: KeyError is `none`. -/
def CacheControl.getName (c : CacheControl) (n : Bytes) : Option CCVal := c.value (lowerBytes n)

/-- `name in cc`, messages.py:2680-2681. -/
def CacheControl.has (c : CacheControl) (n : Bytes) : Bool := c.values.any (·.1 == lowerBytes n)

end Verif.Http

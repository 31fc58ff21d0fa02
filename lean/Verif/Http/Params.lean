import Verif.Http.Words
import Verif.Iso.Time
/-!
# Model of `pyslet/http/params.py`
-/
namespace Verif.Http
open Text (isDigit decVal decStr decPad)

/-- Python's `b.split(c)` on byte strings. -/
def splitByte (c : Nat) : Bytes → List Bytes
  | [] => [[]]
  | b :: r => if b = c then [] :: splitByte c r else
    match splitByte c r with
    | [] => [[b]]
    | h :: t => (b :: h) :: t

/-! ### HTTPVersion -/

/-- `HTTPVersion`, params.py:169-214, for non-negative numbers. -/
structure HTTPVersion where
  major : Nat
  minor : Nat
  deriving DecidableEq, Repr

/-- `HTTPVersion.to_bytes`, params.py:210-211. -/
def HTTPVersion.toBytes (v : HTTPVersion) : Bytes := [72, 84, 84, 80, 47] ++ decStr v.major ++ [46] ++ decStr v.minor

/-- `require_http_version`, params.py:793-809. -/
def requireHttpVersion (ws : List Word) : Except Err (HTTPVersion × List Word) := do
  let (t, ws) ← requireToken (parseSp ws)
  if upperBytes t ≠ [72, 84, 84, 80] then throw .badSyntax
  let ws ← requireSep 47 (parseSp ws)
  let (t, ws) ← requireToken (parseSp ws)
  match splitByte 46 t with
  | [a, b] => if isDigits a && isDigits b then return (⟨decVal a, decVal b⟩, ws) else throw .badSyntax
  | _ => throw .badSyntax

/-- `HTTPVersion.from_str`, params.py:202-208. -/
def HTTPVersion.fromStr (s : Bytes) : Except Err HTTPVersion := do
  let (v, ws) ← requireHttpVersion (← openWords true s)
  requireEnd ws
  return v

/-! ### TransferEncoding, Chunk, MediaType -/

/-- The order of pairs of strings in Python. -/
def pairLe (a b : Bytes × Bytes) : Bool := decide (a.1 < b.1) || (a.1 == b.1 && bytesLe a.2 b.2)
/-- `sorted((p[0], p[1][1]) for p in parameters.items())`, the part of the sort keys about parameters,
params.py:384, 442, 498. -/
def paramKey (d : Params) : List (Bytes × Bytes) := (d.map fun e => (e.1, e.2.2)).mergeSort pairLe

/-- `TransferEncoding`, params.py:356-417. -/
structure TransferEncoding where
  token : Bytes
  params : Params
  deriving DecidableEq, Repr

def chunkedToken : Bytes := [99, 104, 117, 110, 107, 101, 100]

/-- `TransferEncoding.__init__`, params.py:371-385. -/
def mkTransferEncoding (token : Bytes) (params : Params) : TransferEncoding :=
  let token := lowerText token
  if token = chunkedToken then ⟨chunkedToken, []⟩ else ⟨token, params⟩

/-- `TransferEncoding.to_bytes`, params.py:413-414. -/
def TransferEncoding.toBytes (t : TransferEncoding) : Except Err Bytes := do
  return (← ascii t.token) ++ (← formatParameters t.params)

/-- `TransferEncoding.sortkey`, params.py:416-417; `==` compares the sort keys, py2.py. -/
def TransferEncoding.sortkey (t : TransferEncoding) : Bytes × List (Bytes × Bytes) := (t.token, paramKey t.params)

/-- `require_transfer_encoding`, params.py:922-932. -/
def requireTransferEncoding (ws : List Word) : Except Err (TransferEncoding × List Word) := do
  let (t, ws) ← requireToken (parseSp ws)
  let token := lowerBytes t
  if token ≠ chunkedToken then
    let (d, ws) := parseParameters [] true false none ws
    return (mkTransferEncoding token d, ws)
  else return (mkTransferEncoding chunkedToken [], ws)

/-- `TransferEncoding.from_str`, params.py:387-395. -/
def TransferEncoding.fromStr (s : Bytes) : Except Err TransferEncoding := do
  let (t, ws) ← requireTransferEncoding (← openWords true s)
  requireEnd ws
  return t

/-- The loop of `TransferEncoding.list_from_str`, params.py:405-410. -/
def telistLoop : Nat → List Word → Except Err (List TransferEncoding)
  | 0, _ => .ok []
  | n + 1, ws =>
    if ws = [] then .ok []
    else if (parseSep 44 ws).1 then telistLoop n (parseSep 44 ws).2
    else do
      let (t, ws) ← requireTransferEncoding ws
      return t :: (← telistLoop n ws)

/-- `TransferEncoding.list_from_str`, params.py:397-411. -/
def TransferEncoding.listFromStr (s : Bytes) : Except Err (List TransferEncoding) := do
  let ws ← openWords true s
  telistLoop (ws.length + 1) (parseSp ws)

/-- `Chunk`, params.py:420-461, for non-negative sizes. -/
structure Chunk where
  size : Nat
  extensions : Params
  deriving DecidableEq, Repr

/-- A hexadecimal digit in upper case. -/
def hexUpper (n : Nat) : Nat := if n < 10 then n + 48 else n + 55
/-- `"%X" % n`. -/
def hexStr (n : Nat) : Bytes :=
  if n < 16 then [hexUpper n] else hexStr (n / 16) ++ [hexUpper (n % 16)]

/-- `Chunk.to_bytes`, params.py:457-458. -/
def Chunk.toBytes (c : Chunk) : Except Err Bytes := do return hexStr c.size ++ (← formatParameters c.extensions)

/-- `Chunk.sortkey`, params.py:460-461. -/
def Chunk.sortkey (c : Chunk) : Nat × List (Bytes × Bytes) := (c.size, paramKey c.extensions)

/-- `require_chunk`, params.py:934-942. -/
def requireChunk (ws : List Word) : Except Err (Chunk × List Word) := do
  let (n, ws) ← requireHexInteger (parseSp ws)
  let (d, ws) := parseParameters [] true false none ws
  return (⟨n, d⟩, ws)

/-- `Chunk.from_str`, params.py:444-455. -/
def Chunk.fromStr (s : Bytes) : Except Err Chunk := do
  let (c, ws) ← requireChunk (← openWords true s)
  requireEnd ws
  return c

/-- `MediaType`, params.py:464-531. -/
structure MediaType where
  type : Bytes
  subtype : Bytes
  params : Params
  deriving DecidableEq, Repr

/-- `MediaType.to_bytes`, params.py:514-516. -/
def MediaType.toBytes (m : MediaType) : Except Err Bytes := do
  return (← ascii (m.type ++ [47] ++ m.subtype)) ++ (← formatParameters m.params)

/-- `MediaType.sortkey`, params.py:530-531. -/
def MediaType.sortkey (m : MediaType) : Bytes × Bytes × List (Bytes × Bytes) :=
  (lowerText m.type, lowerText m.subtype, paramKey m.params)

/-- `require_media_type`, params.py:944-953. -/
def requireMediaType (ws : List Word) : Except Err (MediaType × List Word) := do
  let (t, ws) ← requireToken (parseSp ws)
  let t ← ascii (lowerBytes t)
  let ws ← requireSep 47 ws
  let (st, ws) ← requireToken ws
  let st ← ascii (lowerBytes st)
  let (d, ws) := parseParameters [] false false none (parseSp ws)
  return (⟨t, st, d⟩, ws)

/-- `MediaType.from_str`, params.py:500-512. -/
def MediaType.fromStr (s : Bytes) : Except Err MediaType := do
  let (m, ws) ← requireMediaType (← openWords false s)
  requireEnd (parseSp ws)
  return m

/-! ### ProductToken, LanguageTag, EntityTag -/

/-- `ProductToken` (the exploded version is not modelled), params.py:541-653. -/
structure ProductToken where
  token : Bytes
  version : Option Bytes
  deriving DecidableEq, Repr

/-- `ProductToken.to_bytes`, params.py:643-647. -/
def ProductToken.toBytes (p : ProductToken) : Except Err Bytes :=
  match p.version with
  | none => ascii p.token
  | some v => ascii (p.token ++ [47] ++ v)

/-- `require_product_token`, params.py:955-966. -/
def requireProductToken (ws : List Word) : Except Err (ProductToken × List Word) := do
  let (t, ws) ← requireToken (parseSp ws)
  let t ← ascii t
  let ws := parseSp ws
  if (parseSep 47 ws).1 then
    let (v, ws) ← requireToken (parseSep 47 ws).2
    return (⟨t, some (← ascii v)⟩, ws)
  else return (⟨t, none⟩, ws)

/-- `ProductToken.from_str`, params.py:619-627. -/
def ProductToken.fromStr (s : Bytes) : Except Err ProductToken := do
  let (p, ws) ← requireProductToken (parseSp (← openWords true s))
  requireEnd (parseSp ws)
  return p

/-- The loop of `ProductToken.list_from_str`, params.py:637-639. -/
def ptlistLoop : Nat → List Word → Except Err (List ProductToken)
  | 0, _ => .ok []
  | n + 1, ws =>
    if ws = [] then .ok []
    else do
      let (p, ws) ← requireProductToken ws
      return p :: (← ptlistLoop n (parseSp ws))

/-- `ProductToken.list_from_str`, params.py:629-641. -/
def ProductToken.listFromStr (s : Bytes) : Except Err (List ProductToken) := do
  let ws ← openWords true s
  ptlistLoop (ws.length + 1) (parseSp ws)

/-- `LanguageTag`, params.py:656-735: the primary tag and the subtags. -/
structure LanguageTag where
  primary : Bytes
  subtags : List Bytes
  deriving DecidableEq, Repr

/-- Python's `sep.join(parts)` for a one-byte separator. -/
def joinByte (c : Nat) : List Bytes → Bytes
  | [] => []
  | [p] => p
  | p :: ps => p ++ c :: joinByte c ps

/-- `LanguageTag.to_bytes`, params.py:726-727. -/
def LanguageTag.toBytes (l : LanguageTag) : Except Err Bytes := ascii (joinByte 45 (l.primary :: l.subtags))

/-- `LanguageTag.sortkey`, the attribute `_tag`, params.py:667-670, 734-735. -/
def LanguageTag.sortkey (l : LanguageTag) : List Bytes := (l.primary :: l.subtags).map lowerText

/-- `LanguageTag.partial_match`, params.py:672-693. -/
def LanguageTag.partialMatch (l : LanguageTag) (range : List Bytes) : Bool :=
  if range.length > l.sortkey.length then false
  else (List.range range.length).all fun i => l.sortkey[i]? == range[i]?

/-- `require_language_tag`, params.py:992-1000. -/
def requireLanguageTag (ws : List Word) : Except Err (LanguageTag × List Word) := do
  let (t, ws) ← requireToken (parseSp ws)
  match splitByte 45 t with
  | p :: ps => return (⟨← ascii p, ← ps.mapM ascii⟩, parseSp ws)
  | [] => throw .value

/-- `LanguageTag.from_str`, params.py:695-707. -/
def LanguageTag.fromStr (s : Bytes) : Except Err LanguageTag := do
  let (l, ws) ← requireLanguageTag (parseSp (← openWords false s))
  requireEnd (parseSp ws)
  return l

/-- `EntityTag`, params.py:738-777. -/
structure EntityTag where
  tag : Bytes
  weak : Bool
  deriving DecidableEq, Repr

/-- `EntityTag.to_bytes`, params.py:766-770. -/
def EntityTag.toBytes (e : EntityTag) : Bytes :=
  if e.weak then [87, 47] ++ quoteString e.tag true else quoteString e.tag true

/-- The optional `W/` in front of an entity tag, params.py:1007-1016: whether the tag is weak. -/
def entityWeak (w : Option Bytes) (ws : List Word) : Except Err (Bool × List Word) :=
  match w with
  | some w =>
    if upperBytes w ≠ [87] then .error .badSyntax
    else match requireSep 47 ws with
      | .ok ws => .ok (true, parseSp ws)
      | .error e => .error e
  | none => .ok (false, ws)

/-- `require_entity_tag`, params.py:1002-1019. -/
def requireEntityTag (ws : List Word) : Except Err (EntityTag × List Word) := do
  let p := wpToken (parseSp ws)
  let (weak, ws) ← entityWeak p.1 (parseSp p.2)
  match wpQuoted ws with
  | (some tag, ws) => return (⟨tag, weak⟩, parseSp ws)
  | (none, _) => throw .badSyntax

/-- `EntityTag.from_str`, params.py:758-764. -/
def EntityTag.fromStr (s : Bytes) : Except Err EntityTag := do
  let (e, ws) ← requireEntityTag (← openWords true s)
  requireEnd ws
  return e

end Verif.Http

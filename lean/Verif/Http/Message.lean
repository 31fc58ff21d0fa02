import Verif.Http.Params
/-!
# Model of message transfer, `pyslet/http/messages.py:396-1154, 1598-1620, 1823-1925`

A `Message` that is received: header lines, the choice of the framing, and the state machine of `recv`.  The message writes
the body to a stream that is an `io.IOBase`; the future results of its `write` and `flush` calls are part of the state: the
stream may block or accept a part of the data, any finite number of times.  Not modelled: logging, locks, `keep_alive`,
`body_started`, gzip transfer codings (`Fail.gzip`) and streams that are not an `io.IOBase`.
-/
namespace Verif.Http
open Text (isDigit decVal)

/-- Exceptions: `protocol` is ProtocolError, `value` a ValueError, `type` a TypeError, `attr` an AttributeError or
IndexError, `notImpl` NotImplementedError; `gzip` marks what is not modelled; `fuel` is a model loop that has run out. -/
inductive Fail where
  | protocol | value | type | attr | notImpl | gzip | fuel
  deriving DecidableEq, Repr

instance {α : Type} [DecidableEq α] : DecidableEq (Except Fail α)
  | .ok a, .ok b => if h : a = b then .isTrue (h ▸ rfl) else .isFalse fun e => h (by cases e; rfl)
  | .error a, .error b => if h : a = b then .isTrue (h ▸ rfl) else .isFalse fun e => h (by cases e; rfl)
  | .ok _, .error _ => .isFalse fun e => by cases e
  | .error _, .ok _ => .isFalse fun e => by cases e

/-- How the exceptions of the parsers appear. -/
def Fail.ofErr : Err → Fail
  | .type => .type
  | _ => .value

/-- A parser called by a message. -/
def lift {α : Type} : Except Err α → Except Fail α
  | .ok a => .ok a
  | .error e => .error (.ofErr e)

/-- `grammar.CRLF`. -/
def CRLF : Bytes := [13, 10]

/-! ### Header fields -/

/-- A white space byte, for `bytes.strip`. -/
def isStrip (b : Nat) : Bool := b == 32 || (9 ≤ b && b ≤ 13)
/-- `bytes.strip()`. -/
def strip (s : Bytes) : Bytes := ((s.dropWhile isStrip).reverse.dropWhile isStrip).reverse

/-- `self.headers`: from the lower case name to the name as written and the values, in insertion order. -/
abbrev Headers := List (Bytes × Bytes × List Bytes)

/-- `self.headers[k] = v`. -/
def Headers.put (h : Headers) (k : Bytes) (v : Bytes × List Bytes) : Headers :=
  if h.any (·.1 == k) then h.map fun e => if e.1 == k then (k, v) else e else h ++ [(k, v)]

/-- `self.headers.get(k)`. -/
def Headers.find (h : Headers) (k : Bytes) : Option (Bytes × List Bytes) := h.lookup k

/-- `b", ".join(values)`. -/
def joinComma : List Bytes → Bytes
  | [] => []
  | [v] => v
  | v :: vs => v ++ [44, 32] ++ joinComma vs

/-- `set_header` with a value that is not None, messages.py:1126-1154. -/
def setHeader (h : Headers) (name value : Bytes) (append : Bool) : Headers :=
  match h.find (lowerBytes name) with
  | some (n, vs) => if append then h.put (lowerBytes name) (n, vs ++ [strip value])
      else h.put (lowerBytes name) (name, [strip value])
  | none => h.put (lowerBytes name) (name, [strip value])

/-- `set_header(name, None)`, messages.py:1144-1146. -/
def delHeader (h : Headers) (name : Bytes) : Headers := h.filter (·.1 != lowerBytes name)

/-- `get_header`, messages.py:1101-1124. -/
def getHeader (h : Headers) (name : Bytes) : Option Bytes := (h.find (lowerBytes name)).map fun e => joinComma e.2

/-- `h.split(b':', 1)`: `none` if there is no colon. -/
def splitColon : Bytes → Option (Bytes × Bytes)
  | [] => none
  | b :: r => if b = 58 then some ([], r) else (splitColon r).map fun p => (b :: p.1, p.2)

/-- `self.headers` and `self._curr_header`. -/
abbrev HeadState := Headers × Option (Bytes × Bytes)

instance : DecidableEq Headers := inferInstanceAs (DecidableEq (List (List Nat × List Nat × List (List Nat))))
instance : DecidableEq HeadState := inferInstanceAs (DecidableEq (Headers × Option (List Nat × List Nat)))

/-- The header in `_curr_header` is complete: messages.py:907-911, 919-921. -/
def flushHeader (s : HeadState) : Headers :=
  match s.2 with
  | some (n, v) => setHeader s.1 n (v.take (v.length - 2)) true
  | none => s.1

/-- `_recv_header`, messages.py:904-929. -/
def recvHeader (s : HeadState) (h : Bytes) : Except Fail HeadState :=
  if h = CRLF then .ok (flushHeader s, none)
  else match parseLws h, s.2 with
    | some _, some (n, v) => .ok (s.1, some (n, v ++ h))
    | _, _ => match splitColon h with
      | some p => .ok (flushHeader s, some p)
      | none => .error .protocol

/-- `for line in data: self._recv_header(line)`, messages.py:795-796, 879-880. -/
def recvHeaders (s : HeadState) : List Bytes → Except Fail HeadState
  | [] => .ok s
  | l :: ls => do recvHeaders (← recvHeader s l) ls

/-! ### Framing -/

def sTransferEncoding : Bytes := [84, 114, 97, 110, 115, 102, 101, 114, 45, 69, 110, 99, 111, 100, 105, 110, 103]
def sContentLength : Bytes := [67, 111, 110, 116, 101, 110, 116, 45, 76, 101, 110, 103, 116, 104]
def sContentType : Bytes := [67, 111, 110, 116, 101, 110, 116, 45, 84, 121, 112, 101]
def sIdentity : Bytes := [105, 100, 101, 110, 116, 105, 116, 121]
def sGzip : Bytes := [103, 122, 105, 112]
def sMultipart : Bytes := [109, 117, 108, 116, 105, 112, 97, 114, 116]
def sByteranges : Bytes := [98, 121, 116, 101, 114, 97, 110, 103, 101, 115]
def sBoundary : Bytes := [98, 111, 117, 110, 100, 97, 114, 121]

/-- `_check_transfer_encoding`, messages.py:1462-1473. -/
def checkTE : List TransferEncoding → Bool → Except Fail Unit
  | [], _ => .ok ()
  | te :: r, chunked =>
    if chunked then .error .protocol
    else checkTE r (te.token = chunkedToken)

/-- `get_transfer_encoding`, messages.py:1475-1486. -/
def getTransferEncoding (h : Headers) : Except Fail (Option (List TransferEncoding)) :=
  match getHeader h sTransferEncoding with
  | none => .ok none
  | some v => do
    let l ← lift (TransferEncoding.listFromStr v)
    checkTE l false
    return some l

/-- `int(b)` for a byte string: white space around, a sign, digits with single underscores between them. -/
def intOf (s : Bytes) : Option Int :=
  let t := strip s
  let digits := fun d : Bytes => (splitByte 95 d).all isDigits
  let val := fun d : Bytes => (decVal (d.filter (· != 95)) : Int)
  match t with
  | 43 :: d => if digits d then some (val d) else none
  | 45 :: d => if digits d then some (-(val d)) else none
  | d => if digits d then some (val d) else none

/-- `get_content_length`, messages.py:1296-1305. -/
def getContentLength (h : Headers) : Except Fail (Option Int) :=
  match getHeader h sContentLength with
  | none => .ok none
  | some v => match intOf v with
    | some n => .ok (some n)
    | none => .error .value

/-- `get_content_type`, messages.py:1376-1386. -/
def getContentType (h : Headers) : Except Fail (Option MediaType) :=
  match getHeader h sContentType with
  | none => .ok none
  | some v => do return some (← lift (MediaType.fromStr v))

/-- `content_type['boundary']`, messages.py:988, 1069. -/
def MediaType.boundary (m : MediaType) : Option Bytes := (m.params.find? (·.1 == sBoundary)).map (·.2.2)

/-- How the body of a message is delimited: `transferchunked`, `transferlength`, `tboundary`. -/
structure Frame where
  chunked : Bool
  len : Option Int
  bound : Option Bytes
  deriving DecidableEq, Repr

/-- `for enc in encoding` on the codings before the last one, messages.py:1035-1043. -/
def outerCodings : List TransferEncoding → Except Fail Unit
  | [] => .ok ()
  | enc :: r =>
    if enc.token = sGzip then .error .gzip
    else if enc.token = sIdentity then outerCodings r
    else .error .notImpl

/-- `Message.recv_transferlength`, messages.py:997-1078. -/
def recvFrame (h : Headers) : Except Fail Frame := do
  match ← getTransferEncoding h with
  | some [] => .error .attr
  | some (te :: tes) =>
    if (te :: tes).length = 1 ∧ te.token = sIdentity then byLength h
    else do
      outerCodings ((te :: tes).dropLast.reverse)
      return ⟨((te :: tes).getLast?.map (·.token)) = some chunkedToken, none, none⟩
  | none => byLength h
where
  /-- messages.py:1047-1078. -/
  byLength (h : Headers) : Except Fail Frame := do
    match ← getContentLength h with
    | some n => return ⟨false, some n, none⟩
    | none => match ← getContentType h with
      | some m =>
        if lowerText m.type = sMultipart ∧ lowerText m.subtype = sByteranges then
          match m.boundary with
          | some b => return ⟨false, none, some (CRLF ++ [45, 45] ++ strip b ++ [45, 45])⟩
          | none => .error .protocol
        else return ⟨false, none, none⟩
      | none => return ⟨false, none, none⟩

/-- `Message.handle_headers`, messages.py:976-995, but for `keep_alive`. -/
def handleHeaders (h : Headers) (version : Option HTTPVersion) : Except Fail Unit := do
  match ← getContentType h with
  | some m => if m.type = sMultipart ∧ m.boundary = none then .error .protocol
  | none => pure ()
  match version with
  | some _ => .ok ()
  | none => .error .type

/-! ### The start line of a response -/

/-- `parse_remainder`, grammar.py:914-928. -/
def remainder (ws : List Word) : Bytes := (ws.map fun | .sep b => [b] | .text t => t).flatten

/-- `parse_production(require_http_version)`: a ValueError restores the position, unicode5.py:890-914. -/
def productionVersion (ws : List Word) : Except Fail (Option HTTPVersion × List Word) :=
  match requireHttpVersion ws with
  | .ok (v, ws') => .ok (some v, ws')
  | .error .type => .error .type
  | .error _ => .ok (none, ws)

/-- What `Response.recv_start` finds: protocol, status and reason, messages.py:1902-1912. -/
structure Start where
  version : Option HTTPVersion
  status : Nat
  reason : Bytes
  deriving DecidableEq, Repr

/-- `Response.recv_start`, messages.py:1902-1912. -/
def recvStart (line : Bytes) : Except Fail Start := do
  let ws ← lift (openWords false (line.take (line.length - 2)))
  let (v, ws) ← productionVersion ws
  let (n, ws) ← lift (wpInteger (parseSp ws))
  return ⟨v, n.getD 0, remainder (parseSp ws)⟩

/-- `Response.recv_transferlength`, messages.py:1914-1921. -/
def responseFrame (head : Bool) (status : Nat) (h : Headers) : Except Fail Frame :=
  if status / 100 = 1 ∨ status = 204 ∨ status = 304 ∨ head = true then .ok ⟨false, some 0, none⟩
  else recvFrame h

/-! ### The state machine -/

/-- `transfermode`, messages.py:682-688; `done` is None. -/
inductive Mode where
  | start | header | chunkHead | data | blocked | chunkEnd | trailer | done
  deriving DecidableEq, Repr

/-- A response that is being received. -/
structure Msg where
  /-- the request is a HEAD request -/
  head : Bool
  mode : Mode
  start : Option Start
  headers : Headers
  curr : Option (Bytes × Bytes)
  chunked : Bool
  len : Option Int
  pos : Nat
  bound : Option Bytes
  bmatch : List Nat
  /-- `recv_buffer`: nothing is `[]` -/
  buf : Bytes
  /-- what the stream has accepted -/
  body : Bytes
  /-- future results of `write`: None, or at most `n + 1` bytes; then everything -/
  writes : List (Option Nat)
  /-- future results of `flush`: blocked or not; then never blocked -/
  flushes : List Bool
  deriving DecidableEq, Repr

/-- `Message.start_receiving` and `Response.start_receiving`, messages.py:690-719, 1897-1900, of a message whose body has not
been started. -/
def Msg.startReceiving (m : Msg) : Msg :=
  { m with mode := .start, start := none, headers := [], curr := none, chunked := false, len := none, pos := 0, bound := none, bmatch := [] }

/-- `recv_mode`, messages.py:731-781: None, -3 (RECV_HEADERS), -2 (RECV_LINE), -1 (RECV_ALL), or a number of bytes. -/
def Msg.recvMode (m : Msg) : Option Int :=
  if m.mode = .data then
    match m.len with
    | some n => if n ≠ 0 then some (n - m.pos) else some (-1)
    | none => some (-1)
  else if m.mode = .blocked then some 0
  else if m.mode = .header ∨ m.mode = .trailer then some (-3)
  else if m.mode ≠ .done then some (-2)
  else none

/-- The loop over `write` of `_recv_buffered`, messages.py:935-944: what is left in the buffer, the body, the results of
`write` that are left. -/
def writeLoop : List (Option Nat) → Bytes → Bytes → Bytes × Bytes × List (Option Nat)
  | ws, [], body => ([], body, ws)
  | [], buf, body => ([], body ++ buf, [])
  | none :: ws, buf, body => (buf, body, ws)
  | some k :: ws, buf, body => writeLoop ws (buf.drop (k + 1)) (body ++ buf.take (k + 1))

/-- `flush`, messages.py:882-888, 965-971: the next mode if nothing blocks. -/
def Msg.flush (m : Msg) : Msg :=
  match m.flushes with
  | [] => { m with mode := .done }
  | blocked :: fs => if blocked then { m with mode := .blocked, flushes := fs } else { m with mode := .done, flushes := fs }

/-- `_recv_buffered`, messages.py:931-974. -/
def Msg.recvBuffered (m : Msg) : Msg :=
  let p := writeLoop m.writes m.buf m.body
  let m := { m with buf := p.1, body := p.2.1, writes := p.2.2 }
  if m.buf ≠ [] then { m with mode := .blocked }
  else if m.chunked then
    if (m.pos : Int) ≥ m.len.getD 0 then { m with mode := .chunkEnd } else { m with mode := .data }
  else match m.len with
    | none => { m with mode := .data }
    | some n => if (m.pos : Int) ≥ n then m.flush else { m with mode := .data }

/-- The inner loop over `tboundary_match`, messages.py:831-843: the new matches, and whether one is complete. -/
def boundStep (b : Bytes) (c : Nat) : List Nat → List Nat × Bool
  | [] => ([], false)
  | p :: ps =>
    if b[p]? = some c then
      if p + 1 ≥ b.length then (p :: ps, true)
      else ((p + 1) :: (boundStep b c ps).1, (boundStep b c ps).2)
    else boundStep b c ps

/-- The loop over the data, messages.py:826-848: the new matches, and the value of `i` at a match. -/
def boundLoop (b : Bytes) : Bytes → List Nat → Nat → List Nat × Option Nat
  | [], ms, _ => (ms, none)
  | c :: d, ms, i =>
    if (boundStep b c ms).2 then ([], some (i + 1))
    else boundLoop b d (if b.head? = some c then (boundStep b c ms).1 ++ [1] else (boundStep b c ms).1) (i + 1)

/-- The search for the boundary, messages.py:825-853. -/
def Msg.seekBound (m : Msg) (data : Bytes) : Msg :=
  match m.bound with
  | none => m
  | some b => match boundLoop b data m.bmatch 0 with
    | (ms, none) => { m with bmatch := ms }
    | (_, some i) => { m with bmatch := [], bound := none, len := some ((m.pos : Int) + i) }

/-- `recv` in DATA_MODE with data, messages.py:824-868. -/
def Msg.recvData (m : Msg) (data : Bytes) : Msg :=
  let m := m.seekBound data
  let m := { m with pos := m.pos + data.length }
  let m := match m.len with
    | none => { m with buf := data }
    | some n =>
      if n ≠ 0 then
        if (m.pos : Int) - n > 0 then { m with buf := data.take (data.length - ((m.pos : Int) - n).toNat) } else { m with buf := data }
      else m
  m.recvBuffered

/-- The argument of `recv`. -/
inductive Arg where
  | none
  | bytes (b : Bytes)
  | lines (l : List Bytes)
  deriving DecidableEq, Repr

/-- The new mode after the header, messages.py:798-810. -/
def Msg.setFrame (m : Msg) (f : Frame) : Msg :=
  let m := { m with chunked := f.chunked, len := f.len, bound := f.bound, bmatch := [] }
  if f.chunked then { m with mode := .chunkHead }
  else match f.len with
    | none => { m with pos := 0, mode := .data }
    | some n => if n ≠ 0 then { m with pos := 0, mode := .data } else { m with len := some 0, pos := 0, mode := .done }

/-- `recv` but for the completion, messages.py:783-891. -/
def Msg.recvCore (m : Msg) (d : Arg) : Except Fail Msg :=
  match m.mode, d with
  | .start, .bytes b =>
    if b = CRLF then .ok m
    else do return { m with start := some (← recvStart b), mode := .header }
  | .header, .lines ls => do
    let s ← recvHeaders (m.headers, m.curr) ls
    let m := { m with headers := s.1, curr := s.2 }
    let st ← (match m.start with | some st => Except.ok st | none => .error .type)
    let f ← responseFrame m.head st.status m.headers
    let m := m.setFrame f
    handleHeaders m.headers st.version
    return m
  | .chunkHead, .bytes b => do
    let c ← lift (Chunk.fromStr (b.take (b.length - 2)))
    if c.size = 0 then return { m with len := some 0, pos := 0, mode := .trailer }
    else return { m with len := some (c.size : Int), pos := 0, mode := .data }
  | .data, .bytes b => if b ≠ [] then .ok (m.recvData b) else .ok m
  | .blocked, _ => .ok m.recvBuffered
  | .chunkEnd, .bytes b => if b ≠ CRLF then .error .protocol else .ok { m with mode := .chunkHead }
  | .trailer, .lines ls => do
    let s ← recvHeaders (m.headers, m.curr) ls
    return { m with headers := s.1, curr := s.2 }.flush
  | _, _ => .error .type

/-- `ClientResponse.handle_message`, `finished`, client.py:2015-2036: after an interim response the next one is received. -/
def Msg.handleMessage (m : Msg) : Msg :=
  match m.start with
  | some st => if 100 ≤ st.status ∧ st.status ≤ 199 ∧ st.status ≠ 101 then m.startReceiving else m
  | none => m

/-- `recv`, messages.py:783-896. -/
def Msg.recv (m : Msg) (d : Arg) : Except Fail Msg := do
  let m ← m.recvCore d
  if m.mode = .done then return m.handleMessage else return m

end Verif.Http

import Mathlib.Data.List.Nodup
import Mathlib.Tactic.ByContra
/-!
# Model of one connection of an HTTP client, `pyslet/http/client.py:128-1000, 1780-2036`

Requests are numbers.  The model follows the requests through the queue of the connection, the pipeline of responses and the retries
after the connection has been lost; the contents of responses are only their status.  Protocol upgrades are left out.
-/
namespace Verif.Cli

abbrev Bytes := List Nat

/-- What is fixed about requests. -/
structure Reqs where
  /-- is_idempotent, messages.py:1628-1630 -/
  idem : Nat → Bool
  /-- send_start() + send_header() -/
  head : Nat → Bytes
  /-- what send_body() gives, call after call, messages.py:627-680 -/
  body : Nat → List Bytes
  /-- get_expect_continue() -/
  expect : Nat → Bool
  /-- the body has a Content-Length: send_body() ends with a str '' rather than with bytes -/
  sized : Nat → Bool
  /-- max_retries as given by the application -/
  max : Nat → Nat

/-- request_mode: REQ_READY, REQ_BODY_SENDING, REQ_BODY_WAITING, CLOSE_WAIT, client.py:116-122. -/
inductive Mode where
  | ready | sending | waiting | closeWait
  deriving DecidableEq, Repr

/-- The state of a connection and of the requests it has seen.  The last fields record what happened. -/
structure Line where
  /-- request_queue -/
  queue : List Nat
  /-- request -/
  cur : Option Nat
  mode : Mode
  /-- what send_body() of the current request will give -/
  rest : List Bytes
  /-- send_buffer -/
  buffer : Bytes
  /-- buffered_bytes, sent_bytes -/
  buffered : Nat
  sent : Nat
  /-- response and response_queue: the requests they belong to -/
  resp : List Nat
  /-- response.status of the response object of a request: None until the status line has been received, and again from
  start_receiving, messages.py:1897-1900 -/
  seen : Nat → Option Nat
  /-- request.status, 0 for no response; nretries, max_retries, _send_pos -/
  status : Nat → Nat
  retries : Nat → Nat
  maxr : Nat → Nat
  pos : Nat → Nat
  /-- the bytes sent, the requests started and the responses received in full, with their status, since the last `close` -/
  wire : Bytes
  started : List Nat
  answered : List (Nat × Nat)
  /-- the calls of `finished()`, with the status -/
  finished : List (Nat × Nat)
  /-- for each request the number of its bytes that have ever been sent, and how often `close` queued it again -/
  bytesOf : Nat → Nat
  requeued : Nat → Nat
  /-- how often the request was given to `queue_request`, and how often it was started -/
  asked : Nat → Nat
  tries : Nat → Nat

def upd {α : Type} (f : Nat → α) (i : Nat) (a : α) : Nat → α := fun j => if j = i then a else f j

/-- A new connection; no request has been tried. -/
def Line.init (S : Reqs) : Line :=
  ⟨[], none, .ready, [], [], 0, 0, [], fun _ => none, fun _ => 0, fun _ => 0, S.max, fun _ => 0, [], [], [], [], fun _ => 0, fun _ => 0, fun _ => 0, fun _ => 0⟩

/-- `ClientRequest.disconnect`, client.py:1838-1850, without the retry times. -/
def disconnect (S : Reqs) (s : Line) (r : Nat) : Line :=
  { s with
    retries := upd s.retries r (s.retries r + 1)
    maxr := if S.idem r || decide (s.sent ≤ s.pos r) then s.maxr else upd s.maxr r 0
    finished := if s.status r > 0 then s.finished ++ [(r, s.status r)] else s.finished }

/-- `can_retry`, client.py:1780-1786. -/
def canRetry (s : Line) (r : Nat) : Bool := decide (s.retries r ≤ s.maxr r)

/-- `handle_disconnect` and `response_finished` for a request that has been disconnected, client.py:2020-2030, 1866-1937.  The status is
that of the response, if its first line has been received. -/
def handleDisconnect (s : Line) (r : Nat) : Line :=
  let k := (s.seen r).getD 0
  { s with status := upd s.status r k, finished := s.finished ++ [(r, k)] }

/-- The loop of `close` over the responses, client.py:632-652. -/
def closeLoop (err : Bool) : List Nat → Bool → Line → Line
  | [], _, s => s
  | r :: rs, resend, s =>
    if err || ((s.seen r).isNone && resend) then
      if canRetry s r then closeLoop err rs resend { s with queue := s.queue ++ [r], requeued := upd s.requeued r (s.requeued r + 1) }
      else closeLoop err rs false (handleDisconnect s r)
    else closeLoop err rs resend (handleDisconnect s r)

/-- Letting go of the current request, client.py:628-631. -/
def dropCur (S : Reqs) (s : Line) : Line :=
  match s.cur with
  | some r => { disconnect S s r with cur := none, mode := .closeWait }
  | none => s

/-- `close`, client.py:607-664, by the thread of the connection. -/
def closeLine (S : Reqs) (err : Bool) (s : Line) : Line :=
  let s := dropCur S s
  { closeLoop err s.resp true s with
    resp := [], rest := [], buffer := [], buffered := 0, sent := 0, mode := .ready, wire := [], started := [], answered := [] }

/-- `_start_request`, client.py:697-725.  The body starts anew, messages.py:499-529. -/
def startReq (S : Reqs) (s : Line) (r : Nat) : Line :=
  { s with
    cur := some r
    pos := upd s.pos r s.buffered
    rest := S.body r
    buffer := s.buffer ++ S.head r
    buffered := s.buffered + (S.head r).length
    mode := if S.expect r then .waiting else .sending
    seen := if s.resp.isEmpty then upd s.seen r none else s.seen
    resp := s.resp ++ [r]
    started := s.started ++ [r]
    tries := upd s.tries r (s.tries r + 1) }

/-- `request_disconnect` while a response is being received, client.py:404-410. -/
def requestDisconnect (S : Reqs) (s : Line) (r : Nat) : Line :=
  { disconnect S s r with cur := none, buffer := [], rest := [], mode := .closeWait }

/-- `start_receiving` of the next response, client.py:359-362. -/
def startNext (seen : Nat → Option Nat) : List Nat → Nat → Option Nat
  | r :: _ => upd seen r none
  | [] => seen

/-- The end of a response, client.py:353-374: the next response is expected, and the connection closed if need be. -/
def popResponse (S : Reqs) (keep : Bool) (k r : Nat) (s : Line) : Line :=
  let s' := { s with answered := s.answered ++ [(r, k)], resp := s.resp.tail, seen := startNext s.seen s.resp.tail }
  if !keep || (s'.resp.isEmpty && s'.mode == .closeWait) then closeLine S false s' else s'

/-- What the connection meets.  `final k keep` is the end of a response with a status of 200 or more and keep_alive; `line k` its first
line; `cont` a 100 response. -/
inductive LEv where
  | queue (r : Nat)
  | start
  | body
  | bodyEnd
  | send (n : Nat)
  | cont
  | contTimeout
  | line (k : Nat)
  | final (k : Nat) (keep : Bool)
  | eof
  | fail

/-- `response_finished` of the request whose response is complete, client.py:1866-1937, and what follows. -/
def finalResp (S : Reqs) (k : Nat) (keep : Bool) (s : Line) (r : Nat) : Line :=
  let s := { s with status := upd s.status r k, seen := upd s.seen r (some k) }
  if s.cur = some r then
    if k ≥ 300 then
      match s.rest with
      -- the bytes send_body() gave are dropped
      | _ :: cs => popResponse S keep k r { s with rest := cs }
      | [] => if S.sized r then popResponse S keep k r (requestDisconnect S s r) else popResponse S keep k r s
    -- client.py:1927: TypeError, caught in thread_task
    else closeLine S true s
  else popResponse S keep k r { s with finished := s.finished ++ [(r, k)] }

/-- One step of `connection_task`, client.py:198-402, or a call of `queue_request`.  `none`: it cannot happen in this state. -/
def lineStep (S : Reqs) (s : Line) : LEv → Option Line
  | .queue r => some { s with queue := s.queue ++ [r], status := upd s.status r 0, asked := upd s.asked r (s.asked r + 1) }
  | .start => match s.queue with
    | [] => none
    | r :: rs =>
      if s.mode == .ready && (S.idem r || (s.resp.isEmpty && s.buffer.isEmpty)) then some (startReq S { s with queue := rs } r) else none
  | .body => match s.cur, s.rest with
    | some _, c :: cs => if s.mode == .sending && s.buffer.isEmpty then some { s with rest := cs, buffer := c, buffered := s.buffered + c.length } else none
    | _, _ => none
  | .bodyEnd => match s.cur, s.rest with
    | some r, [] => if s.mode == .sending && s.buffer.isEmpty then some { disconnect S s r with cur := none, mode := .ready } else none
    | _, _ => none
  | .send n => match s.cur with
    | some r => if 0 < n && decide (n ≤ s.buffer.length) then
        some { s with buffer := s.buffer.drop n, sent := s.sent + n, wire := s.wire ++ s.buffer.take n, bytesOf := upd s.bytesOf r (s.bytesOf r + n) }
      else none
    | none => none
  | .cont => match s.resp with
    | r :: _ => some (if s.cur = some r ∧ s.mode = .waiting then { s with mode := .sending, seen := upd s.seen r none } else { s with seen := upd s.seen r none })
    | [] => none
  | .contTimeout => if s.mode == .waiting && s.buffer.isEmpty then some { s with mode := .sending } else none
  | .line k => match s.resp with
    | r :: _ => some { s with seen := upd s.seen r (some k) }
    | [] => none
  | .final k keep => match s.resp with
    | r :: _ => if 200 ≤ k then some (finalResp S k keep s r) else none
    | [] => none
  | .eof => if s.resp.isEmpty then none else some (closeLine S false s)
  | .fail => if s.resp.isEmpty && s.cur.isNone then none else some (closeLine S true s)

end Verif.Cli

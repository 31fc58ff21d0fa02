import Verif.Http.HeaderProps
import Verif.Http.DateProps
/-!
# Sending a response, `pyslet/http/messages.py:499-680, 1843-1895`: C53
-/
namespace Verif.Http
open Text (decStr)

/-! ## Model -/

/-- The stream of an entity body: the data that is left, and the future results of `read`: None, or at most `k + 1` bytes; then as
much as is asked for. -/
structure Source where
  data : Bytes
  reads : List (Option Nat)
  deriving DecidableEq, Repr

/-- `read(n)` of the stream; all data for a negative `n`. -/
def Source.read (s : Source) (n : Int) : Option Bytes × Source :=
  let n := if n < 0 then s.data.length else n.toNat
  match s.reads with
  | [] => (some (s.data.take n), ⟨s.data.drop n, []⟩)
  | none :: rs => (none, ⟨s.data, rs⟩)
  | some k :: rs => (some (s.data.take (min n (k + 1))), ⟨s.data.drop (min n (k + 1)), rs⟩)

/-- The order of `HTTPVersion`, params.py:213-214. -/
def HTTPVersion.le (a b : HTTPVersion) : Bool := a.major < b.major || (a.major == b.major && a.minor ≤ b.minor)
/-- `params.HTTP_1p0`. -/
def http10 : HTTPVersion := ⟨1, 0⟩

/-- A response that is to be sent: the attributes of `Response` and of its request; `version` is `protocol`. -/
structure Resp where
  head : Bool
  reqVersion : HTTPVersion
  sendVersion : HTTPVersion
  version : HTTPVersion
  status : Nat
  reason : Bytes
  headers : Headers
  body : Option Source
  bodyLen : Option Nat
  keepAlive : Bool
  deriving DecidableEq, Repr

/-- `transferchunked`, `transferlength`, `transferbody`, `transferPos`, `transferDone`. -/
structure Transfer where
  chunked : Bool
  len : Option Int
  src : Option Source
  pos : Nat
  done : Bool
  deriving DecidableEq, Repr

def sConnection : Bytes := [67, 111, 110, 110, 101, 99, 116, 105, 111, 110]
def sClose : Bytes := [99, 108, 111, 115, 101]

/-- `for enc in encoding` up to `chunked`, messages.py:586-597. -/
def sendCodings : List TransferEncoding → Except Fail Unit
  | [] => .ok ()
  | enc :: r =>
    if enc.token = sGzip then .error .gzip
    else if enc.token = sIdentity then sendCodings r
    else if enc.token = chunkedToken then .ok ()
    else .error .notImpl

/-- `Message.send_transferlength` from line 601 on; HTTPException is `protocol`. -/
def Resp.byLength (r : Resp) (contentLength : Option Int) : Except Fail (Resp × Transfer) :=
  match contentLength with
  | some n => match r.bodyLen with
    | some k => if (k : Int) ≠ n then .error .protocol else .ok (r, ⟨false, some n, r.body, 0, false⟩)
    | none => .ok (r, ⟨false, some n, r.body, 0, false⟩)
  | none => match r.bodyLen with
    | some k => .ok ({ r with headers := setHeader r.headers sContentLength (decStr k) false }, ⟨false, some (k : Int), r.body, 0, false⟩)
    | none =>
      if r.body = none then .ok (r, ⟨false, some 0, none, 0, false⟩)
      else if r.sendVersion.le http10 then .ok (r, ⟨false, none, r.body, 0, false⟩)
      else .ok ({ r with headers := setHeader r.headers sTransferEncoding chunkedToken false }, ⟨true, none, r.body, 0, false⟩)

/-- `Message.send_transferlength`, messages.py:549-625. -/
def Resp.messageLength (r : Resp) : Except Fail (Resp × Transfer) := do
  let encoding ← getTransferEncoding r.headers
  let contentLength ← getContentLength r.headers
  if r.sendVersion.le http10 then
    if encoding.isSome then ({ r with headers := delHeader r.headers sTransferEncoding } : Resp).byLength contentLength
    else r.byLength contentLength
  else match encoding with
    | some [] => .error .attr
    | some (te :: tes) =>
      if contentLength.isSome then .error .protocol
      else do
        if (te :: tes).length > 1 then sendCodings (te :: tes)
        return (r, ⟨((te :: tes).getLast?.map (·.token)) = some chunkedToken, none, r.body, 0, false⟩)
    | none => r.byLength contentLength

/-- `Response.send_transferlength`, messages.py:1858-1895. -/
def Resp.transferLength (r : Resp) : Except Fail (Resp × Transfer) :=
  if r.status / 100 = 1 ∨ r.status = 204 ∨ r.status = 304 ∨ r.head = true then
    if r.body.isSome ∧ r.bodyLen ≠ some 0 then .error .protocol
    else .ok (r, ⟨false, some 0, none, 0, false⟩)
  else if r.reqVersion.le http10 = true ∨ r.version.le http10 = true then do
    let encoding ← getTransferEncoding r.headers
    let r := if encoding = none ∨ encoding = some [] then r else { r with headers := delHeader r.headers sTransferEncoding }
    let contentLength ← getContentLength r.headers
    if contentLength = none ∧ r.body.isSome ∧ r.bodyLen = none then
      return ({ r with keepAlive := false }, ⟨false, none, r.body, 0, false⟩)
    else rest r
  else rest r
where
  /-- messages.py:1887-1895. -/
  rest (r : Resp) : Except Fail (Resp × Transfer) :=
    if r.body = none then .ok ({ r with headers := setHeader r.headers sContentLength [48] false }, ⟨false, some 0, none, 0, false⟩)
    else r.messageLength

/-- `start_sending`, messages.py:499-529, of a body that has not been started; `sendVersion` is its argument. -/
def Resp.startSending (r : Resp) : Except Fail Resp := do
  let r := if r.sendVersion.le http10 then { r with keepAlive := false } else r
  let (r, t) ← r.transferLength
  let r := if t.chunked = false ∧ t.len = none then { r with keepAlive := false } else r
  return if r.keepAlive then r else { r with headers := setHeader r.headers sConnection sClose false }

/-- `Response.send_start`, messages.py:1843-1856. -/
def Resp.sendStart (r : Resp) : Bytes := r.version.toBytes ++ [32] ++ decStr r.status ++ [32] ++ r.reason ++ CRLF

/-- `io.DEFAULT_BUFFER_SIZE`. -/
def bufferSize : Nat := 8192

/-- `send_body`, messages.py:627-680: None if the stream blocks; the empty string is the end. -/
def Transfer.sendBody (t : Transfer) : Except Fail (Option Bytes × Transfer) :=
  if t.done then .ok (some [], t)
  else match t.src with
  | none => .ok (some [], { t with done := true })
  | some s =>
    if t.chunked then
      match s.read bufferSize with
      | (none, s) => .ok (none, { t with src := some s })
      | (some d, s) => do
        let c ← lift (Chunk.toBytes ⟨d.length, []⟩)
        if d ≠ [] then return (some (c ++ CRLF ++ d ++ CRLF), { t with src := some s, pos := t.pos + d.length })
        else return (some (c ++ CRLF ++ CRLF), { t with src := some s, done := true })
    else
      let n : Int := match t.len with
        | none => bufferSize
        | some n => min (n - t.pos) bufferSize
      if n ≠ 0 then
        match s.read n with
        | (none, s) => .ok (none, { t with src := some s })
        | (some d, s) =>
          if d ≠ [] then .ok (some d, { t with src := some s, pos := t.pos + d.length })
          else .ok (some [], { t with src := some s, done := true })
      else .ok (some [], { t with done := true })

/-- The loop of the server over `send_body`, server.py:550-564. -/
def sendLoop : Nat → Transfer → Except Fail Bytes
  | 0, _ => .error .fuel
  | n + 1, t => do
    match ← t.sendBody with
    | (none, t) => sendLoop n t
    | (some d, t) => if d ≠ [] then return d ++ (← sendLoop n t) else return []

/-- The calls by which a server sends a response, server.py:543-564, 829-831: everything that is written to the socket. -/
def Resp.send (r : Resp) : Except Fail Bytes := do
  let r ← r.startSending
  let (r', t) ← r.transferLength
  let n := match r.body with
    | some s => s.data.length + s.reads.length
    | none => 0
  return r.sendStart ++ sendHeader r'.headers ++ (← sendLoop (n + 3) t)

/-! ## Specification -/

/-- A reason phrase: tokens with single spaces between them. -/
def Reason (s : Bytes) : Prop := ∃ ts : List Bytes, ts ≠ [] ∧ (∀ t ∈ ts, t ≠ [] ∧ ∀ b ∈ t, TokByte b) ∧ s = joinByte 32 ts

/-- A response between HTTP/1.1 parties that an application may build: header fields without Transfer-Encoding. -/
structure Resp.Ok (r : Resp) : Prop where
  req : r.reqVersion.le http10 = false
  version : r.version.le http10 = false
  send : r.sendVersion.le http10 = false
  reason : Reason r.reason
  fields : FieldDict r.headers
  handled : handleHeaders r.headers (some r.version) = .ok ()
  noTE : getHeader r.headers sTransferEncoding = none

/-- What the client should see: the status line, the body, and the header fields of the application; those about the transfer
may be added. -/
structure Resp.Sees (r : Resp) (body : Bytes) (o : Out) : Prop where
  start : o.start = ⟨some r.version, r.status, r.reason⟩
  fields : ∀ n, lowerBytes n ≠ lowerBytes sTransferEncoding → lowerBytes n ≠ lowerBytes sContentLength → lowerBytes n ≠ lowerBytes sConnection →
    getHeader o.headers n = getHeader r.headers n
  close : r.keepAlive = false → getHeader o.headers sConnection = some sClose
  body : o.body = body

/-! ## Proofs -/

/-! ### Header dictionaries -/

theorem lookup_mem_keys {h : Headers} {k : Bytes} : (h.lookup k).isSome ↔ k ∈ h.map (·.1) := by
  induction h with
  | nil => simp [List.lookup]
  | cons e h ih =>
    rw [show e = (e.1, e.2) from rfl, List.lookup]
    by_cases hk : k = e.1
    · simp [hk]
    · rw [show (k == e.1) = false by simpa using hk]
      simp only [List.map_cons, List.mem_cons, hk, false_or]
      exact ih

theorem put_keys (h : Headers) (k : Bytes) (v : Bytes × List Bytes) :
    (h.put k v).map (·.1) = if k ∈ h.map (·.1) then h.map (·.1) else h.map (·.1) ++ [k] := by
  unfold Headers.put
  have : h.any (·.1 == k) = true ↔ k ∈ h.map (·.1) := by
    simp only [List.any_eq_true, List.mem_map, beq_iff_eq]
  by_cases hk : k ∈ h.map (·.1)
  · rw [if_pos (this.mpr hk), if_pos hk, List.map_map]
    apply List.map_congr_left
    intro e _
    simp only [Function.comp]
    split
    · rename_i he; exact (by simpa using he : e.1 = k).symm
    · rfl
  · rw [if_neg (fun h => hk (this.mp h)), if_neg hk, List.map_append]; rfl

theorem put_mem {h : Headers} {k : Bytes} {v : Bytes × List Bytes} {e : Bytes × Bytes × List Bytes} (he : e ∈ h.put k v) : e ∈ h ∨ e = (k, v) := by
  unfold Headers.put at he
  split at he
  · obtain ⟨x, hx, rfl⟩ := List.mem_map.mp he
    split
    · exact .inr rfl
    · exact .inl hx
  · rcases List.mem_append.mp he with h | h
    · exact .inl h
    · exact .inr (by simpa using h)

theorem lookup_put (h : Headers) (k k' : Bytes) (v : Bytes × List Bytes) :
    (h.put k v).lookup k' = if k' = k then some v else h.lookup k' := by
  unfold Headers.put
  by_cases hk : h.any (·.1 == k) = true
  · rw [if_pos hk]
    induction h with
    | nil => cases hk
    | cons e h ih =>
      rw [List.map_cons]
      by_cases hek : e.1 = k
      · rw [if_pos (by simpa using hek), List.lookup]
        by_cases h' : k' = k
        · subst h'; simp
        · rw [show (k' == k) = false by simpa using h']
          dsimp only
          rw [if_neg h', show e = (e.1, e.2) from rfl, List.lookup, hek, show (k' == k) = false by simpa using h']
          dsimp only
          by_cases hk2 : h.any (·.1 == k) = true
          · rw [ih hk2, if_neg h']
          · rw [show (h.map fun e => if (e.1 == k) = true then (k, v) else e) = h from ?_]
            conv => rhs; rw [← List.map_id h]
            apply List.map_congr_left
            intro e he
            rw [if_neg]; · rfl
            intro hc; exact hk2 (List.any_eq_true.mpr ⟨e, he, hc⟩)
      · rw [if_neg (by simpa using hek), show e = (e.1, e.2) from rfl, List.lookup, List.lookup]
        by_cases h' : k' = e.1
        · rw [show (k' == e.1) = true by simpa using h']
          dsimp only
          rw [if_neg (by rw [h']; exact hek)]
        · rw [show (k' == e.1) = false by simpa using h']
          dsimp only
          apply ih
          simpa [hek] using hk
  · rw [if_neg hk]
    have hnk : k ∉ h.map (·.1) := by
      intro hm
      obtain ⟨x, hx, he⟩ := List.mem_map.mp hm
      exact hk (List.any_eq_true.mpr ⟨x, hx, by simpa using he⟩)
    by_cases h' : k' = k
    · rw [if_pos h', h', lookup_append_none hnk]; simp [List.lookup]
    · rw [if_neg h', List.lookup_append]
      simp only [List.lookup, show (k' == k) = false by simpa using h', Option.or_none]

/-- `set_header` without append mode. -/
theorem setHeader_false (h : Headers) (n v : Bytes) : setHeader h n v false = h.put (lowerBytes n) (n, [strip v]) := by
  unfold setHeader; split <;> simp

theorem getHeader_set (h : Headers) (n v n' : Bytes) :
    getHeader (setHeader h n v false) n' = if lowerBytes n' = lowerBytes n then some (strip v) else getHeader h n' := by
  unfold getHeader Headers.find
  rw [setHeader_false, lookup_put]
  split <;> simp [joinComma]

theorem FieldDict.set {h : Headers} (D : FieldDict h) {n v : Bytes} (hn : FieldName n) (hv : FieldValue v) : FieldDict (setHeader h n v false) := by
  rw [setHeader_false, hv.stripped]
  have hm : ∀ e ∈ h.put (lowerBytes n) (n, [v]), e ∈ h ∨ e = (lowerBytes n, n, [v]) := fun e he => put_mem he
  refine ⟨?_, ?_, ?_, ?_, ?_⟩
  · rw [put_keys]
    split
    · exact D.keys
    · rename_i hk
      rw [List.nodup_append]
      exact ⟨D.keys, by simp, fun a ha b hb => by simp only [List.mem_singleton] at hb; rintro rfl; exact hk (hb ▸ ha)⟩
  · intro e he
    rcases hm e he with h | rfl
    · exact D.lower e h
    · rfl
  · intro e he
    rcases hm e he with h | rfl
    · exact D.names e h
    · exact hn
  · intro e he
    rcases hm e he with h | rfl
    · exact D.some e h
    · simp
  · intro e he
    rcases hm e he with h | rfl
    · exact D.values e h
    · simpa using hv

theorem handleHeaders_congr {h h' : Headers} (e : getHeader h' sContentType = getHeader h sContentType) (v : Option HTTPVersion) :
    handleHeaders h' v = handleHeaders h v := by
  unfold handleHeaders getContentType
  rw [e]

/-! ### The status line -/

theorem recvStart_sent (v : HTTPVersion) (status : Nat) {reason : Bytes} (hr : Reason reason) :
    recvStart (v.toBytes ++ [32] ++ decStr status ++ [32] ++ reason ++ CRLF) = .ok ⟨some v, status, reason⟩ := by
  obtain ⟨ts, hts, htok, rfl⟩ := hr
  obtain ⟨ma, mi⟩ := v
  have vtok : ∀ b ∈ decStr ma ++ 46 :: decStr mi, TokByte b := by
    intro b hb
    simp only [List.mem_append, List.mem_cons] at hb
    rcases hb with hb | rfl | hb
    · exact (digit_tok (Text.decStr_isDigit _ b hb)).1
    · decide
    · exact (digit_tok (Text.decStr_isDigit _ b hb)).1
  have vne : decStr ma ++ 46 :: decStr mi ≠ [] := by simp
  have stok : ∀ b ∈ decStr status, TokByte b := fun b hb => (digit_tok (Text.decStr_isDigit _ b hb)).1
  -- the words of the reason
  have reasonWords : ∀ ts : List Bytes, ts ≠ [] → (∀ t ∈ ts, t ≠ [] ∧ ∀ b ∈ t, TokByte b) →
      ∃ ws, words false (joinByte 32 ts) = some ws ∧ remainder ws = joinByte 32 ts ∧ (∃ t ws', ws = .text t :: ws') ∧
        (∃ b r, joinByte 32 ts = b :: r ∧ ¬ LwsStart b) := by
    intro ts
    induction ts with
    | nil => intro h; exact absurd rfl h
    | cons t ts ih =>
      intro _ h
      obtain ⟨h0, h1⟩ := h t (by simp)
      obtain ⟨b, t', ht⟩ := List.exists_cons_of_ne_nil h0
      have hl : ¬ LwsStart b := tokByte_lws (h1 b (by rw [ht]; simp))
      cases ts with
      | nil =>
        refine ⟨[.text t], ?_, ?_, ⟨t, [], rfl⟩, b, t', ht, hl⟩
        · have := words_token false t [] h0 h1 tokEnd_nil
          rw [List.append_nil, words_nil] at this
          exact this
        · simp [remainder, joinByte]
      | cons t2 ts =>
        obtain ⟨ws, e1, e2, _, b2, r2, e3, e4⟩ := ih (by simp) (fun x hx => h x (by simp [hx]))
        have ej : joinByte 32 (t :: t2 :: ts) = t ++ 32 :: joinByte 32 (t2 :: ts) := by rw [joinByte]; simp
        refine ⟨.text t :: .sep 32 :: ws, ?_, ?_, ⟨t, _, rfl⟩, b, t' ++ 32 :: joinByte 32 (t2 :: ts), by rw [ej, ht]; rfl, hl⟩
        · rw [ej, words_token false t _ h0 h1 (tokEnd_cons tok32), e3, words_sp false b2 r2 e4, ← e3, e1]; rfl
        · rw [ej, ← e2]
          simp [remainder]
  obtain ⟨ws, e1, e2, ⟨t0, ws0, hws⟩, b2, r2, e3, e4⟩ := reasonWords ts hts htok
  obtain ⟨sb, sr, hs⟩ := List.exists_cons_of_ne_nil (Text.decStr_ne_nil status)
  have hsl : ¬ LwsStart sb := tokByte_lws (stok sb (by rw [hs]; simp))
  have hw : words false (HTTPVersion.toBytes ⟨ma, mi⟩ ++ [32] ++ decStr status ++ [32] ++ joinByte 32 ts) =
      some (.text [72, 84, 84, 80] :: .sep 47 :: .text (decStr ma ++ 46 :: decStr mi) :: .sep 32 :: .text (decStr status) :: .sep 32 :: ws) := by
    have e : HTTPVersion.toBytes ⟨ma, mi⟩ ++ [32] ++ decStr status ++ [32] ++ joinByte 32 ts =
        [72, 84, 84, 80] ++ 47 :: ((decStr ma ++ 46 :: decStr mi) ++ 32 :: (decStr status ++ 32 :: joinByte 32 ts)) := by
      simp [HTTPVersion.toBytes]
    have ha : words false (32 :: joinByte 32 ts) = some (.sep 32 :: ws) := by
      rw [e3, words_sp false b2 r2 e4, ← e3, e1]; rfl
    have hb : words false (32 :: (decStr status ++ 32 :: joinByte 32 ts)) = some (.sep 32 :: .text (decStr status) :: .sep 32 :: ws) := by
      have := words_sp false sb (sr ++ 32 :: joinByte 32 ts) hsl
      rw [← List.cons_append, ← hs] at this
      rw [this, words_token false _ _ (Text.decStr_ne_nil _) stok (tokEnd_cons tok32), ha]; rfl
    rw [e, words_token false _ _ (by decide) (by decide) (tokEnd_cons tok47),
      words_sep false 47 _ (by decide) (by decide) (by decide) (by decide) (by decide),
      words_token false _ _ vne vtok (tokEnd_cons tok32), hb]
    rfl
  have hsp : splitByte 46 (decStr ma ++ 46 :: decStr mi) = [decStr ma, decStr mi] := by
    rw [splitByte_append, splitByte_none]
    · intro hm; exact (digit_tok (Text.decStr_isDigit _ _ hm)).2.1 rfl
    · intro hm; exact (digit_tok (Text.decStr_isDigit _ _ hm)).2.1 rfl
  have hv : requireHttpVersion (.text [72, 84, 84, 80] :: .sep 47 :: .text (decStr ma ++ 46 :: decStr mi) :: .sep 32 :: .text (decStr status) :: .sep 32 :: ws) =
      .ok (⟨ma, mi⟩, .sep 32 :: .text (decStr status) :: .sep 32 :: ws) := by
    unfold requireHttpVersion
    simp only [bind, Except.bind, parseSp_text, parseSp_sep (show 47 ≠ 32 by decide), requireSep_eq,
      requireToken_tok (t := [72, 84, 84, 80]) (by decide) (by decide), requireToken_tok vne vtok, hsp, isDigits_decStr, Text.decVal_decStr]
    rfl
  have hpv : productionVersion (.text [72, 84, 84, 80] :: .sep 47 :: .text (decStr ma ++ 46 :: decStr mi) :: .sep 32 :: .text (decStr status) :: .sep 32 :: ws) =
      .ok (some ⟨ma, mi⟩, .sep 32 :: .text (decStr status) :: .sep 32 :: ws) := by
    unfold productionVersion; rw [hv]
  have hi : wpInteger (parseSp (.sep 32 :: .text (decStr status) :: .sep 32 :: ws)) = .ok (some status, .sep 32 :: ws) := by
    simp only [parseSp, parseSep, if_true, wpInteger, isDigits_decStr, Text.decVal_decStr]
  unfold recvStart
  rw [take_crlf, openWords_ok hw]
  simp only [lift, hpv, hi, bind, Except.bind, pure, Except.pure, Option.getD_some]
  rw [show parseSp (.sep 32 :: ws) = ws by simp [parseSp, parseSep], e2]

theorem noCRLF_of_not_mem {l : Bytes} (h : 13 ∉ l) : NoCRLF l := by
  rintro a b rfl; exact h (by simp)

theorem tok_ne13 {b : Nat} (h : TokByte b) : b ≠ 13 := by
  rintro rfl; exact absurd h (by decide)

theorem reason_no13 : ∀ ts : List Bytes, (∀ t ∈ ts, t ≠ [] ∧ ∀ b ∈ t, TokByte b) → 13 ∉ joinByte 32 ts := by
  intro ts
  induction ts with
  | nil => intro _; simp [joinByte]
  | cons t ts ih =>
    intro h
    have h1 : 13 ∉ t := fun hm => tok_ne13 ((h t (by simp)).2 13 hm) rfl
    cases ts with
    | nil => simpa [joinByte] using h1
    | cons t2 ts =>
      have := ih (fun x hx => h x (by simp [hx]))
      rw [joinByte]
      · simp only [List.mem_append, List.mem_cons, not_or]
        simp [h1, this]
      · simp

theorem startLine_ok (v : HTTPVersion) (status : Nat) {reason : Bytes} (hr : Reason reason) :
    NoCRLF (v.toBytes ++ [32] ++ decStr status ++ [32] ++ reason) := by
  apply noCRLF_of_not_mem
  obtain ⟨ts, _, h, rfl⟩ := hr
  have hd : ∀ n, 13 ∉ decStr n := fun n hm => tok_ne13 (digit_tok (Text.decStr_isDigit _ _ hm)).1 rfl
  simp only [HTTPVersion.toBytes, List.mem_append, not_or]
  refine ⟨⟨⟨⟨⟨⟨⟨by decide, hd _⟩, by decide⟩, hd _⟩, by decide⟩, hd _⟩, by decide⟩, reason_no13 ts h⟩

/-! ### The body -/

theorem read_spec (s : Source) {n : Nat} (hn : 0 < n) :
    ((s.read (n : Int)).1 = none ∧ (s.read n).2.data = s.data ∧ (s.read n).2.reads.length < s.reads.length) ∨
    (∃ k, 0 < k ∧ k ≤ n ∧ (s.read (n : Int)).1 = some (s.data.take k) ∧ (s.read n).2.data = s.data.drop k ∧ (s.read n).2.reads.length ≤ s.reads.length) := by
  unfold Source.read
  rw [if_neg (by omega)]
  rw [Int.toNat_natCast]
  match hr : s.reads with
  | [] => right; exact ⟨n, hn, by omega, rfl, rfl, by simp⟩
  | none :: rs => left; exact ⟨rfl, rfl, by simp⟩
  | some k :: rs => right; exact ⟨min n (k + 1), by omega, by omega, rfl, rfl, by simp⟩

theorem chunkLine_sent (n : Nat) : Chunk.toBytes ⟨n, []⟩ = .ok (hexStr n) ∧ ChunkLine (hexStr n) n := by
  have h1 : Chunk.toBytes ⟨n, []⟩ = .ok (hexStr n) := by
    show Except.bind (formatParameters []) _ = _
    rw [show formatParameters [] = .ok [] by decide +kernel]
    show Except.ok (hexStr n ++ []) = _
    rw [List.append_nil]
  refine ⟨h1, ?_, ?_⟩
  · apply noCRLF_of_not_mem
    intro hm
    exact tok_ne13 ((hexStr_spec n).2.1 13 hm).2 rfl
  · obtain ⟨s, c', g1, g2, _, g3, _⟩ := C26_chunk ⟨n, []⟩ (by unfold ValidParams; simp)
    rw [h1] at g1
    cases g1
    exact ⟨c', g2, g3⟩

theorem sendLoop_chunked : ∀ (fuel : Nat) (t : Transfer) (s : Source), t.chunked = true → t.done = false → t.src = some s →
    s.data.length + s.reads.length + 2 ≤ fuel →
    ∃ cs : List ChunkPart, sendLoop fuel t = .ok (chunksWire cs ++ hexStr 0 ++ CRLF ++ CRLF) ∧ (cs.map (·.2)).flatten = s.data ∧
      ∀ c ∈ cs, c.2 ≠ [] ∧ ChunkLine c.1 c.2.length := by
  intro fuel
  induction fuel with
  | zero => intros; omega
  | succ fuel ih =>
    intro t s hc hd hs hf
    obtain ⟨_, len, _, pos, _⟩ := t
    dsimp only at hc hd hs
    subst hc hd hs
    rw [sendLoop]
    unfold Transfer.sendBody
    simp only [if_true, Bool.false_eq_true, if_false]
    have hread := read_spec s (n := bufferSize) (by decide)
    rcases hr : s.read (bufferSize : Int) with ⟨o, s'⟩
    rw [hr] at hread
    rcases hread with ⟨h1, h2, h3⟩ | ⟨k, hk0, hkn, h1, h2, h3⟩
    · dsimp only at h1 h2 h3; subst h1
      simp only [bind, Except.bind]
      rw [← h2]
      exact ih _ s' rfl rfl rfl (by rw [h2]; omega)
    · dsimp only at h1 h2 h3; subst h1
      simp only [(chunkLine_sent _).1, lift, bind, Except.bind]
      by_cases he : s.data.take k = []
      · have he' : s.data = [] := by
          rcases List.take_eq_nil_iff.mp he with h | h
          · omega
          · exact h
        rw [he]
        simp only [ne_eq, not_true_eq_false, if_false, pure, Except.pure]
        refine ⟨[], ?_, by simp [he'], by simp⟩
        rw [if_pos (by simp [CRLF])]
        obtain ⟨f, rfl⟩ : ∃ f, fuel = f + 1 := ⟨fuel - 1, by omega⟩
        rw [sendLoop]
        simp [Transfer.sendBody, bind, Except.bind, pure, Except.pure, chunksWire]
      · simp only [ne_eq, he, not_false_eq_true, if_true, pure, Except.pure]
        rw [if_pos (by simp [CRLF])]
        have hl : s.data.length ≠ 0 := by
          intro h; exact he (by rw [List.length_eq_zero_iff.mp h]; simp)
        obtain ⟨cs, e1, e2, e3⟩ := ih ⟨true, len, some s', pos + (s.data.take k).length, false⟩ s' rfl rfl rfl (by rw [h2, List.length_drop]; omega)
        rw [e1]
        refine ⟨(hexStr (s.data.take k).length, s.data.take k) :: cs, ?_, ?_, ?_⟩
        · simp [chunksWire]
        · simp only [List.map_cons, List.flatten_cons]
          rw [e2, h2, List.take_append_drop]
        · intro c hcm
          rcases List.mem_cons.mp hcm with rfl | h
          · exact ⟨he, (chunkLine_sent _).2⟩
          · exact e3 c h

theorem sendLoop_length : ∀ (fuel : Nat) (t : Transfer) (s : Source) (n : Nat), t.chunked = false → t.done = false → t.src = some s → t.len = some (n : Int) →
    t.pos ≤ n → n - t.pos ≤ s.data.length → s.data.length + s.reads.length + 1 ≤ fuel → sendLoop fuel t = .ok (s.data.take (n - t.pos)) := by
  intro fuel
  induction fuel with
  | zero => intros; omega
  | succ fuel ih =>
    intro t s n hc hd hs hl hp hn hf
    obtain ⟨_, _, _, pos, _⟩ := t
    dsimp only at hc hd hs hl hp hn ⊢
    subst hc hd hs hl
    rw [sendLoop]
    unfold Transfer.sendBody
    simp only [Bool.false_eq_true, if_false]
    by_cases hz : n - pos = 0
    · rw [if_neg (by simp only [ne_eq, Decidable.not_not]; omega)]
      simp [bind, Except.bind, hz, pure, Except.pure]
    · rw [if_pos (by simp only [ne_eq, bufferSize]; omega)]
      have hm : (min ((n : Int) - pos) (bufferSize : Int)) = ((min (n - pos) bufferSize : Nat) : Int) := by omega
      rw [hm]
      have hread := read_spec s (n := min (n - pos) bufferSize) (by simp only [bufferSize]; omega)
      rcases hr : s.read ((min (n - pos) bufferSize : Nat) : Int) with ⟨o, s'⟩
      rw [hr] at hread
      rcases hread with ⟨h1, h2, h3⟩ | ⟨k, hk0, hkn, h1, h2, h3⟩
      · dsimp only at h1 h2 h3; subst h1
        simp only [bind, Except.bind]
        rw [← h2]
        exact ih ⟨false, some (n : Int), some s', pos, false⟩ s' n rfl rfl rfl rfl hp (by rw [h2]; exact hn) (by rw [h2]; omega)
      · dsimp only at h1 h2 h3; subst h1
        have hlen : (s.data.take k).length = k := by rw [List.length_take]; omega
        have he : s.data.take k ≠ [] := by
          intro h; rw [h] at hlen; simp at hlen; omega
        simp only [ne_eq, he, not_false_eq_true, if_true, bind, Except.bind]
        have := ih ⟨false, some (n : Int), some s', pos + (s.data.take k).length, false⟩ s' n rfl rfl rfl rfl (by dsimp only; omega)
          (by rw [h2, List.length_drop]; dsimp only; omega) (by rw [h2, List.length_drop]; omega)
        rw [this, h2]
        simp only [pure, Except.pure, Except.ok.injEq]
        rw [hlen, ← Nat.sub_sub]
        conv => rhs; rw [show n - pos = k + (n - pos - k) by omega, List.take_add]

/-! ### The whole message -/

theorem responseFrame_congr {h h' : Headers} (e : ∀ n, getHeader h' n = getHeader h n) (head : Bool) (status : Nat) :
    responseFrame head status h' = responseFrame head status h := by
  unfold responseFrame recvFrame recvFrame.byLength getTransferEncoding getContentLength getContentType
  rw [e sTransferEncoding, e sContentLength, e sContentType]

/-- What is sent is a response that is framed correctly. -/
theorem are_sent {r : Resp} (ok : r.Ok) (hi : ¬ Interim r.status) {H : Headers} (D : FieldDict H)
    (ct : getHeader H sContentType = getHeader r.headers sContentType) (b : Body)
    (hb : (∃ x, b = .raw x ∧ responseFrame r.head r.status H = .ok ⟨false, some (x.length : Int), none⟩) ∨
      (∃ cs, b = .chunked cs (hexStr 0) [] ∧ responseFrame r.head r.status H = .ok ⟨true, none, none⟩ ∧
        ∀ c ∈ cs, c.2 ≠ [] ∧ ChunkLine c.1 c.2.length)) :
    Bytes.Are r.head false ⟨⟨some r.version, r.status, r.reason⟩, sortHeaders H, b.data⟩ (r.sendStart ++ sendHeader H ++ b.wire) := by
  obtain ⟨f1, f2, f3⟩ := C52_fields D
  have e : r.sendStart ++ sendHeader H ++ b.wire =
      Wire.bytes ⟨r.version.toBytes ++ [32] ++ decStr r.status ++ [32] ++ r.reason, headerLines H, b⟩ := by
    rw [f3]; simp [Wire.bytes, Resp.sendStart]
  rw [e]
  have hc := responseFrame_congr (fun n => getHeader_sorted D n) r.head r.status
  refine .last _ (sortHeaders H) (sortHeaders H) _ ⟨?_, ?_, ?_, f1, f2, ?_, ?_, ?_⟩ hi (by simp) rfl
  · exact startLine_ok _ _ ok.reason
  · simp [HTTPVersion.toBytes]
  · exact recvStart_sent _ _ ok.reason
  · rw [handleHeaders_congr (h := r.headers) (by rw [getHeader_sorted D, ct])]; exact ok.handled
  · intro x hx
    dsimp only at hx ⊢
    rw [hc]
    rcases hb with ⟨y, rfl, hy⟩ | ⟨cs, rfl, _⟩
    · cases hx; exact ⟨hy, rfl⟩
    · cases hx
  · intro cs last tr hx
    dsimp only at hx ⊢
    rw [hc]
    rcases hb with ⟨y, rfl, hy⟩ | ⟨cs', rfl, hy, hcs⟩
    · cases hx
    · cases hx
      exact ⟨hy, hcs, (chunkLine_sent 0).2, by unfold Lines; simp, by unfold Fields; rfl⟩

/-- The body that the application has given the response. -/
inductive Resp.Carries (r : Resp) : Bytes → Prop where
  | without : (r.status / 100 = 1 ∨ r.status = 204 ∨ r.status = 304 ∨ r.head = true) → (r.body = none ∨ r.bodyLen = some 0) → Carries r []
  | empty : ¬ (r.status / 100 = 1 ∨ r.status = 204 ∨ r.status = 304 ∨ r.head = true) → r.body = none → Carries r []
  | stream (s : Source) : ¬ (r.status / 100 = 1 ∨ r.status = 204 ∨ r.status = 304 ∨ r.head = true) → r.body = some s → r.bodyLen = none →
      getHeader r.headers sContentLength = none → Carries r s.data
  | known (s : Source) : ¬ (r.status / 100 = 1 ∨ r.status = 204 ∨ r.status = 304 ∨ r.head = true) → r.body = some s → r.bodyLen = some s.data.length →
      (getHeader r.headers sContentLength = none ∨ getHeader r.headers sContentLength = some (decStr s.data.length)) → Carries r s.data
  | declared (s : Source) (n : Nat) : ¬ (r.status / 100 = 1 ∨ r.status = 204 ∨ r.status = 304 ∨ r.head = true) → r.body = some s → r.bodyLen = none →
      getHeader r.headers sContentLength = some (decStr n) → n ≤ s.data.length → Carries r (s.data.take n)

/-- The header fields after `start_sending`. -/
def Resp.closed (r : Resp) (H : Headers) : Headers := if r.keepAlive then H else setHeader H sConnection sClose false

theorem send_eq {r : Resp} (ok : r.Ok) {H1 H3 : Headers} {t1 t : Transfer} {wire : Bytes} {n : Nat}
    (h1 : r.transferLength = .ok ({ r with headers := H1 }, t1)) (hn : ¬ (t1.chunked = false ∧ t1.len = none))
    (h2 : ({ r with headers := r.closed H1 } : Resp).transferLength = .ok ({ r with headers := H3 }, t))
    (hf : n = match r.body with
      | some s => s.data.length + s.reads.length
      | none => 0)
    (h3 : sendLoop (n + 3) t = .ok wire) : r.send = .ok (r.sendStart ++ sendHeader H3 ++ wire) := by
  have hs : r.startSending = .ok { r with headers := r.closed H1 } := by
    unfold Resp.startSending
    simp only [ok.send, Bool.false_eq_true, if_false, h1, bind, Except.bind, pure, Except.pure, hn]
    unfold Resp.closed
    split <;> rfl
  unfold Resp.send
  rw [hs]
  simp only [bind, Except.bind, h2, ← hf, h3, pure, Except.pure]
  rfl

theorem transferLength_rest {r : Resp} (h1 : r.reqVersion.le http10 = false) (h2 : r.version.le http10 = false)
    (hs : ¬ (r.status / 100 = 1 ∨ r.status = 204 ∨ r.status = 304 ∨ r.head = true)) : r.transferLength = Resp.transferLength.rest r := by
  unfold Resp.transferLength
  rw [if_neg hs, if_neg (by simp [h1, h2])]

theorem messageLength_len {r : Resp} (h3 : r.sendVersion.le http10 = false) (ht : getHeader r.headers sTransferEncoding = none) (c : Option Int)
    (hc : getContentLength r.headers = .ok c) : r.messageLength = r.byLength c := by
  unfold Resp.messageLength getTransferEncoding
  simp only [ht, hc, bind, Except.bind, h3, Bool.false_eq_true, if_false]

theorem messageLength_chunked {r : Resp} (h3 : r.sendVersion.le http10 = false) (ht : getHeader r.headers sTransferEncoding = some chunkedToken)
    (hc : getHeader r.headers sContentLength = none) : r.messageLength = .ok (r, ⟨true, none, r.body, 0, false⟩) := by
  have h1 : getTransferEncoding r.headers = .ok (some [⟨chunkedToken, []⟩]) := by
    unfold getTransferEncoding
    rw [ht]
    have : lift (TransferEncoding.listFromStr chunkedToken) = .ok [⟨chunkedToken, []⟩] := by decide +kernel
    simp only [this, bind, Except.bind, checkTE, pure, Except.pure, Bool.false_eq_true, if_false]
  unfold Resp.messageLength getContentLength
  simp only [h1, hc, bind, Except.bind, h3, Bool.false_eq_true, if_false, Option.isSome_none, pure, Except.pure]
  rfl

theorem getContentLength_none {h : Headers} (hc : getHeader h sContentLength = none) : getContentLength h = .ok none := by
  unfold getContentLength; rw [hc]

theorem getContentLength_some {h : Headers} {n : Nat} (hc : getHeader h sContentLength = some (decStr n)) : getContentLength h = .ok (some (n : Int)) := by
  unfold getContentLength; rw [hc]; dsimp only; rw [intOf_decStr]

theorem strip_decStr (n : Nat) : strip (decStr n) = decStr n := by
  have hd := Text.decStr_isDigit n
  have hns : ∀ b ∈ decStr n, isStrip b = false := by
    intro b hb
    have := hd b hb
    simp only [Text.isDigit, Bool.and_eq_true, decide_eq_true_eq] at this
    simp [isStrip]; omega
  unfold strip
  have h1 : ∀ l : Bytes, (∀ b ∈ l, isStrip b = false) → l.dropWhile isStrip = l := by
    intro l hl
    cases l with
    | nil => rfl
    | cons b l => rw [List.dropWhile_cons_of_neg (by rw [hl b (by simp)]; simp)]
  rw [h1 _ hns, h1 _ (fun b hb => hns b (by simpa using hb)), List.reverse_reverse]

theorem fieldValue_decStr (n : Nat) : FieldValue (decStr n) :=
  ⟨noCRLF_of_not_mem fun hm => tok_ne13 (digit_tok (Text.decStr_isDigit _ _ hm)).1 rfl, strip_decStr n⟩

theorem dec0 : decStr 0 = [48] := by decide +kernel
theorem fv0 : FieldValue [48] := dec0 ▸ fieldValue_decStr 0
theorem fieldName_cl : FieldName sContentLength := ⟨by decide, by decide, by decide, by intro b r h; cases h; decide⟩
theorem fieldName_te : FieldName sTransferEncoding := ⟨by decide, by decide, by decide, by intro b r h; cases h; decide⟩
theorem fieldName_conn : FieldName sConnection := ⟨by decide, by decide, by decide, by intro b r h; cases h; decide⟩
theorem fieldValue_chunked : FieldValue chunkedToken := ⟨noCRLF_of_not_mem (by decide), by decide +kernel⟩
theorem fieldValue_close : FieldValue sClose := ⟨noCRLF_of_not_mem (by decide), by decide +kernel⟩

theorem lower_ne : lowerBytes sTransferEncoding ≠ lowerBytes sContentLength ∧ lowerBytes sTransferEncoding ≠ lowerBytes sConnection ∧
    lowerBytes sContentLength ≠ lowerBytes sConnection ∧ lowerBytes sContentType ≠ lowerBytes sContentLength ∧
    lowerBytes sContentType ≠ lowerBytes sTransferEncoding ∧ lowerBytes sContentType ≠ lowerBytes sConnection := by decide +kernel

theorem getHeader_closed (r : Resp) (H : Headers) (n : Bytes) (hn : lowerBytes n ≠ lowerBytes sConnection) : getHeader (r.closed H) n = getHeader H n := by
  unfold Resp.closed
  split
  · rfl
  · rw [getHeader_set, if_neg hn]

theorem closed_close {r : Resp} (H : Headers) (hk : r.keepAlive = false) : getHeader (r.closed H) sConnection = some sClose := by
  unfold Resp.closed
  rw [hk, if_neg (by simp), getHeader_set, if_pos rfl, fieldValue_close.stripped]

theorem closed_dict (r : Resp) {H : Headers} (D : FieldDict H) : FieldDict (r.closed H) := by
  unfold Resp.closed
  split
  · exact D
  · exact D.set fieldName_conn fieldValue_close

/-- What the client sees when the header fields that are sent are those of the application and those about the transfer. -/
theorem sees_of {r : Resp} {H : Headers} (D : FieldDict H) {b : Bytes}
    (h : ∀ n, lowerBytes n ≠ lowerBytes sTransferEncoding → lowerBytes n ≠ lowerBytes sContentLength → lowerBytes n ≠ lowerBytes sConnection →
      getHeader H n = getHeader r.headers n)
    (hc : r.keepAlive = false → getHeader H sConnection = some sClose) : r.Sees b ⟨⟨some r.version, r.status, r.reason⟩, sortHeaders H, b⟩ where
  start := rfl
  fields := fun n h1 h2 h3 => by rw [getHeader_sorted D]; exact h n h1 h2 h3
  close := fun hk => by rw [getHeader_sorted D]; exact hc hk
  body := rfl

/-- **C53**: what a server sends for a response is a correctly framed response with the status line, the header fields and the body
that the application has given, however the stream of the body blocks or returns less than was asked for. -/
theorem C53_sent {r : Resp} (ok : r.Ok) (hi : ¬ Interim r.status) {body : Bytes} (hb : r.Carries body) :
    ∃ bs o, r.send = .ok bs ∧ r.Sees body o ∧ Bytes.Are r.head false o bs := by
  obtain ⟨l1, l2, l3, l4, l5, l6⟩ := lower_ne
  have cl := getHeader_closed r
  cases hb with
  | without hs hbl =>
    have D : FieldDict (r.closed r.headers) := closed_dict r ok.fields
    have ht : ∀ H, ({ r with headers := H } : Resp).transferLength = .ok ({ r with headers := H }, ⟨false, some 0, none, 0, false⟩) := by
      intro H
      unfold Resp.transferLength
      rw [if_pos hs, if_neg]
      rcases hbl with h | h <;> simp [h]
    refine ⟨_, _, send_eq ok (ht r.headers) (by simp) (ht (r.closed r.headers)) rfl (wire := []) rfl,
      sees_of D (fun n _ _ h => cl _ n h) (fun hk => closed_close _ hk), ?_⟩
    exact are_sent ok hi D (cl _ _ l6) (.raw []) (.inl ⟨[], rfl, by rw [C52_no_body _ _ _ hs]; rfl⟩)
  | empty hs hb =>
    have hs' : ¬ (r.status / 100 = 1 ∨ r.status = 204 ∨ r.status = 304) := fun h => hs (by rcases h with h | h | h <;> simp [h])
    have hh : r.head = false := by cases h : r.head <;> simp_all
    have ht : ∀ H, ({ r with headers := H } : Resp).transferLength =
        .ok ({ r with headers := setHeader H sContentLength [48] false }, ⟨false, some 0, none, 0, false⟩) := by
      intro H
      rw [transferLength_rest (r := { r with headers := H }) ok.req ok.version hs]
      unfold Resp.transferLength.rest
      rw [if_pos hb]
    have D1 : FieldDict (setHeader r.headers sContentLength [48] false) := ok.fields.set fieldName_cl fv0
    have D2 := closed_dict r D1
    have D : FieldDict (setHeader (r.closed (setHeader r.headers sContentLength [48] false)) sContentLength [48] false) :=
      D2.set fieldName_cl fv0
    have hg : ∀ n, lowerBytes n ≠ lowerBytes sContentLength → lowerBytes n ≠ lowerBytes sConnection →
        getHeader (setHeader (r.closed (setHeader r.headers sContentLength [48] false)) sContentLength [48] false) n = getHeader r.headers n := by
      intro n h1 h2
      rw [getHeader_set, if_neg h1, cl _ n h2, getHeader_set, if_neg h1]
    refine ⟨_, _, send_eq ok (ht r.headers) (by simp) (ht _) rfl (wire := []) rfl,
      sees_of D (fun n _ h1 h2 => hg n h1 h2) (fun hk => ?_), ?_⟩
    · rw [getHeader_set, if_neg (Ne.symm l3)]; exact closed_close _ hk
    · refine are_sent ok hi D (hg _ l4 l6) (.raw []) (.inl ⟨[], rfl, ?_⟩)
      rw [hh]
      exact C52_length _ _ hs' 0 (by rw [hg _ l1 l2, ok.noTE]) (by
        rw [getHeader_set, if_pos rfl]
        rw [fv0.stripped, dec0])
  | stream s hs hb hbl hcl =>
    have hs' : ¬ (r.status / 100 = 1 ∨ r.status = 204 ∨ r.status = 304) := fun h => hs (by rcases h with h | h | h <;> simp [h])
    have hh : r.head = false := by cases h : r.head <;> simp_all
    have hbn : r.body ≠ none := by simp [hb]
    have D1 : FieldDict (setHeader r.headers sTransferEncoding chunkedToken false) := ok.fields.set fieldName_te fieldValue_chunked
    have D := closed_dict r D1
    have ht1 : r.transferLength = .ok ({ r with headers := setHeader r.headers sTransferEncoding chunkedToken false }, ⟨true, none, r.body, 0, false⟩) := by
      rw [transferLength_rest ok.req ok.version hs]
      unfold Resp.transferLength.rest
      rw [if_neg hbn, messageLength_len ok.send ok.noTE none (getContentLength_none hcl)]
      unfold Resp.byLength
      simp only [hbl, hbn, if_false, ok.send, Bool.false_eq_true]
    have hte : getHeader (r.closed (setHeader r.headers sTransferEncoding chunkedToken false)) sTransferEncoding = some chunkedToken := by
      rw [cl _ _ l2, getHeader_set, if_pos rfl, fieldValue_chunked.stripped]
    have hg : ∀ n, lowerBytes n ≠ lowerBytes sTransferEncoding → lowerBytes n ≠ lowerBytes sConnection →
        getHeader (r.closed (setHeader r.headers sTransferEncoding chunkedToken false)) n = getHeader r.headers n := by
      intro n h1 h2
      rw [cl _ n h2, getHeader_set, if_neg h1]
    have ht2 : ({ r with headers := r.closed (setHeader r.headers sTransferEncoding chunkedToken false) } : Resp).transferLength =
        .ok ({ r with headers := r.closed (setHeader r.headers sTransferEncoding chunkedToken false) }, ⟨true, none, r.body, 0, false⟩) := by
      rw [transferLength_rest (r := { r with headers := r.closed (setHeader r.headers sTransferEncoding chunkedToken false) }) ok.req ok.version hs]
      unfold Resp.transferLength.rest
      rw [if_neg hbn, messageLength_chunked (r := { r with headers := r.closed (setHeader r.headers sTransferEncoding chunkedToken false) }) ok.send hte (by rw [hg _ (Ne.symm l1) l3]; exact hcl)]
    obtain ⟨cs, e1, e2, e3⟩ := sendLoop_chunked (s.data.length + s.reads.length + 3) ⟨true, none, r.body, 0, false⟩ s rfl rfl hb (by omega)
    refine ⟨_, _, send_eq ok ht1 (by simp) ht2 (by rw [hb]) e1, sees_of D (fun n h1 _ h2 => hg n h1 h2) (fun hk => closed_close _ hk), ?_⟩
    have := are_sent ok hi D (hg _ l5 l6) (.chunked cs (hexStr 0) []) (.inr ⟨cs, rfl, by rw [hh]; exact C52_chunked _ _ hs' hte, e3⟩)
    rw [Body.data, e2] at this
    simpa [Body.wire, block] using this
  | known s hs hb hbl hcl =>
    have hs' : ¬ (r.status / 100 = 1 ∨ r.status = 204 ∨ r.status = 304) := fun h => hs (by rcases h with h | h | h <;> simp [h])
    have hh : r.head = false := by cases h : r.head <;> simp_all
    have hbn : r.body ≠ none := by simp [hb]
    -- the first call gives fields with the length
    obtain ⟨H, D1, ht1, hg1, hc1⟩ : ∃ H, FieldDict H ∧
        r.transferLength = .ok ({ r with headers := H }, ⟨false, some (s.data.length : Int), r.body, 0, false⟩) ∧
        (∀ n, lowerBytes n ≠ lowerBytes sContentLength → getHeader H n = getHeader r.headers n) ∧
        getHeader H sContentLength = some (decStr s.data.length) := by
      rcases hcl with hcl | hcl
      · refine ⟨_, ok.fields.set fieldName_cl (fieldValue_decStr s.data.length), ?_, fun n hn => by rw [getHeader_set, if_neg hn],
          by rw [getHeader_set, if_pos rfl, strip_decStr]⟩
        rw [transferLength_rest ok.req ok.version hs]
        unfold Resp.transferLength.rest
        rw [if_neg hbn, messageLength_len ok.send ok.noTE none (getContentLength_none hcl)]
        unfold Resp.byLength
        simp only [hbl]
      · refine ⟨r.headers, ok.fields, ?_, fun _ _ => rfl, hcl⟩
        rw [transferLength_rest ok.req ok.version hs]
        unfold Resp.transferLength.rest
        rw [if_neg hbn, messageLength_len ok.send ok.noTE _ (getContentLength_some hcl)]
        unfold Resp.byLength
        simp only [hbl, ne_eq, not_true_eq_false, if_false]
        rw [← hbl]
    have D := closed_dict r D1
    have hc2 : getHeader (r.closed H) sContentLength = some (decStr s.data.length) := by rw [cl _ _ l3]; exact hc1
    have hn2 : getHeader (r.closed H) sTransferEncoding = none := by rw [cl _ _ l2, hg1 _ l1]; exact ok.noTE
    have ht2 : ({ r with headers := r.closed H } : Resp).transferLength =
        .ok ({ r with headers := r.closed H }, ⟨false, some (s.data.length : Int), r.body, 0, false⟩) := by
      rw [transferLength_rest (r := { r with headers := r.closed H }) ok.req ok.version hs]
      unfold Resp.transferLength.rest
      rw [if_neg hbn, messageLength_len (r := { r with headers := r.closed H }) ok.send hn2 _ (getContentLength_some hc2)]
      unfold Resp.byLength
      simp only [hbl, ne_eq, not_true_eq_false, if_false]
    have hlp := sendLoop_length (s.data.length + s.reads.length + 3) ⟨false, some (s.data.length : Int), r.body, 0, false⟩ s s.data.length
      rfl rfl hb rfl (by simp) (by simp) (by omega)
    simp only [Nat.sub_zero, List.take_length] at hlp
    refine ⟨_, _, send_eq ok ht1 (by simp) ht2 (by rw [hb]) hlp,
      sees_of D (fun n _ h1 h2 => by rw [cl _ n h2, hg1 n h1]) (fun hk => closed_close _ hk), ?_⟩
    exact are_sent ok hi D (by rw [cl _ _ l6, hg1 _ l4]) (.raw s.data) (.inl ⟨_, rfl, by rw [hh]; exact C52_length _ _ hs' _ hn2 hc2⟩)
  | declared s n hs hb hbl hcl hn =>
    have hs' : ¬ (r.status / 100 = 1 ∨ r.status = 204 ∨ r.status = 304) := fun h => hs (by rcases h with h | h | h <;> simp [h])
    have hh : r.head = false := by cases h : r.head <;> simp_all
    have hbn : r.body ≠ none := by simp [hb]
    have D := closed_dict r ok.fields
    have ht : ∀ H, getHeader H sContentLength = some (decStr n) → getHeader H sTransferEncoding = none →
        ({ r with headers := H } : Resp).transferLength = .ok ({ r with headers := H }, ⟨false, some (n : Int), r.body, 0, false⟩) := by
      intro H g1 g2
      rw [transferLength_rest (r := { r with headers := H }) ok.req ok.version hs]
      unfold Resp.transferLength.rest
      rw [if_neg hbn, messageLength_len (r := { r with headers := H }) ok.send g2 _ (getContentLength_some g1)]
      unfold Resp.byLength
      simp only [hbl]
    have hc2 : getHeader (r.closed r.headers) sContentLength = some (decStr n) := by rw [cl _ _ l3]; exact hcl
    have hn2 : getHeader (r.closed r.headers) sTransferEncoding = none := by rw [cl _ _ l2]; exact ok.noTE
    have hlp := sendLoop_length (s.data.length + s.reads.length + 3) ⟨false, some (n : Int), r.body, 0, false⟩ s n
      rfl rfl hb rfl (by simp) (by simpa using hn) (by omega)
    simp only [Nat.sub_zero] at hlp
    refine ⟨_, _, send_eq ok (ht r.headers hcl ok.noTE) (by simp) (ht _ hc2 hn2) (by rw [hb]) hlp,
      sees_of D (fun n _ h1 h2 => cl _ n h2) (fun hk => closed_close _ hk), ?_⟩
    exact are_sent ok hi D (cl _ _ l6) (.raw (s.data.take n)) (.inl ⟨_, rfl, by
      rw [hh, List.length_take, Nat.min_eq_left hn]; exact C52_length _ _ hs' _ hn2 hc2⟩)

/-- **C53**, end to end: the client receives what the application of the server has given to the response, however the stream of the
body blocks at the server, however the bytes are cut on the way, and however the stream of the client blocks. -/
theorem C53_end_to_end {r : Resp} (ok : r.Ok) (hi : ¬ Interim r.status) {body : Bytes} (hb : r.Carries body) {m : Msg} (F : Fresh m)
    (hm : m.head = r.head) (hfl : m.flushes = []) :
    ∃ bs, r.send = .ok bs ∧ ∀ ds : List Bytes, (∀ d ∈ ds, d ≠ []) → ds.flatten = bs →
      ∃ m' o, Conn.onReads ⟨[], some m, [], []⟩ ds = .ok ⟨[], none, [], [m']⟩ ∧ m'.Is o ∧ r.Sees body o := by
  obtain ⟨bs, o, h1, h2, h3⟩ := C53_sent ok hi hb
  refine ⟨bs, h1, fun ds hne he => ?_⟩
  obtain ⟨m', g1, g2⟩ := C50_received (hm ▸ h3) F (fun _ => hfl) ds hne he
  exact ⟨m', o, g1, g2, h2⟩

/-- **C53** needs enough data: a stream that ends before the announced length is not noticed; the response is cut short and the
connection is kept open (messages.py:670-677). -/
theorem C53_short_violation : ∃ (r : Resp) (s : Source), r.Ok ∧ r.body = some s ∧ s.data = [7] ∧ r.keepAlive = true ∧
    r.startSending = .ok r ∧ getHeader r.headers sContentLength = some [50] ∧
    r.send = .ok (r.sendStart ++ sendHeader r.headers ++ [7]) := by
  refine ⟨⟨false, ⟨1, 1⟩, ⟨1, 1⟩, ⟨1, 1⟩, 200, [79, 75], hCL, some ⟨[7], []⟩, none, true⟩, ⟨[7], []⟩,
    ⟨rfl, rfl, rfl, ⟨[[79, 75]], by simp, by simp; decide, rfl⟩, ⟨by decide +kernel, by decide +kernel, ?_, by decide +kernel, ?_⟩, by decide +kernel, by decide +kernel⟩,
    rfl, rfl, rfl, by decide +kernel, by decide +kernel, by decide +kernel⟩
  · intro e he
    simp only [hCL, List.mem_singleton] at he
    subst he; exact fieldName_cl
  · intro e he v hv
    simp only [hCL, List.mem_singleton] at he
    subst he
    simp only [List.mem_singleton] at hv
    subst hv; exact ⟨noCRLF_of_not_mem (by decide), by decide +kernel⟩

/-- A response with a stream that blocks and returns single bytes. -/
example : ∃ r : Resp, r.Ok ∧ r.Carries [1, 2, 3] ∧ ¬ Interim r.status :=
  ⟨⟨false, ⟨1, 1⟩, ⟨1, 1⟩, ⟨1, 1⟩, 404, [78, 111, 116, 32, 70, 111, 117, 110, 100], [], some ⟨[1, 2, 3], [some 0, none]⟩, none, false⟩,
    ⟨rfl, rfl, rfl, ⟨[[78, 111, 116], [70, 111, 117, 110, 100]], by simp, by
      intro t ht
      simp only [List.mem_cons, List.not_mem_nil, or_false] at ht
      rcases ht with rfl | rfl <;> exact ⟨by decide, by decide⟩, rfl⟩, ⟨by decide, by simp, by simp, by simp, by simp⟩, by decide +kernel, by decide +kernel⟩,
    .stream ⟨[1, 2, 3], [some 0, none]⟩ (by decide) rfl rfl (by decide +kernel), by unfold Interim; decide⟩

end Verif.Http

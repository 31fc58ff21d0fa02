import Verif.Http.Message
/-!
# Receiving a message

The specification of a response on the wire, and the invariant that relates a response that is being received to the bytes
of the message that have not been passed to it yet.
-/
namespace Verif.Http

/-! ## Specification: a response on the wire -/

/-- The line has no CR LF in it. -/
def NoCRLF (l : Bytes) : Prop := ∀ a b, l ≠ a ++ 13 :: 10 :: b

/-- Lines that end in CR LF, and an empty line. -/
def block (ls : List Bytes) : Bytes := (ls.map (· ++ CRLF)).flatten ++ CRLF

/-- A chunk: the line with the size, which may have extensions, and the data. -/
abbrev ChunkPart := Bytes × Bytes

/-- The bytes of chunks. -/
def chunksWire (cs : List ChunkPart) : Bytes := (cs.map fun c => c.1 ++ CRLF ++ c.2 ++ CRLF).flatten

/-- The body of a response: as many bytes as announced, or chunks, the line of the last chunk and trailer lines. -/
inductive Body where
  | raw (b : Bytes)
  | chunked (cs : List ChunkPart) (last : Bytes) (trailer : List Bytes)
  deriving DecidableEq, Repr

/-- The bytes of a body. -/
def Body.wire : Body → Bytes
  | .raw b => b
  | .chunked cs last trailer => chunksWire cs ++ last ++ CRLF ++ block trailer

/-- The data of a body. -/
def Body.data : Body → Bytes
  | .raw b => b
  | .chunked cs _ _ => (cs.map (·.2)).flatten

/-- A response on the wire: the status line, the header lines and the body. -/
structure Wire where
  start : Bytes
  lines : List Bytes
  body : Body
  deriving DecidableEq, Repr

/-- The bytes of a response. -/
def Wire.bytes (w : Wire) : Bytes := w.start ++ CRLF ++ block w.lines ++ w.body.wire

/-- The line of a chunk of size `n`. -/
def ChunkLine (l : Bytes) (n : Nat) : Prop := NoCRLF l ∧ ∃ c, Chunk.fromStr l = .ok c ∧ c.size = n

/-- Header lines: not empty, without CR LF. -/
def Lines (ls : List Bytes) : Prop := ∀ l ∈ ls, l ≠ [] ∧ NoCRLF l

/-- The header lines give the fields `h`. -/
def Fields (h0 : Headers) (ls : List Bytes) (h : Headers) : Prop :=
  recvHeaders (h0, none) (ls.map (· ++ CRLF) ++ [CRLF]) = .ok (h, none)

/-- The response is framed correctly: its status line is `st`, its header fields are `h`, and the body is delimited as they
say.  With trailer fields, `h'` are all the fields. -/
structure Framed (head : Bool) (w : Wire) (st : Start) (h h' : Headers) : Prop where
  start : NoCRLF w.start
  startNe : w.start ≠ []
  status : recvStart (w.start ++ CRLF) = .ok st
  lines : Lines w.lines
  fields : Fields [] w.lines h
  handled : handleHeaders h st.version = .ok ()
  raw : ∀ b, w.body = .raw b → responseFrame head st.status h = .ok ⟨false, some (b.length : Int), none⟩ ∧ h' = h
  chunked : ∀ cs last tr, w.body = .chunked cs last tr → responseFrame head st.status h = .ok ⟨true, none, none⟩ ∧
    (∀ c ∈ cs, c.2 ≠ [] ∧ ChunkLine c.1 c.2.length) ∧ ChunkLine last 0 ∧ Lines tr ∧ Fields h tr h'

/-! ## The invariant -/

/-- The response `m` is receiving `w` and the bytes `rest` have not been passed to it. -/
inductive Rem (w : Wire) (st : Start) (h h' : Headers) : Msg → Bytes → Prop where
  | start (m : Msg) : m.mode = .start → m.headers = [] → m.curr = none → m.buf = [] → m.body = [] →
      ((∀ b, w.body ≠ .raw b) → m.flushes = []) → Rem w st h h' m w.bytes
  | header (m : Msg) : m.mode = .header → m.start = some st → m.headers = [] → m.curr = none → m.buf = [] → m.body = [] →
      ((∀ b, w.body ≠ .raw b) → m.flushes = []) → Rem w st h h' m (block w.lines ++ w.body.wire)
  | raw (m : Msg) (b d : Bytes) : w.body = .raw b → m.mode = .data ∨ m.mode = .blocked → m.start = some st → m.headers = h → m.curr = none →
      m.chunked = false → m.bound = none → m.len = some (b.length : Int) → m.pos + d.length = b.length → b ≠ [] →
      m.body ++ m.buf ++ d = b → (m.mode = .data → m.buf = [] ∧ d ≠ []) → Rem w st h h' m d
  | chunkHead (m : Msg) (cs0 cs : List ChunkPart) (last : Bytes) (tr : List Bytes) : w.body = .chunked (cs0 ++ cs) last tr →
      m.mode = .chunkHead → m.start = some st → m.headers = h → m.curr = none → m.chunked = true → m.bound = none → m.buf = [] →
      m.body = (cs0.map (·.2)).flatten → m.flushes = [] → Rem w st h h' m (chunksWire cs ++ last ++ CRLF ++ block tr)
  | chunk (m : Msg) (cs0 : List ChunkPart) (c : ChunkPart) (cs : List ChunkPart) (last : Bytes) (tr : List Bytes) (d : Bytes) :
      w.body = .chunked (cs0 ++ c :: cs) last tr →
      m.mode = .data ∨ m.mode = .blocked ∨ m.mode = .chunkEnd → m.start = some st → m.headers = h → m.curr = none → m.chunked = true → m.bound = none →
      m.len = some (c.2.length : Int) → m.pos + d.length = c.2.length → m.body ++ m.buf ++ d = (cs0.map (·.2)).flatten ++ c.2 →
      (m.mode = .data → m.buf = [] ∧ d ≠ []) → (m.mode = .chunkEnd → m.buf = [] ∧ d = []) → m.flushes = [] →
      Rem w st h h' m (d ++ CRLF ++ chunksWire cs ++ last ++ CRLF ++ block tr)
  | trailer (m : Msg) (cs : List ChunkPart) (last : Bytes) (tr : List Bytes) : w.body = .chunked cs last tr →
      m.mode = .trailer → m.start = some st → m.headers = h → m.curr = none → m.buf = [] → m.body = (cs.map (·.2)).flatten → m.flushes = [] →
      Rem w st h h' m (block tr)
  | done (m : Msg) : m.mode = .done → m.start = some st → m.headers = h' → m.curr = none → m.buf = [] → m.body = w.body.data → Rem w st h h' m []

/-- What the loop of the connection still has to wait for. -/
def Msg.cost (m : Msg) : Nat := 2 * (m.writes.length + m.flushes.length) + if m.mode = .blocked then 1 else 0

theorem writeLoop_spec : ∀ (ws : List (Option Nat)) (buf body : Bytes),
    (writeLoop ws buf body).2.1 ++ (writeLoop ws buf body).1 = body ++ buf ∧
    (writeLoop ws buf body).2.2.length ≤ ws.length ∧
    ((writeLoop ws buf body).1 ≠ [] → (writeLoop ws buf body).2.2.length < ws.length) := by
  intro ws
  induction ws with
  | nil => intro buf body; cases buf <;> simp [writeLoop]
  | cons o ws ih =>
    intro buf body
    cases buf with
    | nil => simp [writeLoop]
    | cons b r =>
      cases o with
      | none => simp [writeLoop]
      | some k =>
        rw [writeLoop]
        · have := ih ((b :: r).drop (k + 1)) (body ++ (b :: r).take (k + 1))
          refine ⟨?_, by rw [List.length_cons]; omega, fun h => by have := this.2.2 h; rw [List.length_cons]; omega⟩
          rw [this.1]; simp
        · simp

theorem noCRLF_ne {l : Bytes} (h : l ≠ []) : l ++ CRLF ≠ CRLF := by
  intro e
  have := congrArg List.length e
  simp only [List.length_append] at this
  exact h (List.length_eq_zero_iff.mp (by omega))

theorem take_crlf (l : Bytes) : (l ++ CRLF).take ((l ++ CRLF).length - 2) = l := by simp [CRLF]

/-- What a call of `recvBuffered` does. -/
theorem recvBuffered_spec (m : Msg) : ∃ buf body ws, body ++ buf = m.body ++ m.buf ∧ ws.length ≤ m.writes.length ∧
    (buf ≠ [] → ws.length < m.writes.length) ∧
    m.recvBuffered = (if buf ≠ [] then { m with buf := buf, body := body, writes := ws, mode := .blocked }
      else if m.chunked then
        if (m.pos : Int) ≥ m.len.getD 0 then { m with buf := [], body := body, writes := ws, mode := .chunkEnd }
        else { m with buf := [], body := body, writes := ws, mode := .data }
      else match m.len with
        | none => { m with buf := [], body := body, writes := ws, mode := .data }
        | some n => if (m.pos : Int) ≥ n then { m with buf := [], body := body, writes := ws }.flush
          else { m with buf := [], body := body, writes := ws, mode := .data }) := by
  obtain ⟨h1, h2, h3⟩ := writeLoop_spec m.writes m.buf m.body
  refine ⟨(writeLoop m.writes m.buf m.body).1, (writeLoop m.writes m.buf m.body).2.1, (writeLoop m.writes m.buf m.body).2.2, h1, h2, h3, ?_⟩
  unfold Msg.recvBuffered
  dsimp only
  by_cases hb : (writeLoop m.writes m.buf m.body).1 = []
  · simp only [hb, ne_eq, not_true_eq_false, if_false]
    rfl
  · simp only [hb, ne_eq, not_false_eq_true, if_true]

variable {w : Wire} {st : Start} {h h' : Headers}

/-- After data of a body of a given length. -/
theorem raw_buffered {m : Msg} {b d : Bytes} (hw : w.body = .raw b) (hst : m.start = some st) (hh : m.headers = h) (hc : m.curr = none)
    (hk : m.chunked = false) (hbd : m.bound = none) (hl : m.len = some (b.length : Int)) (hp : m.pos + d.length = b.length) (hne : b ≠ [])
    (hb : m.body ++ m.buf ++ d = b) (hh' : h' = h) :
    Rem w st h h' m.recvBuffered d ∧ m.recvBuffered.cost ≤ 2 * (m.writes.length + m.flushes.length) + 1 ∧
    (m.mode = .blocked → m.recvBuffered.cost < m.cost) := by
  obtain ⟨buf, body, ws, e1, e2, e3, e4⟩ := recvBuffered_spec m
  rw [e4]
  by_cases hbuf : buf = []
  · rw [if_neg (by simp [hbuf]), hk, if_neg (by simp), hl]
    dsimp only
    subst hbuf
    rw [List.append_nil] at e1
    by_cases hd : d = []
    · rw [if_pos (by subst hd; simp at hp; omega)]
      subst hd
      unfold Msg.flush
      dsimp only
      cases hf : m.flushes with
      | nil =>
        refine ⟨.done _ rfl hst (hh'.symm ▸ hh) hc rfl ?_, ?_, ?_⟩
        · simp only [hw, Body.data]; rw [e1, ← hb]; simp
        · simp [Msg.cost]; omega
        · intro hm; simp [Msg.cost, hm, hf]; omega
      | cons x fs =>
        cases x
        · refine ⟨.done _ rfl hst (hh'.symm ▸ hh) hc rfl ?_, ?_, ?_⟩
          · simp only [hw, Body.data]; rw [if_neg (by simp)]; dsimp only; rw [e1, ← hb]; simp
          · simp [Msg.cost]; omega
          · intro hm; simp [Msg.cost, hm, hf]; omega
        · dsimp only; rw [if_pos rfl]
          refine ⟨.raw _ b [] hw (.inr rfl) hst hh hc (by first | exact hk | rfl) hbd (by first | exact hl | rfl) hp hne ?_ (by intro h; cases h), ?_, ?_⟩
          · simp only [List.append_nil]; rw [e1, ← hb]; simp
          · simp [Msg.cost]; omega
          · intro hm; simp [Msg.cost, hm, hf]; omega
    · have : d.length ≠ 0 := by simpa using hd
      rw [if_neg (by omega)]
      refine ⟨.raw _ b d hw (.inl rfl) hst hh hc (by first | exact hk | rfl) hbd (by first | exact hl | rfl) hp hne ?_ (fun _ => ⟨rfl, hd⟩), ?_, ?_⟩
      · simp only [List.append_nil]; rw [e1, ← hb]
      · simp [Msg.cost]; omega
      · intro hm; simp [Msg.cost, hm]; omega
  · rw [if_pos hbuf]
    refine ⟨.raw _ b d hw (.inr rfl) hst hh hc (by first | exact hk | rfl) hbd hl hp hne ?_ (by intro h; cases h), ?_, ?_⟩
    · dsimp only; rw [e1, hb]
    · have := e3 hbuf; simp [Msg.cost]; omega
    · intro hm; have := e3 hbuf; simp [Msg.cost, hm]; omega

/-- After data of a chunk. -/
theorem chunk_buffered {m : Msg} {cs0 cs : List ChunkPart} {c : ChunkPart} {last : Bytes} {tr : List Bytes} {d : Bytes}
    (hw : w.body = .chunked (cs0 ++ c :: cs) last tr) (hst : m.start = some st) (hh : m.headers = h) (hc : m.curr = none)
    (hk : m.chunked = true) (hbd : m.bound = none) (hl : m.len = some (c.2.length : Int)) (hp : m.pos + d.length = c.2.length)
    (hb : m.body ++ m.buf ++ d = (cs0.map (·.2)).flatten ++ c.2) (hf : m.flushes = []) :
    Rem w st h h' m.recvBuffered (d ++ CRLF ++ chunksWire cs ++ last ++ CRLF ++ block tr) ∧
    m.recvBuffered.cost ≤ 2 * (m.writes.length + m.flushes.length) + 1 ∧ (m.mode = .blocked → m.recvBuffered.cost < m.cost) := by
  obtain ⟨buf, body, ws, e1, e2, e3, e4⟩ := recvBuffered_spec m
  rw [e4]
  by_cases hbuf : buf = []
  · rw [if_neg (by simp [hbuf]), if_pos hk, hl]
    dsimp only [Option.getD]
    subst hbuf
    rw [List.append_nil] at e1
    by_cases hd : d = []
    · rw [if_pos (by subst hd; simp at hp; omega)]
      refine ⟨.chunk _ cs0 c cs last tr d hw (.inr (.inr rfl)) hst hh hc hk hbd (by first | exact hl | rfl) hp ?_ (by intro h; cases h) (fun _ => ⟨rfl, hd⟩) hf, ?_, ?_⟩
      · simp only [List.append_nil]; rw [e1, ← hb]
      · simp [Msg.cost]; omega
      · intro hm; simp [Msg.cost, hm]; omega
    · have : d.length ≠ 0 := by simpa using hd
      rw [if_neg (by omega)]
      refine ⟨.chunk _ cs0 c cs last tr d hw (.inl rfl) hst hh hc hk hbd (by first | exact hl | rfl) hp ?_ (fun _ => ⟨rfl, hd⟩) (by intro h; cases h) hf, ?_, ?_⟩
      · simp only [List.append_nil]; rw [e1, ← hb]
      · simp [Msg.cost]; omega
      · intro hm; simp [Msg.cost, hm]; omega
  · rw [if_pos hbuf]
    refine ⟨.chunk _ cs0 c cs last tr d hw (.inr (.inl rfl)) hst hh hc hk hbd hl hp ?_ (by intro h; cases h) (by intro h; cases h) hf, ?_, ?_⟩
    · dsimp only; rw [e1, hb]
    · have := e3 hbuf; simp [Msg.cost]; omega
    · intro hm; have := e3 hbuf; simp [Msg.cost, hm]; omega

/-- What `recvData` does when the length is known and the data are not too long. -/
theorem recvData_some {m : Msg} {n : Nat} {d : Bytes} (hbd : m.bound = none) (hl : m.len = some (n : Int)) (hn : n ≠ 0) (hp : m.pos + d.length ≤ n) :
    m.recvData d = { m with pos := m.pos + d.length, buf := d }.recvBuffered := by
  unfold Msg.recvData Msg.seekBound
  simp only [hbd, hl]
  rw [if_pos (by simpa using hn), if_neg (by omega)]

/-- What a response that is being received asks for is there, and it goes on with the rest. -/
theorem Rem.step {head : Bool} (G : Framed head w st h h') {m : Msg} (hm : m.head = head) {rest : Bytes} (R : Rem w st h h' m rest) :
    (m.recvMode = none ∧ m.mode = .done ∧ rest = [] ∧ m.start = some st ∧ m.headers = h' ∧ m.body = w.body.data) ∨
    (m.recvMode = some (-2) ∧ ∃ l rest', rest = l ++ CRLF ++ rest' ∧ NoCRLF l ∧ ∃ m', m.recvCore (.bytes (l ++ CRLF)) = .ok m' ∧
      Rem w st h h' m' rest' ∧ m'.head = head ∧ m'.cost ≤ m.cost + 1) ∨
    (m.recvMode = some (-3) ∧ ∃ ls rest', rest = block ls ++ rest' ∧ Lines ls ∧ ∃ m', m.recvCore (.lines (ls.map (· ++ CRLF) ++ [CRLF])) = .ok m' ∧
      Rem w st h h' m' rest' ∧ m'.head = head ∧ m'.cost ≤ m.cost + 1) ∨
    (∃ n : Nat, m.recvMode = some (n : Int) ∧ 0 < n ∧ n ≤ rest.length ∧ ∀ d e, rest = d ++ e → d ≠ [] → d.length ≤ n →
      ∃ m', m.recvCore (.bytes d) = .ok m' ∧ Rem w st h h' m' e ∧ m'.head = head ∧ m'.cost ≤ m.cost + 1) ∨
    (m.recvMode = some 0 ∧ ∃ m', m.recvCore .none = .ok m' ∧ Rem w st h h' m' rest ∧ m'.head = head ∧ m'.cost < m.cost) := by
  have hbh : ∀ m : Msg, m.recvBuffered.head = m.head := by
    intro m
    obtain ⟨buf, body, ws, _, _, _, e4⟩ := recvBuffered_spec m
    rw [e4]
    unfold Msg.flush
    (repeat' split) <;> rfl
  cases R with
  | start h1 h2 h3 h4 h5 h6 =>
    refine .inr (.inl ⟨by simp [Msg.recvMode, h1], w.start, block w.lines ++ w.body.wire, by simp [Wire.bytes], G.start, ?_⟩)
    refine ⟨{ m with start := some st, mode := .header }, ?_, .header _ rfl rfl h2 h3 h4 h5 h6, hm, by simp [Msg.cost]; omega⟩
    unfold Msg.recvCore
    simp only [h1]
    rw [if_neg (noCRLF_ne G.startNe), G.status]
    rfl
  | header h1 hs h2 h3 h4 h5 h6 =>
    refine .inr (.inr (.inl ⟨by simp [Msg.recvMode, h1], w.lines, w.body.wire, rfl, G.lines, ?_⟩))
    have hf := G.fields
    unfold Fields at hf
    have key : ∀ f, responseFrame head st.status h = .ok f → m.recvCore (.lines (w.lines.map (· ++ CRLF) ++ [CRLF])) =
        .ok (({ m with headers := h, curr := none } : Msg).setFrame f) := by
      intro f hfr
      have hsf : ∀ x : Msg, (x.setFrame f).headers = x.headers := by
        intro x; unfold Msg.setFrame; dsimp only; (repeat' split) <;> rfl
      unfold Msg.recvCore
      simp only [h1, h2, h3, hs, hf, hm, hfr, bind, Except.bind, hsf, G.handled]
      rfl
    cases hb : w.body with
    | raw b =>
      obtain ⟨hfr, hhh⟩ := G.raw b hb
      refine ⟨_, key _ hfr, ?_⟩
      unfold Msg.setFrame
      dsimp only
      rw [if_neg (by simp)]
      by_cases hb0 : b = []
      · rw [if_neg (by simp [hb0])]
        subst hb0
        exact ⟨.done _ rfl hs hhh.symm rfl h4 (by simp [hb, Body.data, h5]), hm, by simp [Msg.cost]; omega⟩
      · rw [if_pos (by simpa using hb0)]
        exact ⟨.raw _ b b hb (.inl rfl) hs rfl rfl rfl rfl rfl (by simp) hb0 (by simp [h4, h5]) (fun _ => ⟨h4, hb0⟩), hm, by simp [Msg.cost]; omega⟩
    | chunked cs last tr =>
      obtain ⟨hfr, _⟩ := G.chunked cs last tr hb
      refine ⟨_, key _ hfr, ?_⟩
      unfold Msg.setFrame
      dsimp only
      rw [if_pos rfl]
      exact ⟨.chunkHead _ [] cs last tr hb rfl hs rfl rfl rfl rfl h4 (by simp [h5]) (h6 (by simp [hb])), hm, by simp [Msg.cost]; omega⟩
  | raw b d hw hmode hst hh hc hk hbd hl hp hne hb hd =>
    obtain ⟨_, hhh⟩ := G.raw b hw
    rcases hmode with hmode | hmode
    · obtain ⟨hbuf, hdne⟩ := hd hmode
      have hb0 : b.length ≠ 0 := by simpa using hne
      have hd0 : rest.length ≠ 0 := by simpa using hdne
      refine .inr (.inr (.inr (.inl ⟨rest.length, ?_, by omega, Nat.le_refl _, ?_⟩)))
      · simp only [Msg.recvMode, hmode, hl, if_true]
        rw [if_pos (by simpa using hne)]
        congr 1; omega
      · intro x e hxe hx hxl
        subst hxe
        simp only [List.length_append] at hp
        have hre : m.recvCore (.bytes x) = .ok ({ m with pos := m.pos + x.length, buf := x } : Msg).recvBuffered := by
          unfold Msg.recvCore
          simp only [hmode]
          rw [if_pos hx, recvData_some hbd hl hb0 (by omega), hmode]
        obtain ⟨r1, r2, _⟩ := raw_buffered (w := w) (st := st) (h := h) (h' := h') (m := { m with pos := m.pos + x.length, buf := x }) (d := e) hw hst hh hc hk hbd hl
          (by dsimp only; omega) hne (by dsimp only; rw [← hb, hbuf]; simp) hhh
        exact ⟨_, hre, r1, by rw [hbh]; exact hm, Nat.le_trans r2 (by simp only [Msg.cost]; omega)⟩
    · refine .inr (.inr (.inr (.inr ⟨by simp [Msg.recvMode, hmode], m.recvBuffered, ?_, ?_⟩)))
      · unfold Msg.recvCore; simp only [hmode]
      · obtain ⟨r1, _, r3⟩ := raw_buffered (w := w) (st := st) (h := h) (h' := h') (m := m) (d := rest) hw hst hh hc hk hbd hl hp hne hb hhh
        exact ⟨r1, by rw [hbh]; exact hm, r3 hmode⟩
  | chunkHead cs0 cs last tr hw hmode hst hh hc hk hbd hbuf hb hf =>
    obtain ⟨_, gc, gl, gt, gf⟩ := G.chunked _ last tr hw
    refine .inr (.inl ⟨by simp [Msg.recvMode, hmode], ?_⟩)
    cases cs with
    | nil =>
      obtain ⟨hl1, c, hc1, hc2⟩ := gl
      refine ⟨last, block tr, by simp [chunksWire], hl1, { m with len := some 0, pos := 0, mode := .trailer }, ?_,
        .trailer _ cs0 last tr (by simpa using hw) rfl hst hh hc hbuf hb hf, hm, by simp [Msg.cost]; omega⟩
      unfold Msg.recvCore
      simp only [hmode]
      rw [take_crlf, hc1]
      simp only [lift, bind, Except.bind, hc2, if_true]
      rfl
    | cons c cs =>
      obtain ⟨hcne, hl1, ck, hc1, hc2⟩ := gc c (by simp)
      have hc0 : c.2.length ≠ 0 := by simpa using hcne
      refine ⟨c.1, c.2 ++ CRLF ++ chunksWire cs ++ last ++ CRLF ++ block tr, by simp [chunksWire], hl1,
        { m with len := some (c.2.length : Int), pos := 0, mode := .data }, ?_,
        .chunk _ cs0 c cs last tr c.2 hw (.inl rfl) hst hh hc hk hbd rfl (by simp) (by simp [hb, hbuf]) (fun _ => ⟨hbuf, hcne⟩) (by intro h; cases h) hf,
        hm, by simp [Msg.cost]; omega⟩
      unfold Msg.recvCore
      simp only [hmode]
      rw [take_crlf, hc1]
      simp only [lift, bind, Except.bind, hc2]
      rw [if_neg hc0]
      rfl
  | chunk cs0 c cs last tr d hw hmode hst hh hc hk hbd hl hp hb hd he hf =>
    obtain ⟨_, gc, gl, gt, gf⟩ := G.chunked _ last tr hw
    have hc0 : c.2.length ≠ 0 := by simpa using (gc c (by simp)).1
    rcases hmode with hmode | hmode | hmode
    · obtain ⟨hbuf, hdne⟩ := hd hmode
      have hd0 : d.length ≠ 0 := by simpa using hdne
      refine .inr (.inr (.inr (.inl ⟨d.length, ?_, by omega, by simp, ?_⟩)))
      · simp only [Msg.recvMode, hmode, hl, if_true]
        rw [if_pos (by omega)]
        congr 1; omega
      · intro x e hxe hx hxl
        obtain ⟨d2, hd2, he2⟩ : ∃ d2, d = x ++ d2 ∧ e = d2 ++ CRLF ++ chunksWire cs ++ last ++ CRLF ++ block tr := by
          have e1 : d ++ (CRLF ++ chunksWire cs ++ last ++ CRLF ++ block tr) = x ++ e := by rw [← hxe]; simp
          have e2 : x = d.take x.length := by
            have := congrArg (List.take x.length) e1
            rw [List.take_append_of_le_length hxl] at this
            simpa using this.symm
          refine ⟨d.drop x.length, by conv => lhs; rw [← List.take_append_drop x.length d, ← e2], ?_⟩
          have := congrArg (List.drop x.length) e1
          rw [List.drop_append_of_le_length hxl] at this
          simpa using this.symm
        subst hd2
        simp only [List.length_append] at hp
        have hre : m.recvCore (.bytes x) = .ok ({ m with pos := m.pos + x.length, buf := x } : Msg).recvBuffered := by
          unfold Msg.recvCore
          simp only [hmode]
          rw [if_pos hx, recvData_some hbd hl hc0 (by omega), hmode]
        obtain ⟨r1, r2, _⟩ := chunk_buffered (w := w) (st := st) (h := h) (h' := h') (m := { m with pos := m.pos + x.length, buf := x }) (d := d2) hw hst hh hc hk hbd hl
          (by dsimp only; omega) (by dsimp only; rw [← hb, hbuf]; simp) hf
        exact ⟨_, hre, he2 ▸ r1, by rw [hbh]; exact hm, Nat.le_trans r2 (by simp only [Msg.cost]; omega)⟩
    · refine .inr (.inr (.inr (.inr ⟨by simp [Msg.recvMode, hmode], m.recvBuffered, ?_, ?_⟩)))
      · unfold Msg.recvCore; simp only [hmode]
      · obtain ⟨r1, _, r3⟩ := chunk_buffered (w := w) (st := st) (h := h) (h' := h') (m := m) (d := d) hw hst hh hc hk hbd hl hp hb hf
        exact ⟨r1, by rw [hbh]; exact hm, r3 hmode⟩
    · obtain ⟨hbuf, hde⟩ := he hmode
      subst hde
      refine .inr (.inl ⟨by simp [Msg.recvMode, hmode], [], chunksWire cs ++ last ++ CRLF ++ block tr, by simp, by intro a b; simp,
        { m with mode := .chunkHead }, ?_, .chunkHead _ (cs0 ++ [c]) cs last tr (by simpa using hw) rfl hst hh hc hk hbd hbuf ?_ hf, hm, by simp [Msg.cost]; omega⟩)
      · unfold Msg.recvCore
        simp only [hmode]
        rw [if_neg (by simp)]
      · simpa [hbuf] using hb
  | trailer cs last tr hw hmode hst hh hc hbuf hb hf =>
    obtain ⟨_, gc, gl, gt, gf⟩ := G.chunked _ last tr hw
    refine .inr (.inr (.inl ⟨by simp [Msg.recvMode, hmode], tr, [], by simp, gt, { m with headers := h', curr := none, mode := .done }, ?_,
      .done _ rfl hst rfl rfl hbuf (by simp [hw, Body.data, hb]), hm, by simp [Msg.cost]; omega⟩))
    unfold Fields at gf
    unfold Msg.recvCore
    simp only [hmode, hh, hc, gf, bind, Except.bind, Msg.flush, hf]
    rfl
  | done h1 h2 h3 h4 h5 h6 => exact .inl ⟨by simp [Msg.recvMode, h1], h1, rfl, h2, h3, h6⟩

theorem recvBuffered_flushes (m : Msg) (h : m.flushes = []) : m.recvBuffered.flushes = [] := by
  obtain ⟨buf, body, ws, _, _, _, e4⟩ := recvBuffered_spec m
  rw [e4]
  unfold Msg.flush
  simp only [h]
  (repeat' split) <;> rfl

theorem recvData_flushes (m : Msg) (d : Bytes) (h : m.flushes = []) : (m.recvData d).flushes = [] := by
  unfold Msg.recvData
  apply recvBuffered_flushes
  have : (m.seekBound d).flushes = m.flushes := by unfold Msg.seekBound; (repeat' split) <;> rfl
  dsimp only
  (repeat' split) <;> (first | exact this.trans h)

theorem setFrame_flushes (m : Msg) (f : Frame) : (m.setFrame f).flushes = m.flushes := by
  unfold Msg.setFrame; dsimp only; (repeat' split) <;> rfl

theorem bind_okF {α β : Type} {x : Except Fail α} {f : α → Except Fail β} {b : β} (h : (x >>= f) = .ok b) :
    ∃ a, x = .ok a ∧ f a = .ok b := by
  cases x with
  | error e => cases h
  | ok a => exact ⟨a, rfl, h⟩

/-- Calls of `recv` use up the results of `flush`. -/
theorem recvCore_flushes {m m' : Msg} {d : Arg} (e : m.recvCore d = .ok m') (h : m.flushes = []) : m'.flushes = [] := by
  unfold Msg.recvCore at e
  split at e
  · split at e
    · cases e; exact h
    · obtain ⟨s, _, e⟩ := bind_okF e
      cases e; exact h
  · obtain ⟨s, _, e⟩ := bind_okF e
    obtain ⟨st, _, e⟩ := bind_okF e
    obtain ⟨f, _, e⟩ := bind_okF e
    obtain ⟨_, _, e⟩ := bind_okF e
    cases e
    rw [setFrame_flushes]; exact h
  · obtain ⟨c, _, e⟩ := bind_okF e
    split at e <;> (cases e; exact h)
  · split at e
    · cases e; exact recvData_flushes m _ h
    · cases e; exact h
  · cases e; exact recvBuffered_flushes m h
  · split at e
    · cases e
    · cases e; exact h
  · obtain ⟨s, _, e⟩ := bind_okF e
    cases e
    simp only [Msg.flush, h]
  · cases e

end Verif.Http

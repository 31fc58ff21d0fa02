import Mathlib.Tactic.ByContra
import Mathlib.Data.List.Basic
import Mathlib.Data.List.Forall2
/-!
# How the HTTP server reads requests, `pyslet/http/server.py:71-220, 266-417` (C164)

The socket is the list of the pieces in which bytes arrive (none empty); at its end the client has closed its side.  Timeouts, the
Expect header and applications that do not read are not modelled.
-/
namespace Verif.Http.Srv

abbrev Bytes := List Nat

/-- CR LF. -/
def crlf : Bytes := [13, 10]

/-- The bytes up to and including the first CR LF, and the rest: `buffer.index(CRLF, rpos)`. -/
def findCRLF : Bytes → Option (Bytes × Bytes)
  | [] => none
  | c :: r => if c = 13 ∧ r.head? = some 10 then some (crlf, r.tail) else (findCRLF r).map fun p => (c :: p.1, p.2)

/-- `read_socket(s, nbytes)`, server.py:183-220: at most `n` bytes of the next piece; `none` at the end. -/
def recvN (n : Nat) : List Bytes → Option (Bytes × List Bytes)
  | [] => none
  | s :: r => if s.length ≤ n then some (s, r) else some (s.take n, s.drop n :: r)

inductive Scan where
  | bad
  | done (ls : List Bytes) (rest : Bytes)
  | more (ls : List Bytes) (b : Bytes)

/-- The loop over the lines of the buffer, server.py:109-126.  `b` is the buffer from `rpos` on; the first argument bounds the number
of lines. -/
def scan (maxline : Nat) : Nat → List Bytes → Bytes → Scan
  | 0, ls, b => .more ls b
  | n + 1, ls, b => match findCRLF b with
    | none => .more ls b
    | some (l, r) => if l.length > maxline then .bad else if l = crlf then .done (ls ++ [l]) r else scan maxline n (ls ++ [l]) r

/-- The result of reading: the value, the buffer and what the socket still holds. -/
inductive Res (α : Type) where
  | ok (a : α) (buf : Bytes) (segs : List Bytes)
  | raised
deriving DecidableEq, Repr

/-- `split_socket`, server.py:71-132: the buffer is `ls` followed by `b`.  The first argument bounds the number of reads. -/
def splitSocket (maxline maxlines : Nat) : Nat → List Bytes → Bytes → List Bytes → Res (List Bytes)
  | 0, _, _, _ => .raised
  | n + 1, ls, b, segs => match scan maxline (b.length + 1) ls b with
    | .bad => .raised
    | .done ls r => .ok ls r segs
    | .more ls b =>
      if ls.flatten.length + b.length ≥ maxlines then .raised
      else match recvN (maxlines - (ls.flatten.length + b.length)) segs with
        | none => .raised
        | some (d, segs) => splitSocket maxline maxlines n ls (b ++ d) segs

/-- `split_socket1`, server.py:135-180: `none` when the client has closed. -/
def splitSocket1 (maxline : Nat) : Nat → Bytes → List Bytes → Res (Option Bytes)
  | 0, _, _ => .raised
  | n + 1, b, segs => match findCRLF b with
    | some (l, r) => .ok (some l) r segs
    | none =>
      if b.length ≥ maxline then .raised
      else match recvN (maxline - b.length) segs with
        | none => .ok none b []
        | some (d, segs) => splitSocket1 maxline n (b ++ d) segs

/-- What a message asks for (`recv_mode`, messages.py:731-781). -/
inductive Mode where
  | line
  | headers
  | data (n : Nat)
deriving DecidableEq, Repr

/-- What it is given. -/
inductive Piece where
  | line (l : Bytes)
  | headers (ls : List Bytes)
  | data (d : Bytes)
deriving DecidableEq, Repr

/-- The bytes of a piece. -/
def Piece.bytes : Piece → Bytes
  | .line l => l
  | .headers ls => ls.flatten
  | .data d => d

/-- A message that is being received: `recv_mode` and `recv`; `none` of `recv` is an exception. -/
structure Reader (σ : Type) where
  mode : σ → Option Mode
  recv : σ → Piece → Option σ

/-- The end of one request: complete (with the buffer, which is lost: server.py:288), the client hung up, or an exception. -/
inductive Stop where
  | complete (buf : Bytes) (segs : List Bytes)
  | hangUp
  | failed
deriving DecidableEq, Repr

/-- The total number of bytes to come. -/
def size (segs : List Bytes) : Nat := segs.flatten.length

/-- One request in `handle_requests`, server.py:293-403: `str` is true after `buffstr = ''` (line 353), which is not bytes: the next
`bytearray(buffstr)` raises TypeError.  `log` are the pieces given to the request; the first argument bounds the number of steps. -/
def readRequest {σ : Type} (R : Reader σ) : Nat → σ → Bytes → Bool → List Bytes → List Piece → Stop × List Piece
  | 0, _, _, _, _, log => (.failed, log)
  | n + 1, m, buf, str, segs, log => match R.mode m with
    | none => (.complete buf segs, log)
    | some .line =>
      if str then (.failed, log)
      else match splitSocket1 8190 (size segs + 1) buf segs with
        | .raised => (.failed, log)
        | .ok none _ _ => (.hangUp, log)
        | .ok (some l) buf segs => match R.recv m (.line l) with
          | none => (.failed, log ++ [.line l])
          | some m => readRequest R n m buf false segs (log ++ [.line l])
    | some .headers =>
      if str then (.failed, log)
      else match splitSocket 8190 16380 (size segs + 1) [] buf segs with
        | .raised => (.failed, log)
        | .ok ls buf segs => match R.recv m (.headers ls) with
          | none => (.failed, log ++ [.headers ls])
          | some m => readRequest R n m buf false segs (log ++ [.headers ls])
    | some (.data k) =>
      if buf.length > k then
        match R.recv m (.data (buf.take k)) with
        | none => (.failed, log ++ [.data (buf.take k)])
        | some m => readRequest R n m (buf.drop k) str segs (log ++ [.data (buf.take k)])
      else if buf ≠ [] then
        match R.recv m (.data buf) with
        | none => (.failed, log ++ [.data buf])
        | some m => readRequest R n m [] true segs (log ++ [.data buf])
      else match recvN k segs with
        | none => (.failed, log)
        | some (d, segs) => match R.recv m (.data d) with
          | none => (.failed, log ++ [.data d])
          | some m => readRequest R n m [] str segs (log ++ [.data d])

/-- `handle_requests`, server.py:277-417: every request starts with an empty buffer.  The requests that were completed. -/
def handleRequests {σ : Type} (R : Reader σ) (m0 : σ) (steps : Nat) : Nat → List Bytes → List (List Piece)
  | 0, _ => []
  | n + 1, segs => match readRequest R steps m0 [] false segs [] with
    | (.complete _ segs, log) => log :: handleRequests R m0 steps n segs
    | _ => []


/-! ### the message that is being received -/

/-- How the body of a message is delimited: `recv_transferlength`, messages.py:1025-1090. -/
inductive Delim where
  | none
  | length (n : Nat)
  | chunked
deriving DecidableEq, Repr

/-- What the other parts of the library make of the lines: whether the start line is accepted (`recv_start`), how the header delimits the
body (`recv_transferlength`) and the size in the first line of a chunk (`Chunk.from_str`, params.py:445-455); all are arbitrary here. -/
structure Framing where
  start : Bytes → Bool
  body : List Bytes → Option Delim
  chunkSize : Bytes → Option Nat

/-- `transfermode`; in `data` with the number of bytes that are still expected, and whether the message is chunked. -/
inductive St where
  | start
  | header
  | data (left : Nat) (chunked : Bool)
  | chunkEnd
  | chunkHead
  | trailer
  | finished
deriving DecidableEq, Repr

/-- `recv_mode`, messages.py:766-781. -/
def St.mode : St → Option Mode
  | .start => some .line
  | .header => some .headers
  | .data k _ => some (.data k)
  | .chunkEnd => some .line
  | .chunkHead => some .line
  | .trailer => some .headers
  | .finished => none

/-- `recv` and `_recv_buffered`, messages.py:787-823, 854-896, 931-974.  The pipe to the application never blocks; responses with a
multipart boundary and bodies that end with the connection are not requests. -/
def St.recv (F : Framing) : St → Piece → Option St
  | .start, .line l => if l = crlf then some .start else if F.start l then some .header else none
  | .header, .headers ls => match F.body ls with
    | none => none
    | some .chunked => some .chunkHead
    | some .none => some .finished
    | some (.length n) => if n = 0 then some .finished else some (.data n false)
  | .chunkHead, .line l => match F.chunkSize l with
    | none => none
    | some n => if n = 0 then some .trailer else some (.data n true)
  | .data k ch, .data d => if k ≤ d.length then (if ch then some .chunkEnd else some .finished) else some (.data (k - d.length) ch)
  | .chunkEnd, .line l => if l = crlf then some .chunkHead else none
  | .trailer, .headers _ => some .finished
  | _, _ => none

/-- A request, as a reader. -/
def Framing.reader (F : Framing) : Reader St := ⟨St.mode, St.recv F⟩

/-! ### specification -/

/-- A line: it ends with CR LF and holds none before. -/
def Line (t : Bytes) : Prop := (∃ u, t = u ++ [13, 10]) ∧ ∀ p q, t = p ++ [13, 10] ++ q → q = []

/-- The lines of a header: the last one, and only that one, is empty. -/
structure Block (ts : List Bytes) : Prop where
  lines : ∀ t ∈ ts, Line t
  last : ts.getLast? = some [13, 10]
  inner : ∀ t ∈ ts.dropLast, t ≠ [13, 10]

/-- The body of a message as it is sent. -/
inductive Body where
  | none
  | plain (d : Bytes)
  | chunks (cs : List (Bytes × Bytes)) (last : Bytes) (trailer : List Bytes)

/-- A message as it is sent: the line, the lines of the header, the body. -/
structure Message where
  line : Bytes
  header : List Bytes
  body : Body

def Body.bytes : Body → Bytes
  | .none => []
  | .plain d => d
  | .chunks cs last trailer => (cs.map fun c => c.1 ++ c.2 ++ [13, 10]).flatten ++ last ++ trailer.flatten

def Message.bytes (m : Message) : Bytes := m.line ++ m.header.flatten ++ m.body.bytes

/-- The data that the message carries. -/
def Body.data : Body → Bytes
  | .none => []
  | .plain d => d
  | .chunks cs _ _ => (cs.map (·.2)).flatten

/-- A message that obeys the protocol and the limits of the server. -/
structure Message.Ok (F : Framing) (m : Message) : Prop where
  line : Line m.line
  line_ne : m.line ≠ [13, 10]
  line_len : m.line.length ≤ 8190
  start : F.start m.line = true
  header : Block m.header
  header_line : ∀ t ∈ m.header, t.length ≤ 8190
  header_len : m.header.flatten.length ≤ 16380
  body : match m.body with
    | .none => F.body m.header = some .none
    | .plain d => F.body m.header = some (.length d.length)
    | .chunks cs last trailer => F.body m.header = some .chunked ∧ (∀ c ∈ cs, Line c.1 ∧ c.1.length ≤ 8190 ∧ c.2 ≠ [] ∧ F.chunkSize c.1 = some c.2.length) ∧
        Line last ∧ last.length ≤ 8190 ∧ F.chunkSize last = some 0 ∧ Block trailer ∧ (∀ t ∈ trailer, t.length ≤ 8190) ∧ trailer.flatten.length ≤ 16380

/-- The data in what a request was given. -/
def bodyOf (log : List Piece) : Bytes := (log.map fun p => match p with | .data d => d | _ => []).flatten

/-- What was received is the message: its line, its header and then its data. -/
def Received (log : List Piece) (m : Message) : Prop :=
  ∃ rest, log = .line m.line :: .headers m.header :: rest ∧ bodyOf rest = m.body.data


/-! ### proofs -/

theorem find_eq {b l r : Bytes} (h : findCRLF b = some (l, r)) : b = l ++ r ∧ ∃ u, l = u ++ [13, 10] := by
  induction b generalizing l r with
  | nil => simp [findCRLF] at h
  | cons c b ih =>
    rw [findCRLF] at h
    by_cases hc : c = 13 ∧ b.head? = some 10
    · rw [if_pos hc] at h
      simp only [Option.some.injEq, Prod.mk.injEq] at h
      obtain ⟨rfl, rfl⟩ := h
      obtain ⟨rfl, h2⟩ := hc
      cases b with
      | nil => simp at h2
      | cons d b =>
        simp only [List.head?_cons, Option.some.injEq] at h2
        subst h2
        exact ⟨rfl, [], rfl⟩
    · rw [if_neg hc] at h
      cases hf : findCRLF b with
      | none => rw [hf] at h; cases h
      | some p =>
        rw [hf] at h
        simp only [Option.map_some, Option.some.injEq, Prod.mk.injEq] at h
        obtain ⟨rfl, rfl⟩ := h
        obtain ⟨h1, u, h2⟩ := ih hf
        refine ⟨?_, c :: u, ?_⟩
        · rw [h1]; simp
        · rw [h2]; rfl

theorem find_some (p q : Bytes) : ∃ l r, findCRLF (p ++ [13, 10] ++ q) = some (l, r) ∧ l.length ≤ p.length + 2 := by
  induction p with
  | nil => exact ⟨crlf, q, by simp [findCRLF], by simp [crlf]⟩
  | cons c p ih =>
    obtain ⟨l, r, h1, h2⟩ := ih
    rw [List.cons_append, List.cons_append, findCRLF]
    by_cases hc : c = 13 ∧ (p ++ [13, 10] ++ q).head? = some 10
    · rw [if_pos hc]
      exact ⟨_, _, rfl, by simp [crlf]⟩
    · rw [if_neg hc, h1]
      exact ⟨_, _, rfl, by simp at h2 ⊢; omega⟩

/-- The first line of a buffer is found. -/
theorem find_line {t r : Bytes} (h : Line t) : findCRLF (t ++ r) = some (t, r) := by
  obtain ⟨⟨u, rfl⟩, h2⟩ := h
  obtain ⟨l, s, h3, h4⟩ := find_some u r
  obtain ⟨h5, v, rfl⟩ := find_eq h3
  rw [h3]
  have hl : v ++ [13, 10] <+: u ++ [13, 10] := by
    have : v ++ [13, 10] <+: u ++ [13, 10] ++ r := ⟨s, h5.symm⟩
    exact List.prefix_of_prefix_length_le this ⟨r, rfl⟩ (by simpa using h4)
  obtain ⟨q, hq⟩ := hl
  have := h2 v q hq.symm
  subst this
  rw [List.append_nil] at hq
  rw [hq] at h5 ⊢
  rw [List.append_cancel_left h5]

/-- A buffer that does not hold the whole line. -/
theorem find_part {t b x y : Bytes} (h : Line t) (e : b ++ x = t ++ y) (hl : b.length < t.length) : findCRLF b = none := by
  cases hf : findCRLF b with
  | none => rfl
  | some p =>
    exfalso
    obtain ⟨h1, u, h2⟩ := find_eq hf
    have hp : b <+: t := List.prefix_of_prefix_length_le ⟨x, rfl⟩ (e ▸ ⟨y, rfl⟩) (Nat.le_of_lt hl)
    obtain ⟨q, hq⟩ := hp
    have := h.2 u (p.2 ++ q) (by rw [← hq, h1, h2]; simp)
    simp only [List.append_eq_nil_iff] at this
    rw [this.2, List.append_nil] at hq
    rw [hq] at hl
    omega

theorem line_pos {t : Bytes} (h : Line t) : 2 ≤ t.length := by
  obtain ⟨⟨u, rfl⟩, -⟩ := h
  simp

theorem block_cons {t : Bytes} {ts : List Bytes} (h : Block (t :: ts)) : Line t ∧ ((ts = [] ∧ t = [13, 10]) ∨ (ts ≠ [] ∧ t ≠ [13, 10] ∧ Block ts)) := by
  refine ⟨h.lines t (by simp), ?_⟩
  cases ts with
  | nil =>
    left
    have := h.last
    simp at this
    exact ⟨rfl, this⟩
  | cons s ss =>
    right
    refine ⟨by simp, h.inner t (by simp [List.dropLast]), ⟨fun x hx => h.lines x (by simp [hx]), ?_, ?_⟩⟩
    · have := h.last
      rwa [List.getLast?_cons_cons] at this
    · intro x hx
      exact h.inner x (by rw [List.dropLast_cons_cons]; simp [hx])

theorem scan_block (maxline : Nat) (x rest : Bytes) : ∀ (n : Nat) (ts ls : List Bytes) (b : Bytes), Block ts → (∀ t ∈ ts, t.length ≤ maxline) →
    b ++ x = ts.flatten ++ rest → b.length < n →
    (∃ r, scan maxline n ls b = .done (ls ++ ts) r ∧ r ++ x = rest) ∨
    (∃ us vs b', scan maxline n ls b = .more (ls ++ us) b' ∧ ts = us ++ vs ∧ Block vs ∧ b' ++ x = vs.flatten ++ rest ∧ b'.length < vs.flatten.length) := by
  intro n
  induction n with
  | zero => intro ts ls b _ _ _ h; omega
  | succ n ih =>
    intro ts ls b hb hm e hn
    cases ts with
    | nil => have := hb.last; simp at this
    | cons t ts =>
      obtain ⟨ht, hts⟩ := block_cons hb
      rw [List.flatten_cons, List.append_assoc] at e
      have htp := line_pos ht
      by_cases hl : b.length < t.length
      · right
        refine ⟨[], t :: ts, b, ?_, rfl, hb, ?_, ?_⟩
        · rw [scan, find_part ht e hl]; simp
        · rw [e]; simp
        · simp; omega
      · have hpre : t <+: b := List.prefix_of_prefix_length_le (e ▸ ⟨_, rfl⟩) ⟨x, rfl⟩ (by omega)
        obtain ⟨r, rfl⟩ := hpre
        rw [List.append_assoc] at e
        have e' := List.append_cancel_left e
        rw [scan, find_line ht]
        dsimp only
        rw [if_neg (by have := hm t (by simp); omega)]
        rcases hts with ⟨rfl, rfl⟩ | ⟨hne, htn, hbs⟩
        · left
          rw [if_pos (show ([13, 10] : Bytes) = crlf from rfl)]
          exact ⟨r, rfl, by simpa using e'⟩
        · rw [if_neg (show ¬ t = crlf from htn)]
          rcases ih ts (ls ++ [t]) r hbs (fun y hy => hm y (by simp [hy])) e' (by simp at hn; omega) with ⟨r', h1, h2⟩ | ⟨us, vs, b', h1, h2, h3⟩
          · left; exact ⟨r', by rw [h1]; simp, h2⟩
          · right
            exact ⟨t :: us, vs, b', by rw [h1]; simp, by rw [h2]; rfl, h3⟩

/-- Reading takes at least one byte, and loses none. -/
theorem recvN_some {n : Nat} (hn : 0 < n) {segs : List Bytes} (hs : ∀ s ∈ segs, s ≠ []) (hne : segs.flatten ≠ []) :
    ∃ d segs', recvN n segs = some (d, segs') ∧ segs.flatten = d ++ segs'.flatten ∧ d ≠ [] ∧ d.length ≤ n ∧ (∀ s ∈ segs', s ≠ []) ∧ size segs' < size segs := by
  cases segs with
  | nil => simp at hne
  | cons s r =>
    have h0 := hs s (by simp)
    have hpos : 0 < s.length := List.length_pos_iff.mpr h0
    rw [recvN]
    by_cases h : s.length ≤ n
    · rw [if_pos h]
      exact ⟨s, r, rfl, rfl, h0, h, fun x hx => hs x (by simp [hx]), by simp [size]; omega⟩
    · rw [if_neg h]
      refine ⟨s.take n, s.drop n :: r, rfl, by rw [List.flatten_cons, List.flatten_cons, ← List.append_assoc, List.take_append_drop], ?_, by rw [List.length_take]; omega, ?_, ?_⟩
      · intro e
        have := congrArg List.length e
        rw [List.length_take, List.length_nil] at this
        omega
      · intro x hx
        rcases List.mem_cons.mp hx with rfl | hx
        · intro e
          have := congrArg List.length e
          rw [List.length_drop, List.length_nil] at this
          omega
        · exact hs x (by simp [hx])
      · show (s.drop n :: r).flatten.length < (s :: r).flatten.length
        rw [List.flatten_cons, List.flatten_cons, List.length_append, List.length_append, List.length_drop]
        omega

theorem splitSocket_block (maxline maxlines : Nat) : ∀ (n : Nat) (ts ls : List Bytes) (b rest : Bytes) (segs : List Bytes), Block ts → (∀ t ∈ ts, t.length ≤ maxline) →
    ls.flatten.length + ts.flatten.length ≤ maxlines → (∀ s ∈ segs, s ≠ []) → b ++ segs.flatten = ts.flatten ++ rest → size segs < n →
    ∃ r segs', splitSocket maxline maxlines n ls b segs = .ok (ls ++ ts) r segs' ∧ r ++ segs'.flatten = rest ∧ (∀ s ∈ segs', s ≠ []) ∧ size segs' ≤ size segs := by
  intro n
  induction n with
  | zero => intro ts ls b rest segs _ _ _ _ _ h; omega
  | succ n ih =>
    intro ts ls b rest segs hb hm hmax hs e hn
    rw [splitSocket]
    rcases scan_block maxline segs.flatten rest (b.length + 1) ts ls b hb hm e (by omega) with ⟨r, h1, h2⟩ | ⟨us, vs, b', h1, rfl, h3, h4, h5⟩
    · rw [h1]
      exact ⟨r, segs, rfl, h2, hs, Nat.le_refl _⟩
    · rw [h1]
      dsimp only
      have hlen : (ls ++ us).flatten.length + vs.flatten.length ≤ maxlines := by
        simp only [List.flatten_append, List.length_append] at hmax ⊢; omega
      rw [if_neg (by omega)]
      have hne : segs.flatten ≠ [] := by
        intro h0
        rw [h0, List.append_nil] at h4
        have := congrArg List.length h4
        simp at this
        simp at h5
        omega
      obtain ⟨d, segs', g1, g2, -, -, g5, g6⟩ := recvN_some (n := maxlines - ((ls ++ us).flatten.length + b'.length)) (by omega) hs hne
      rw [g1]
      dsimp only
      obtain ⟨r, segs'', k1, k2, k3, k4⟩ := ih vs (ls ++ us) (b' ++ d) rest segs' h3 (fun t ht => hm t (by simp [ht])) hlen g5
        (by rw [List.append_assoc, ← g2, h4]) (by omega)
      exact ⟨r, segs'', by rw [k1]; simp, k2, k3, by omega⟩

/-- **C164**: in whatever pieces the bytes arrive, `split_socket` returns the lines of the header up to the empty line, and no byte after it is
lost. -/
theorem C164_split_socket (maxline maxlines : Nat) (ts : List Bytes) (hts : Block ts) (h1 : ∀ t ∈ ts, t.length ≤ maxline) (h2 : ts.flatten.length ≤ maxlines)
    (buf rest : Bytes) (segs : List Bytes) (hs : ∀ s ∈ segs, s ≠ []) (e : buf ++ segs.flatten = ts.flatten ++ rest) :
    ∃ r segs', splitSocket maxline maxlines (size segs + 1) [] buf segs = .ok ts r segs' ∧ r ++ segs'.flatten = rest := by
  obtain ⟨r, segs', h, h', -⟩ := splitSocket_block maxline maxlines (size segs + 1) ts [] buf rest segs hts h1 (by simpa using h2) hs e (by omega)
  exact ⟨r, segs', by simpa using h, h'⟩

theorem splitSocket1_line (maxline : Nat) : ∀ (n : Nat) (t b rest : Bytes) (segs : List Bytes), Line t → t.length ≤ maxline →
    (∀ s ∈ segs, s ≠ []) → b ++ segs.flatten = t ++ rest → size segs < n →
    ∃ r segs', splitSocket1 maxline n b segs = .ok (some t) r segs' ∧ r ++ segs'.flatten = rest ∧ (∀ s ∈ segs', s ≠ []) ∧ size segs' ≤ size segs := by
  intro n
  induction n with
  | zero => intro t b rest segs _ _ _ _ h; omega
  | succ n ih =>
    intro t b rest segs ht hm hs e hn
    rw [splitSocket1]
    by_cases hl : b.length < t.length
    · rw [find_part ht e hl]
      dsimp only
      rw [if_neg (by omega)]
      have hne : segs.flatten ≠ [] := by
        intro h0
        rw [h0, List.append_nil] at e
        have := congrArg List.length e
        simp at this
        omega
      obtain ⟨d, segs', g1, g2, -, -, g5, g6⟩ := recvN_some (n := maxline - b.length) (by omega) hs hne
      rw [g1]
      dsimp only
      obtain ⟨r, segs'', k1, k2, k3, k4⟩ := ih t (b ++ d) rest segs' ht hm g5 (by rw [List.append_assoc, ← g2, e]) (by omega)
      exact ⟨r, segs'', k1, k2, k3, by omega⟩
    · have hpre : t <+: b := List.prefix_of_prefix_length_le (l₃ := b ++ segs.flatten) (e ▸ ⟨rest, rfl⟩) ⟨_, rfl⟩ (by omega)
      obtain ⟨r, rfl⟩ := hpre
      rw [find_line ht]
      rw [List.append_assoc] at e
      exact ⟨r, segs, rfl, List.append_cancel_left e, hs, Nat.le_refl _⟩

/-- **C164**: in whatever pieces the bytes arrive, `split_socket1` returns the first line, and no byte after it is lost. -/
theorem C164_split_socket1 (maxline : Nat) (t : Bytes) (ht : Line t) (hm : t.length ≤ maxline) (buf rest : Bytes) (segs : List Bytes)
    (hs : ∀ s ∈ segs, s ≠ []) (e : buf ++ segs.flatten = t ++ rest) :
    ∃ r segs', splitSocket1 maxline (size segs + 1) buf segs = .ok (some t) r segs' ∧ r ++ segs'.flatten = rest := by
  obtain ⟨r, segs', h, h', -⟩ := splitSocket1_line maxline (size segs + 1) t buf rest segs ht hm hs e (by omega)
  exact ⟨r, segs', h, h'⟩

/-! ### no byte is lost or invented -/

theorem recvN_flat {n : Nat} {segs segs' : List Bytes} {d : Bytes} (h : recvN n segs = some (d, segs')) : segs.flatten = d ++ segs'.flatten := by
  cases segs with
  | nil => cases h
  | cons s r =>
    rw [recvN] at h
    by_cases hs : s.length ≤ n
    · rw [if_pos hs] at h
      simp only [Option.some.injEq, Prod.mk.injEq] at h
      obtain ⟨rfl, rfl⟩ := h
      rfl
    · rw [if_neg hs] at h
      simp only [Option.some.injEq, Prod.mk.injEq] at h
      obtain ⟨rfl, rfl⟩ := h
      rw [List.flatten_cons, List.flatten_cons, ← List.append_assoc, List.take_append_drop]

theorem scan_flat (maxline : Nat) : ∀ (n : Nat) (ls : List Bytes) (b : Bytes), match scan maxline n ls b with
    | .bad => True
    | .done ls' r => ls'.flatten ++ r = ls.flatten ++ b
    | .more ls' r => ls'.flatten ++ r = ls.flatten ++ b := by
  intro n
  induction n with
  | zero => intro ls b; rw [scan]
  | succ n ih =>
    intro ls b
    rw [scan]
    cases hf : findCRLF b with
    | none => dsimp only
    | some p =>
      obtain ⟨l, r⟩ := p
      dsimp only
      obtain ⟨rfl, -⟩ := find_eq hf
      by_cases h1 : l.length > maxline
      · rw [if_pos h1]; trivial
      · rw [if_neg h1]
        by_cases h2 : l = crlf
        · rw [if_pos h2]; simp
        · rw [if_neg h2]
          have := ih (ls ++ [l]) r
          revert this
          cases scan maxline n (ls ++ [l]) r <;> simp

theorem splitSocket_flat (maxline maxlines : Nat) : ∀ (n : Nat) (ls : List Bytes) (b : Bytes) (segs : List Bytes) (x : List Bytes) (r : Bytes) (segs' : List Bytes),
    splitSocket maxline maxlines n ls b segs = .ok x r segs' → x.flatten ++ r ++ segs'.flatten = ls.flatten ++ b ++ segs.flatten := by
  intro n
  induction n with
  | zero => intro ls b segs x r segs' h; simp [splitSocket] at h
  | succ n ih =>
    intro ls b segs x r segs' h
    rw [splitSocket] at h
    have hf := scan_flat maxline (b.length + 1) ls b
    cases hsc : scan maxline (b.length + 1) ls b with
    | bad => rw [hsc] at h; cases h
    | done ls' r' =>
      rw [hsc] at h hf
      dsimp only at h hf
      cases h
      rw [hf]
    | more ls' b' =>
      rw [hsc] at h hf
      dsimp only at h hf
      by_cases h1 : ls'.flatten.length + b'.length ≥ maxlines
      · rw [if_pos h1] at h; cases h
      · rw [if_neg h1] at h
        cases hr : recvN (maxlines - (ls'.flatten.length + b'.length)) segs with
        | none => rw [hr] at h; cases h
        | some p =>
          obtain ⟨d, s2⟩ := p
          rw [hr] at h
          dsimp only at h
          rw [ih _ _ _ _ _ _ h, recvN_flat hr, ← hf]
          simp

theorem splitSocket1_flat (maxline : Nat) : ∀ (n : Nat) (b : Bytes) (segs : List Bytes) (x r : Bytes) (segs' : List Bytes),
    splitSocket1 maxline n b segs = .ok (some x) r segs' → x ++ r ++ segs'.flatten = b ++ segs.flatten := by
  intro n
  induction n with
  | zero => intro b segs x r segs' h; simp [splitSocket1] at h
  | succ n ih =>
    intro b segs x r segs' h
    rw [splitSocket1] at h
    cases hf : findCRLF b with
    | some p =>
      obtain ⟨l, r'⟩ := p
      rw [hf] at h
      dsimp only at h
      simp only [Res.ok.injEq, Option.some.injEq] at h
      obtain ⟨rfl, rfl, rfl⟩ := h
      rw [(find_eq hf).1]
    | none =>
      rw [hf] at h
      dsimp only at h
      by_cases h1 : b.length ≥ maxline
      · rw [if_pos h1] at h; cases h
      · rw [if_neg h1] at h
        cases hr : recvN (maxline - b.length) segs with
        | none => rw [hr] at h; cases h
        | some p =>
          obtain ⟨d, s2⟩ := p
          rw [hr] at h
          dsimp only at h
          rw [ih _ _ _ _ _ h, recvN_flat hr]
          simp

/-- The bytes in a list of pieces. -/
def allBytes (log : List Piece) : Bytes := (log.map Piece.bytes).flatten

/-- `stop` and `log` are consistent with the stream `w`. -/
def Consistent (w : Bytes) (p : Stop × List Piece) : Prop :=
  match p.1 with
  | .complete buf segs => allBytes p.2 ++ buf ++ segs.flatten = w
  | _ => allBytes p.2 <+: w

theorem allBytes_snoc (log : List Piece) (p : Piece) : allBytes (log ++ [p]) = allBytes log ++ p.bytes := by simp [allBytes]

theorem readRequest_consistent {σ : Type} (R : Reader σ) : ∀ (n : Nat) (m : σ) (buf : Bytes) (str : Bool) (segs : List Bytes) (log : List Piece) (w : Bytes),
    allBytes log ++ buf ++ segs.flatten = w → Consistent w (readRequest R n m buf str segs log) := by
  intro n
  have hp : ∀ {log : List Piece} {x y w : Bytes}, allBytes log ++ x ++ y = w → allBytes log <+: w := by
    intro log x y w h; exact ⟨x ++ y, by rw [← h]; simp⟩
  induction n with
  | zero => intro m buf str segs log w h; exact hp h
  | succ n ih =>
    intro m buf str segs log w h
    rw [readRequest]
    rcases hm : R.mode m with _ | (_ | _ | k)
    · exact h
    · dsimp only
      by_cases hs : str = true
      · rw [if_pos hs]; exact hp h
      · rw [if_neg hs]
        cases hx : splitSocket1 8190 (size segs + 1) buf segs with
        | raised => exact hp h
        | ok a b s =>
          cases a with
          | none => exact hp h
          | some l =>
            dsimp only
            have hfl := splitSocket1_flat _ _ _ _ _ _ _ hx
            have e : allBytes (log ++ [.line l]) ++ b ++ s.flatten = w := by
              rw [allBytes_snoc, ← h, List.append_assoc, List.append_assoc, List.append_assoc, ← hfl]
              simp [Piece.bytes]
            cases R.recv m (.line l) with
            | none => exact hp e
            | some m' => exact ih _ _ _ _ _ _ e
    · dsimp only
      by_cases hs : str = true
      · rw [if_pos hs]; exact hp h
      · rw [if_neg hs]
        cases hx : splitSocket 8190 16380 (size segs + 1) [] buf segs with
        | raised => exact hp h
        | ok l b s =>
          dsimp only
          have hfl := splitSocket_flat _ _ _ _ _ _ _ _ _ hx
          have e : allBytes (log ++ [.headers l]) ++ b ++ s.flatten = w := by
            rw [allBytes_snoc, ← h, List.append_assoc, List.append_assoc, List.append_assoc]
            have : l.flatten ++ (b ++ s.flatten) = buf ++ segs.flatten := by
              rw [← List.append_assoc, hfl]; simp
            show allBytes log ++ (l.flatten ++ (b ++ s.flatten)) = _
            rw [this]
          cases R.recv m (.headers l) with
          | none => exact hp e
          | some m' => exact ih _ _ _ _ _ _ e
    · dsimp only
      by_cases h1 : buf.length > k
      · rw [if_pos h1]
        have e : allBytes (log ++ [.data (buf.take k)]) ++ buf.drop k ++ segs.flatten = w := by
          rw [allBytes_snoc, ← h]
          show allBytes log ++ buf.take k ++ buf.drop k ++ _ = _
          rw [List.append_assoc (allBytes log), List.take_append_drop]
        cases R.recv m (.data (buf.take k)) with
        | none => exact hp e
        | some m' => exact ih _ _ _ _ _ _ e
      · rw [if_neg h1]
        by_cases h2 : buf ≠ []
        · rw [if_pos h2]
          have e : allBytes (log ++ [.data buf]) ++ [] ++ segs.flatten = w := by
            rw [allBytes_snoc, ← h]; simp [Piece.bytes]
          cases R.recv m (.data buf) with
          | none => exact hp e
          | some m' => exact ih _ _ _ _ _ _ e
        · rw [if_neg h2]
          cases hr : recvN k segs with
          | none => exact hp h
          | some p =>
            obtain ⟨d, s⟩ := p
            dsimp only
            have h3 : buf = [] := by by_contra h3; exact h2 h3
            have e : allBytes (log ++ [.data d]) ++ [] ++ s.flatten = w := by
              rw [allBytes_snoc, ← h, recvN_flat hr, h3]; simp [Piece.bytes]
            cases R.recv m (.data d) with
            | none => exact hp e
            | some m' => exact ih _ _ _ _ _ _ e

/-- **C164**: whatever the message asks for, what it has been given is, in order, what was sent: up to the point where it was complete it has
received every byte, and otherwise the beginning of the stream. -/
theorem C164_integrity {σ : Type} (R : Reader σ) (n : Nat) (m : σ) (segs : List Bytes) :
    (∀ buf segs' log, readRequest R n m [] false segs [] = (.complete buf segs', log) → (log.map Piece.bytes).flatten ++ buf ++ segs'.flatten = segs.flatten) ∧
    (∀ stop log, readRequest R n m [] false segs [] = (stop, log) → (log.map Piece.bytes).flatten <+: segs.flatten) := by
  have h := readRequest_consistent R n m [] false segs [] segs.flatten (by simp [allBytes])
  refine ⟨fun buf segs' log e => by rw [e] at h; exact h, fun stop log e => ?_⟩
  rw [e] at h
  cases stop with
  | complete buf segs' => exact ⟨buf ++ segs'.flatten, by rw [← List.append_assoc]; exact h⟩
  | hangUp => exact h
  | failed => exact h

/-! ### what follows in the socket makes no difference -/

theorem recvN_frame {n : Nat} {g g' : List Bytes} {d : Bytes} (more : List Bytes) (h : recvN n g = some (d, g')) : recvN n (g ++ more) = some (d, g' ++ more) := by
  cases g with
  | nil => cases h
  | cons s r =>
    rw [recvN] at h
    rw [List.cons_append, recvN]
    by_cases hs : s.length ≤ n
    · rw [if_pos hs] at h ⊢
      simp only [Option.some.injEq, Prod.mk.injEq] at h
      obtain ⟨rfl, rfl⟩ := h
      rfl
    · rw [if_neg hs] at h ⊢
      simp only [Option.some.injEq, Prod.mk.injEq] at h
      obtain ⟨rfl, rfl⟩ := h
      rfl

theorem splitSocket_frame (maxline maxlines : Nat) (more : List Bytes) : ∀ (n k : Nat) (ls : List Bytes) (b : Bytes) (g : List Bytes) (x : List Bytes) (r : Bytes) (g' : List Bytes),
    splitSocket maxline maxlines n ls b g = .ok x r g' → n ≤ k → splitSocket maxline maxlines k ls b (g ++ more) = .ok x r (g' ++ more) := by
  intro n
  induction n with
  | zero => intro k ls b g x r g' h; simp [splitSocket] at h
  | succ n ih =>
    intro k ls b g x r g' h hk
    obtain ⟨k, rfl⟩ : ∃ j, k = j + 1 := ⟨k - 1, by omega⟩
    rw [splitSocket] at h ⊢
    cases hsc : scan maxline (b.length + 1) ls b with
    | bad => rw [hsc] at h; cases h
    | done ls' r' => rw [hsc] at h; cases h; rfl
    | more ls' b' =>
      rw [hsc] at h
      dsimp only at h ⊢
      by_cases h1 : ls'.flatten.length + b'.length ≥ maxlines
      · rw [if_pos h1] at h; cases h
      · rw [if_neg h1] at h ⊢
        cases hr : recvN (maxlines - (ls'.flatten.length + b'.length)) g with
        | none => rw [hr] at h; cases h
        | some p =>
          obtain ⟨d, s2⟩ := p
          rw [hr] at h
          rw [recvN_frame more hr]
          exact ih _ _ _ _ _ _ _ h (by omega)

theorem splitSocket1_frame (maxline : Nat) (more : List Bytes) : ∀ (n k : Nat) (b : Bytes) (g : List Bytes) (x : Bytes) (r : Bytes) (g' : List Bytes),
    splitSocket1 maxline n b g = .ok (some x) r g' → n ≤ k → splitSocket1 maxline k b (g ++ more) = .ok (some x) r (g' ++ more) := by
  intro n
  induction n with
  | zero => intro k b g x r g' h; simp [splitSocket1] at h
  | succ n ih =>
    intro k b g x r g' h hk
    obtain ⟨k, rfl⟩ : ∃ j, k = j + 1 := ⟨k - 1, by omega⟩
    rw [splitSocket1] at h ⊢
    cases hf : findCRLF b with
    | some p =>
      obtain ⟨l, r'⟩ := p
      rw [hf] at h
      dsimp only at h
      simp only [Res.ok.injEq, Option.some.injEq] at h
      obtain ⟨rfl, rfl, rfl⟩ := h
      rfl
    | none =>
      rw [hf] at h
      dsimp only at h ⊢
      by_cases h1 : b.length ≥ maxline
      · rw [if_pos h1] at h; cases h
      · rw [if_neg h1] at h ⊢
        cases hr : recvN (maxline - b.length) g with
        | none => rw [hr] at h; cases h
        | some p =>
          obtain ⟨d, s2⟩ := p
          rw [hr] at h
          rw [recvN_frame more hr]
          exact ih _ _ _ _ _ _ h (by omega)

/-! ### the steps -/

theorem size_append (g more : List Bytes) : size (g ++ more) = size g + size more := by simp [size]

/-- A line is read. -/
theorem step_line {σ : Type} (R : Reader σ) {m m' : σ} {t : Bytes} (hm : R.mode m = some .line) (ht : Line t) (hl : t.length ≤ 8190) (hr : R.recv m (.line t) = some m')
    (b rest : Bytes) (g more : List Bytes) (hg : ∀ s ∈ g, s ≠ []) (e : b ++ g.flatten = t ++ rest) (log : List Piece) :
    ∃ r g', (∀ s ∈ g', s ≠ []) ∧ r ++ g'.flatten = rest ∧
      ∀ n, readRequest R (n + 1) m b false (g ++ more) log = readRequest R n m' r false (g' ++ more) (log ++ [.line t]) := by
  obtain ⟨r, g', h1, h2, h3, -⟩ := splitSocket1_line 8190 (size g + 1) t b rest g ht hl hg e (by omega)
  refine ⟨r, g', h3, h2, fun n => ?_⟩
  rw [readRequest, hm]
  dsimp only
  rw [if_neg (by simp), splitSocket1_frame 8190 more (size g + 1) (size (g ++ more) + 1) b g t r g' h1 (by rw [size_append]; omega)]
  dsimp only
  rw [hr]

/-- A header is read. -/
theorem step_headers {σ : Type} (R : Reader σ) {m m' : σ} {ts : List Bytes} (hm : R.mode m = some .headers) (hts : Block ts) (hl : ∀ t ∈ ts, t.length ≤ 8190)
    (hl2 : ts.flatten.length ≤ 16380) (hr : R.recv m (.headers ts) = some m')
    (b rest : Bytes) (g more : List Bytes) (hg : ∀ s ∈ g, s ≠ []) (e : b ++ g.flatten = ts.flatten ++ rest) (log : List Piece) :
    ∃ r g', (∀ s ∈ g', s ≠ []) ∧ r ++ g'.flatten = rest ∧
      ∀ n, readRequest R (n + 1) m b false (g ++ more) log = readRequest R n m' r false (g' ++ more) (log ++ [.headers ts]) := by
  obtain ⟨r, g', h1, h2, h3, -⟩ := splitSocket_block 8190 16380 (size g + 1) ts [] b rest g hts hl (by simpa using hl2) hg e (by omega)
  refine ⟨r, g', h3, h2, fun n => ?_⟩
  rw [readRequest, hm]
  dsimp only
  rw [if_neg (by simp), splitSocket_frame 8190 16380 more (size g + 1) (size (g ++ more) + 1) [] b g _ r g' h1 (by rw [size_append]; omega)]
  dsimp only [List.nil_append]
  rw [hr]

/-- After its data, the state of the message. -/
def afterData (ch : Bool) : St := if ch then .chunkEnd else .finished

/-- The data is read from the socket. -/
theorem step_data (F : Framing) (ch : Bool) (str : Bool) (more : List Bytes) : ∀ (g : List Bytes) (k : Nat) (log : List Piece), (∀ s ∈ g, s ≠ []) → g.flatten.length = k → 0 < k →
    ∀ n, readRequest F.reader (n + g.length) (.data k ch) [] str (g ++ more) log = readRequest F.reader n (afterData ch) [] str more (log ++ g.map .data) := by
  intro g
  induction g with
  | nil => intro k log _ h1 h2; simp at h1; omega
  | cons s g ih =>
    intro k log hs hk hpos n
    have h0 : 0 < s.length := List.length_pos_iff.mpr (hs s (by simp))
    rw [List.flatten_cons, List.length_append] at hk
    rw [List.length_cons, ← Nat.add_assoc, readRequest]
    rw [show F.reader.mode (.data k ch) = some (.data k) from rfl]
    dsimp only
    rw [if_neg (by simp), if_neg (by simp), List.cons_append, recvN, if_pos (by omega)]
    dsimp only
    rw [show F.reader.recv (.data k ch) (.data s) = (if k ≤ s.length then (if ch then some St.chunkEnd else some St.finished) else some (St.data (k - s.length) ch)) from rfl]
    by_cases hc : k ≤ s.length
    · have hg : g = [] := by
        cases g with
        | nil => rfl
        | cons a g =>
          have := List.length_pos_iff.mpr (hs a (by simp))
          rw [List.flatten_cons, List.length_append] at hk
          omega
      subst hg
      rw [if_pos hc]
      cases ch <;> simp [afterData]
    · rw [if_neg hc]
      dsimp only
      rw [ih (k - s.length) _ (fun x hx => hs x (by simp [hx])) (by omega) (by omega) n]
      simp

theorem flat_nil {g : List Bytes} (hg : ∀ s ∈ g, s ≠ []) (h : g.flatten = []) : g = [] := by
  cases g with
  | nil => rfl
  | cons s g =>
    exfalso
    rw [List.flatten_cons, List.append_eq_nil_iff] at h
    exact hg s (by simp) h.1

theorem bodyOf_data (g : List Bytes) : bodyOf (g.map Piece.data) = g.flatten := by
  induction g with
  | nil => rfl
  | cons s g ih => simp [bodyOf] at ih ⊢; exact ih

/-- The line and the header. -/
theorem head_steps (F : Framing) (m : Message) (hm : m.Ok F) (m' : St) (h' : St.recv F .header (.headers m.header) = some m') (rest : Bytes) (g more : List Bytes) (hg : ∀ s ∈ g, s ≠ [])
    (e : g.flatten = m.line ++ m.header.flatten ++ rest) :
    ∃ r g', (∀ s ∈ g', s ≠ []) ∧ r ++ g'.flatten = rest ∧
      ∀ n, readRequest F.reader (n + 2) .start [] false (g ++ more) [] = readRequest F.reader n m' r false (g' ++ more) [.line m.line, .headers m.header] := by
  obtain ⟨r1, g1, a1, a2, a3⟩ := step_line F.reader (m := St.start) (m' := St.header) (t := m.line) rfl hm.line hm.line_len
    (by show St.recv F .start (.line m.line) = _
        rw [St.recv, if_neg (show ¬ m.line = crlf from hm.line_ne), if_pos hm.start]) [] (m.header.flatten ++ rest) g more hg (by rw [List.nil_append, e]; simp) []
  obtain ⟨r2, g2, b1, b2, b3⟩ := step_headers F.reader (m := St.header) (m' := m') (ts := m.header) rfl hm.header hm.header_line hm.header_len h' r1 rest g1 more a1 a2 [.line m.line]
  refine ⟨r2, g2, b1, b2, fun n => ?_⟩
  rw [a3 (n + 1)]
  exact b3 n

theorem finished_stop (F : Framing) (n : Nat) (buf : Bytes) (str : Bool) (segs : List Bytes) (log : List Piece) :
    readRequest F.reader (n + 1) .finished buf str segs log = (.complete buf segs, log) := by
  rw [readRequest]; rfl

/-- One request whose body is not chunked, followed by anything that does not share a piece with it. -/
theorem one_request (F : Framing) (m : Message) (hm : m.Ok F) (hb : ∀ cs l t, m.body ≠ .chunks cs l t) (g more : List Bytes) (hg : ∀ s ∈ g, s ≠ []) (e : g.flatten = m.bytes) :
    ∃ log, Received log m ∧ ∀ n ≥ m.bytes.length + 4, readRequest F.reader n .start [] false (g ++ more) [] = (.complete [] more, log) := by
  have hbody := hm.body
  have fin : m.body.bytes = [] → m.body.data = [] → St.recv F .header (.headers m.header) = some .finished →
      ∃ log, Received log m ∧ ∀ n ≥ m.bytes.length + 4, readRequest F.reader n .start [] false (g ++ more) [] = (.complete [] more, log) := by
    intro h1 h2 h3
    obtain ⟨r, g', a1, a2, a3⟩ := head_steps F m hm .finished h3 [] g more hg (by rw [e, Message.bytes, h1])
    rw [List.append_eq_nil_iff] at a2
    obtain ⟨rfl, a2⟩ := a2
    have := flat_nil a1 a2
    subst this
    refine ⟨_, ⟨[], rfl, by rw [h2]; rfl⟩, fun n hn => ?_⟩
    obtain ⟨j, rfl⟩ : ∃ j, n = j + 1 + 2 := ⟨n - 3, by omega⟩
    rw [a3, finished_stop]
    rfl
  cases hbd : m.body with
  | none =>
    rw [hbd] at hbody
    exact fin (by rw [hbd]; rfl) (by rw [hbd]; rfl) (by rw [St.recv, hbody])
  | chunks cs l t => exact absurd hbd (hb cs l t)
  | plain d =>
    rw [hbd] at hbody
    dsimp only at hbody
    by_cases hd : d = []
    · exact fin (by rw [hbd]; exact hd) (by rw [hbd]; exact hd) (by rw [St.recv, hbody]; simp [hd])
    · have hdl : 0 < d.length := List.length_pos_iff.mpr hd
      obtain ⟨r, g', a1, a2, a3⟩ := head_steps F m hm (.data d.length false) (by rw [St.recv, hbody]; dsimp only; rw [if_neg (by omega)]) d g more hg
        (by rw [e, Message.bytes, hbd]; rfl)
      have hlen : m.bytes.length ≥ d.length := by rw [Message.bytes, hbd, List.length_append]; exact Nat.le_add_left _ _
      have hglen : g'.length ≤ g'.flatten.length := by
        clear a2 a3
        induction g' with
        | nil => simp
        | cons s g' ih =>
          have := List.length_pos_iff.mpr (a1 s (by simp))
          have := ih (fun x hx => a1 x (by simp [hx]))
          simp at this ⊢
          omega
      have hlen2 := congrArg List.length a2
      rw [List.length_append] at hlen2
      by_cases hr : r = []
      · subst hr
        rw [List.nil_append] at a2
        refine ⟨_, ⟨g'.map .data, rfl, by rw [bodyOf_data, a2, hbd]; rfl⟩, fun n hn => ?_⟩
        obtain ⟨j, rfl⟩ : ∃ j, n = j + 1 + g'.length + 2 := ⟨n - g'.length - 3, by rw [List.length_nil] at hlen2; omega⟩
        rw [a3, step_data F false false more g' d.length _ a1 (by rw [a2]) hdl]
        exact finished_stop F j _ _ _ _
      · have hrl : 0 < r.length := List.length_pos_iff.mpr hr
        refine ⟨_, ⟨.data r :: g'.map .data, rfl, by
          have : bodyOf (Piece.data r :: g'.map .data) = r ++ bodyOf (g'.map .data) := rfl
          rw [this, bodyOf_data, a2, hbd]; rfl⟩, fun n hn => ?_⟩
        obtain ⟨j, rfl⟩ : ∃ j, n = j + 1 + g'.length + 1 + 2 := ⟨n - g'.length - 4, by omega⟩
        rw [a3, readRequest]
        rw [show F.reader.mode (.data d.length false) = some (.data d.length) from rfl]
        dsimp only
        rw [if_neg (by omega), if_pos hr]
        rw [show F.reader.recv (.data d.length false) (.data r) = (if d.length ≤ r.length then some St.finished else some (St.data (d.length - r.length) false)) from rfl]
        by_cases hc : d.length ≤ r.length
        · rw [if_pos hc]
          have : g' = [] := flat_nil a1 (List.length_eq_zero_iff.mp (by omega))
          subst this
          simpa using finished_stop F j [] true more _
        · rw [if_neg hc]
          dsimp only
          rw [step_data F false true more g' (d.length - r.length) _ a1 (by omega) (by omega)]
          have : afterData false = .finished := rfl
          rw [this, finished_stop]
          simp

/-- **C164**: in whatever pieces it arrives, a request whose body is not chunked is received exactly: its line, its header and the bytes of
its body. -/
theorem C164_request (F : Framing) (m : Message) (hm : m.Ok F) (hb : ∀ cs l t, m.body ≠ .chunks cs l t) (segs : List Bytes) (hs : ∀ s ∈ segs, s ≠ []) (e : segs.flatten = m.bytes) :
    ∃ log, Received log m ∧ ∀ n ≥ m.bytes.length + 4, readRequest F.reader n .start [] false segs [] = (.complete [] [], log) := by
  obtain ⟨log, h1, h2⟩ := one_request F m hm hb segs [] hs e
  exact ⟨log, h1, fun n hn => by have := h2 n hn; rwa [List.append_nil] at this⟩

/-- **C164** (partial): if no piece holds bytes of two requests, all the requests are received in order. -/
theorem C164_pipeline_partial (F : Framing) : ∀ (ms : List (Message × List Bytes)), (∀ p ∈ ms, p.1.Ok F ∧ (∀ cs l t, p.1.body ≠ .chunks cs l t) ∧ (∀ s ∈ p.2, s ≠ []) ∧ p.2.flatten = p.1.bytes) →
    ∀ steps, (∀ p ∈ ms, p.1.bytes.length + 4 ≤ steps) → ∀ n ≥ ms.length, List.Forall₂ (fun log m => Received log m) (handleRequests F.reader .start steps n (ms.map (·.2)).flatten) (ms.map (·.1)) := by
  intro ms
  induction ms with
  | nil =>
    intro _ steps _ n _
    cases n with
    | zero => exact .nil
    | succ n =>
      rw [handleRequests]
      have : readRequest F.reader steps .start [] false (([] : List (Message × List Bytes)).map (·.2)).flatten [] = (.hangUp, []) ∨
          readRequest F.reader steps .start [] false (([] : List (Message × List Bytes)).map (·.2)).flatten [] = (.failed, []) := by
        cases steps with
        | zero => right; rfl
        | succ k => left; rw [readRequest]; rfl
      rcases this with h | h <;> · rw [h]; exact .nil
  | cons p ms ih =>
    intro h steps hst n hn
    obtain ⟨k, rfl⟩ : ∃ k, n = k + 1 := ⟨n - 1, by simp at hn; omega⟩
    obtain ⟨h1, h2, h3, h4⟩ := h p (by simp)
    obtain ⟨log, g1, g2⟩ := one_request F p.1 h1 h2 p.2 (ms.map (·.2)).flatten h3 h4
    have := g2 steps (hst p (by simp))
    rw [handleRequests, List.map_cons, List.flatten_cons, this]
    exact .cons g1 (ih (fun q hq => h q (by simp [hq])) steps (fun q hq => hst q (by simp [hq])) k (by simp at hn; omega))

/-! ### chunked bodies -/

/-- The pieces of a chunked message in which no piece holds data of a chunk together with other bytes. -/
inductive Aligned (tail : Bytes) : Bytes → List (Bytes × Bytes) → List Bytes → Prop
  | nil {pre : Bytes} {g : List Bytes} : (∀ s ∈ g, s ≠ []) → g.flatten = pre ++ tail → Aligned tail pre [] g
  | cons {pre l d : Bytes} {cs : List (Bytes × Bytes)} {a b segs : List Bytes} : (∀ s ∈ a, s ≠ []) → a.flatten = pre ++ l → (∀ s ∈ b, s ≠ []) → b.flatten = d →
      Aligned tail [13, 10] cs segs → Aligned tail pre ((l, d) :: cs) (a ++ b ++ segs)

theorem aligned_steps (F : Framing) (last : Bytes) (trailer : List Bytes) (h1 : Line last) (h2 : last.length ≤ 8190) (h3 : F.chunkSize last = some 0) (h4 : Block trailer)
    (h5 : ∀ t ∈ trailer, t.length ≤ 8190) (h6 : trailer.flatten.length ≤ 16380) (more : List Bytes) (pre : Bytes) (cs : List (Bytes × Bytes)) (segs : List Bytes)
    (ha : Aligned (last ++ trailer.flatten) pre cs segs) :
    (∀ c ∈ cs, Line c.1 ∧ c.1.length ≤ 8190 ∧ c.2 ≠ [] ∧ F.chunkSize c.1 = some c.2.length) →
    ∀ (m0 : St) (log0 log1 : List Piece) (k : Nat),
    (∀ (x : Bytes) (g more : List Bytes), (∀ s ∈ g, s ≠ []) → g.flatten = pre ++ x → ∃ r g', (∀ s ∈ g', s ≠ []) ∧ r ++ g'.flatten = x ∧
      ∀ n, readRequest F.reader (n + k) m0 [] false (g ++ more) log0 = readRequest F.reader n .chunkHead r false (g' ++ more) log1) →
    ∃ log N, bodyOf log = (cs.map (·.2)).flatten ∧ ∀ n ≥ N, readRequest F.reader n m0 [] false (segs ++ more) log0 = (.complete [] more, log1 ++ log) := by
  induction ha with
  | @nil pre g hg e =>
    intro _ m0 log0 log1 k H
    obtain ⟨r, g', a1, a2, a3⟩ := H _ g more hg e
    obtain ⟨r2, g2, b1, b2, b3⟩ := step_line F.reader (m := St.chunkHead) (m' := St.trailer) (t := last) rfl h1 h2
      (by show St.recv F .chunkHead (.line last) = _
          rw [St.recv, h3]; rfl) r trailer.flatten g' more a1 a2 log1
    obtain ⟨r3, g3, c1, c2, c3⟩ := step_headers F.reader (m := St.trailer) (m' := St.finished) (ts := trailer) rfl h4 h5 h6 rfl r2 [] g2 more b1 (by rw [b2, List.append_nil]) (log1 ++ [.line last])
    rw [List.append_eq_nil_iff] at c2
    obtain ⟨rfl, c2⟩ := c2
    have := flat_nil c1 c2
    subst this
    refine ⟨[.line last, .headers trailer], k + 3, rfl, fun n hn => ?_⟩
    obtain ⟨j, rfl⟩ : ∃ j, n = j + 1 + 1 + 1 + k := ⟨n - k - 3, by omega⟩
    rw [a3, b3, c3, finished_stop]
    simp
  | @cons pre l d cs a b segs ha1 ha2 hb1 hb2 _ ih =>
    intro hcs m0 log0 log1 k H
    obtain ⟨c1, c2, c3, c4⟩ := hcs (l, d) (by simp)
    obtain ⟨r, g', a1, a2, a3⟩ := H l a (b ++ segs ++ more) ha1 ha2
    have hd : 0 < d.length := List.length_pos_iff.mpr c3
    obtain ⟨r2, g2, b1, b2, b3⟩ := step_line F.reader (m := St.chunkHead) (m' := St.data d.length true) (t := l) rfl c1 c2
      (by show St.recv F .chunkHead (.line l) = _
          rw [St.recv, c4]; dsimp only; rw [if_neg (by omega)]) r [] g' (b ++ segs ++ more) a1 (by rw [a2, List.append_nil]) log1
    rw [List.append_eq_nil_iff] at b2
    obtain ⟨rfl, b2⟩ := b2
    have := flat_nil b1 b2
    subst this
    have hcr : Line [13, 10] := by
      refine ⟨⟨[], rfl⟩, fun p q e => ?_⟩
      have := congrArg List.length e
      simp at this
      exact List.length_eq_zero_iff.mp (by omega)
    obtain ⟨log, N, i1, i2⟩ := ih (fun c hc => hcs c (by simp [hc])) .chunkEnd (log1 ++ [.line l] ++ b.map .data) (log1 ++ [.line l] ++ b.map .data ++ [.line [13, 10]]) 1
      (fun x g more hg e => by
        obtain ⟨r, g', x1, x2, x3⟩ := step_line F.reader (m := St.chunkEnd) (m' := St.chunkHead) (t := [13, 10]) rfl hcr (by simp) rfl [] x g more hg (by rw [List.nil_append, e])
          (log1 ++ [.line l] ++ b.map .data)
        exact ⟨r, g', x1, x2, x3⟩)
    refine ⟨[.line l] ++ b.map .data ++ [.line [13, 10]] ++ log, N + b.length + 1 + k, ?_, fun n hn => ?_⟩
    · have : bodyOf ([Piece.line l] ++ b.map .data ++ [.line [13, 10]] ++ log) = bodyOf (b.map .data) ++ bodyOf log := by
        simp [bodyOf]
      rw [this, bodyOf_data, i1, hb2]
      rfl
    · obtain ⟨j, rfl, hj⟩ : ∃ j, n = j + b.length + 1 + k ∧ j ≥ N := ⟨n - k - 1 - b.length, by omega, by omega⟩
      have e1 : a ++ b ++ segs ++ more = a ++ (b ++ segs ++ more) := by simp
      rw [e1, a3, b3, List.nil_append, List.append_assoc b, step_data F true false (segs ++ more) b d.length _ hb1 (by rw [hb2]) hd]
      show readRequest F.reader j .chunkEnd [] false (segs ++ more) _ = _
      rw [i2 j hj]
      simp

/-- **C164** (partial): a chunked request is received exactly if no piece holds data of a chunk together with other bytes. -/
theorem C164_chunked_partial (F : Framing) (m : Message) (hm : m.Ok F) (cs : List (Bytes × Bytes)) (last : Bytes) (trailer : List Bytes) (hb : m.body = .chunks cs last trailer)
    (segs more : List Bytes) (ha : Aligned (last ++ trailer.flatten) (m.line ++ m.header.flatten) cs segs) :
    ∃ log N, Received log m ∧ ∀ n ≥ N, readRequest F.reader n .start [] false (segs ++ more) [] = (.complete [] more, log) := by
  have hbody := hm.body
  rw [hb] at hbody
  obtain ⟨h1, h2, h3, h4, h5, h6, h7, h8⟩ := hbody
  obtain ⟨log, N, i1, i2⟩ := aligned_steps F last trailer h3 h4 h5 h6 h7 h8 more _ cs segs ha h2 .start [] [.line m.line, .headers m.header] 2
    (fun x g more hg e => head_steps F m hm .chunkHead (by rw [St.recv, h1]) x g more hg e)
  exact ⟨_, N, ⟨log, rfl, by rw [i1, hb]; rfl⟩, i2⟩

/-- The pieces of `Aligned` are the message. -/
theorem aligned_bytes {tail pre : Bytes} {cs : List (Bytes × Bytes)} {segs : List Bytes} (h : Aligned tail pre cs segs) :
    segs.flatten = pre ++ (cs.map fun c => c.1 ++ c.2 ++ [13, 10]).flatten ++ tail := by
  induction h with
  | nil _ e => simpa using e
  | cons _ e1 _ e2 _ ih => simp [e1, e2, ih]

theorem step_line_buf {σ : Type} (R : Reader σ) {m m' : σ} {t : Bytes} (hm : R.mode m = some .line) (ht : Line t) (hr : R.recv m (.line t) = some m')
    (rest : Bytes) (segs : List Bytes) (log : List Piece) (n : Nat) :
    readRequest R (n + 1) m (t ++ rest) false segs log = readRequest R n m' rest false segs (log ++ [.line t]) := by
  rw [readRequest, hm]
  dsimp only
  rw [if_neg (by simp), splitSocket1, find_line ht]
  dsimp only
  rw [hr]

theorem step_headers_buf {σ : Type} (R : Reader σ) {m m' : σ} {ts : List Bytes} (hm : R.mode m = some .headers) (hts : Block ts) (hl : ∀ t ∈ ts, t.length ≤ 8190)
    (hl2 : ts.flatten.length ≤ 16380) (hr : R.recv m (.headers ts) = some m') (rest : Bytes) (segs : List Bytes) (log : List Piece) (n : Nat) :
    readRequest R (n + 1) m (ts.flatten ++ rest) false segs log = readRequest R n m' rest false segs (log ++ [.headers ts]) := by
  obtain ⟨r, g', h1, h2, h3, -⟩ := splitSocket_block 8190 16380 1 ts [] (ts.flatten ++ rest) rest [] hts hl (by simpa using hl2) (by simp) (by simp) (by simp [size])
  have := splitSocket_frame 8190 16380 segs 1 (size segs + 1) [] _ [] _ r g' h1 (by omega)
  have hg : g' = [] := by
    have h := splitSocket_frame 8190 16380 [] 1 1 [] _ [] _ r g' h1 (by omega)
    rw [splitSocket] at h1
    cases hsc : scan 8190 ((ts.flatten ++ rest).length + 1) [] (ts.flatten ++ rest) with
    | bad => rw [hsc] at h1; cases h1
    | done a b => rw [hsc] at h1; cases h1; rfl
    | more a b =>
      rw [hsc] at h1
      dsimp only at h1
      split at h1 <;> cases h1
  subst hg
  rw [List.flatten_nil, List.append_nil] at h2
  subst h2
  rw [readRequest, hm]
  dsimp only
  rw [if_neg (by simp)]
  rw [List.nil_append] at this
  rw [this]
  dsimp only [List.nil_append]
  rw [hr]

/-- The first piece holds the line, the header and more. -/
theorem head_buf (F : Framing) (m : Message) (hm : m.Ok F) (m' : St) (h' : St.recv F .header (.headers m.header) = some m') (w : Bytes) (segs : List Bytes)
    (hl : (m.line ++ m.header.flatten ++ w).length ≤ 8190) (n : Nat) :
    readRequest F.reader (n + 2) .start [] false ((m.line ++ m.header.flatten ++ w) :: segs) [] = readRequest F.reader n m' w false segs [.line m.line, .headers m.header] := by
  have hp := line_pos hm.line
  have e : readRequest F.reader (n + 2) .start [] false ((m.line ++ m.header.flatten ++ w) :: segs) [] =
      readRequest F.reader (n + 1) .header (m.header.flatten ++ w) false segs [.line m.line] := by
    rw [readRequest]
    rw [show F.reader.mode .start = some .line from rfl]
    dsimp only
    have hsz : ∃ j, size ((m.line ++ m.header.flatten ++ w) :: segs) = j + 1 := by
      refine ⟨size ((m.line ++ m.header.flatten ++ w) :: segs) - 1, ?_⟩
      have : 2 ≤ size ((m.line ++ m.header.flatten ++ w) :: segs) := by
        show 2 ≤ ((m.line ++ m.header.flatten ++ w) :: segs).flatten.length
        rw [List.flatten_cons, List.length_append, List.length_append, List.length_append]
        omega
      omega
    obtain ⟨j, hj⟩ := hsz
    rw [if_neg (by simp), hj, splitSocket1]
    rw [show findCRLF [] = none from rfl]
    dsimp only
    rw [if_neg (by simp), recvN, if_pos (by simpa using hl)]
    dsimp only
    rw [List.nil_append, splitSocket1, List.append_assoc, find_line hm.line]
    dsimp only
    rw [show F.reader.recv .start (.line m.line) = some .header by
      show St.recv F .start (.line m.line) = _
      rw [St.recv, if_neg (show ¬ m.line = crlf from hm.line_ne), if_pos hm.start]]
    rfl
  rw [e, step_headers_buf F.reader (m := St.header) (m' := m') rfl hm.header hm.header_line hm.header_len h']
  rfl

/-- Once `buffstr` is a str, no chunked request is completed. -/
theorem str_fails (F : Framing) : ∀ (n : Nat) (m : St) (segs : List Bytes) (log : List Piece), (m = .chunkEnd ∨ ∃ k, m = .data k true) →
    (readRequest F.reader n m [] true segs log).1 = .failed := by
  intro n
  induction n with
  | zero => intros; rfl
  | succ n ih =>
    intro m segs log hm
    rw [readRequest]
    rcases hm with rfl | ⟨k, rfl⟩
    · rfl
    · rw [show F.reader.mode (.data k true) = some (.data k) from rfl]
      dsimp only
      rw [if_neg (by simp), if_neg (by simp)]
      cases recvN k segs with
      | none => rfl
      | some p =>
        dsimp only
        rw [show F.reader.recv (.data k true) (.data p.1) = (if k ≤ p.1.length then some St.chunkEnd else some (St.data (k - p.1.length) true)) from rfl]
        by_cases hc : k ≤ p.1.length
        · rw [if_pos hc]; exact ih _ _ _ (.inl rfl)
        · rw [if_neg hc]; exact ih _ _ _ (.inr ⟨_, rfl⟩)

/-- **C164** (violation): a chunked request of which the first piece ends in, or just after, the data of the first chunk is never completed, in
whatever pieces the rest arrives: `buffstr = ''` (server.py:353) is not bytes. -/
theorem C164_chunked_violation (F : Framing) (m : Message) (hm : m.Ok F) (l d1 d2 : Bytes) (cs : List (Bytes × Bytes)) (last : Bytes) (trailer : List Bytes)
    (hb : m.body = .chunks ((l, d1 ++ d2) :: cs) last trailer) (h1 : d1 ≠ []) (hl : (m.line ++ m.header.flatten ++ (l ++ d1)).length ≤ 8190) (segs : List Bytes) (n : Nat) :
    (readRequest F.reader n .start [] false ((m.line ++ m.header.flatten ++ (l ++ d1)) :: segs) []).1 = .failed := by
  have hbody := hm.body
  rw [hb] at hbody
  obtain ⟨b1, b2, -⟩ := hbody
  obtain ⟨c1, c2, c3, c4⟩ := b2 (l, d1 ++ d2) (by simp)
  have hd : 0 < d1.length := List.length_pos_iff.mpr h1
  have hall : ∀ k, (readRequest F.reader (k + 4) .start [] false ((m.line ++ m.header.flatten ++ (l ++ d1)) :: segs) []).1 = .failed := by
    intro k
    rw [head_buf F m hm .chunkHead (by rw [St.recv, b1]) (l ++ d1) segs hl (k + 2)]
    rw [step_line_buf F.reader (m := St.chunkHead) (m' := St.data (d1 ++ d2).length true) (t := l) rfl c1
      (by show St.recv F .chunkHead (.line l) = _
          rw [St.recv, c4]; dsimp only; rw [if_neg (by rw [List.length_append]; omega)])]
    rw [readRequest, show F.reader.mode (.data (d1 ++ d2).length true) = some (.data (d1 ++ d2).length) from rfl]
    dsimp only
    rw [if_neg (by rw [List.length_append]; omega), if_pos h1]
    rw [show F.reader.recv (.data (d1 ++ d2).length true) (.data d1) = (if (d1 ++ d2).length ≤ d1.length then some St.chunkEnd else some (St.data ((d1 ++ d2).length - d1.length) true)) from rfl]
    by_cases hc : (d1 ++ d2).length ≤ d1.length
    · rw [if_pos hc]; exact str_fails F _ _ _ _ (.inl rfl)
    · rw [if_neg hc]; exact str_fails F _ _ _ _ (.inr ⟨_, rfl⟩)
  match n with
  | 0 => rfl
  | 1 =>
    by_contra hne
    exact hne (by
      rw [readRequest, show F.reader.mode .start = some .line from rfl]
      dsimp only
      rw [if_neg (by simp)]
      have h0 := hall 0
      obtain ⟨r, g', a1, a2, a3, -⟩ := splitSocket1_line 8190 (size [m.line ++ m.header.flatten ++ (l ++ d1)] + 1) m.line [] (m.header.flatten ++ (l ++ d1)) [m.line ++ m.header.flatten ++ (l ++ d1)]
        hm.line hm.line_len (by intro s hs e0; rw [List.mem_singleton] at hs; rw [hs] at e0; have := congrArg List.length e0; have hp := line_pos hm.line; simp only [List.length_append, List.length_nil] at this; omega)
        (by simp) (by omega)
      have := splitSocket1_frame 8190 segs _ (size ((m.line ++ m.header.flatten ++ (l ++ d1)) :: segs) + 1) [] _ _ r g' a1 (by simp [size])
      rw [List.singleton_append] at this
      rw [this]
      dsimp only
      cases F.reader.recv St.start (.line m.line) <;> rfl)
  | 2 =>
    rw [head_buf F m hm .chunkHead (by rw [St.recv, b1]) (l ++ d1) segs hl 0]
    rfl
  | 3 =>
    rw [head_buf F m hm .chunkHead (by rw [St.recv, b1]) (l ++ d1) segs hl 1]
    rw [step_line_buf F.reader (m := St.chunkHead) (m' := St.data (d1 ++ d2).length true) (t := l) rfl c1
      (by show St.recv F .chunkHead (.line l) = _
          rw [St.recv, c4]; dsimp only; rw [if_neg (by rw [List.length_append]; omega)])]
    rfl
  | k + 4 => exact hall k

/-- **C164** (violation): what the client has sent after a request in the same piece is lost, whatever it is: the next request starts with an empty
buffer (server.py:288). -/
theorem C164_pipeline_violation (F : Framing) (m : Message) (hm : m.Ok F) (hb : ∀ cs l t, m.body ≠ .chunks cs l t) (w : Bytes) (hw : w ≠ []) (hl : (m.bytes ++ w).length ≤ 8190)
    (steps : Nat) (hst : 4 ≤ steps) (n : Nat) (hn : 1 ≤ n) :
    ∃ log, Received log m ∧ handleRequests F.reader .start steps n [m.bytes ++ w] = [log] := by
  have hend : ∀ k, handleRequests F.reader .start steps k [] = [] := by
    intro k
    cases k with
    | zero => rfl
    | succ k =>
      rw [handleRequests]
      obtain ⟨j, rfl⟩ : ∃ j, steps = j + 1 := ⟨steps - 1, by omega⟩
      rw [readRequest]
      rfl
  have hwl : 0 < w.length := List.length_pos_iff.mpr hw
  obtain ⟨k, rfl⟩ : ∃ k, n = k + 1 := ⟨n - 1, by omega⟩
  obtain ⟨j, rfl⟩ : ∃ j, steps = j + 1 + 1 + 2 := ⟨steps - 4, by omega⟩
  have hbody := hm.body
  have key : ∃ log buf, Received log m ∧ readRequest F.reader (j + 1 + 1 + 2) .start [] false [m.bytes ++ w] [] = (.complete buf [], log) := by
    have e : m.bytes ++ w = m.line ++ m.header.flatten ++ (m.body.bytes ++ w) := by rw [Message.bytes, List.append_assoc]
    rw [e] at hl ⊢
    have fin : m.body.data = [] → St.recv F .header (.headers m.header) = some .finished →
        ∃ log buf, Received log m ∧ readRequest F.reader (j + 1 + 1 + 2) .start [] false [m.line ++ m.header.flatten ++ (m.body.bytes ++ w)] [] = (.complete buf [], log) := by
      intro g1 g2
      rw [head_buf F m hm .finished g2 _ [] hl (j + 1 + 1), finished_stop]
      exact ⟨_, _, ⟨[], rfl, by rw [g1]; rfl⟩, rfl⟩
    cases hbd : m.body with
    | none =>
      rw [hbd] at hbody fin
      exact fin rfl (by rw [St.recv, hbody])
    | chunks cs l t => exact absurd hbd (hb cs l t)
    | plain d =>
      rw [hbd] at hbody fin hl
      dsimp only at hbody
      by_cases hd : d = []
      · exact fin hd (by rw [St.recv, hbody]; simp [hd])
      · have hdl : 0 < d.length := List.length_pos_iff.mpr hd
        rw [show (Body.plain d).bytes = d from rfl] at hl ⊢
        rw [head_buf F m hm (.data d.length false) (by rw [St.recv, hbody]; dsimp only; rw [if_neg (by omega)]) _ [] hl (j + 1 + 1)]
        rw [readRequest, show F.reader.mode (.data d.length false) = some (.data d.length) from rfl]
        dsimp only
        rw [if_pos (by rw [List.length_append]; omega), List.take_left, List.drop_left]
        rw [show F.reader.recv (.data d.length false) (.data d) = some St.finished by
          show (if d.length ≤ d.length then some St.finished else _) = _
          rw [if_pos (Nat.le_refl _)]]
        dsimp only
        rw [finished_stop]
        exact ⟨_, _, ⟨[.data d], rfl, by rw [hbd]; simp [bodyOf, Body.data]⟩, rfl⟩
  obtain ⟨log, buf, g1, g2⟩ := key
  refine ⟨log, g1, ?_⟩
  rw [handleRequests, g2]
  dsimp only
  rw [hend]

/-- **C164**: an empty line before a request is skipped, in whatever pieces it arrives: the request is as before, and no byte after the line is lost. -/
theorem C164_blank_line (F : Framing) (b rest : Bytes) (segs : List Bytes) (hs : ∀ s ∈ segs, s ≠ []) (e : b ++ segs.flatten = [13, 10] ++ rest) (log : List Piece) :
    ∃ r segs', r ++ segs'.flatten = rest ∧ ∀ n, readRequest F.reader (n + 1) .start b false segs log = readRequest F.reader n .start r false segs' (log ++ [.line [13, 10]]) := by
  have hcr : Line [13, 10] := by
    refine ⟨⟨[], rfl⟩, fun p q e => ?_⟩
    have := congrArg List.length e
    simp at this
    exact List.length_eq_zero_iff.mp (by omega)
  obtain ⟨r, g', -, x2, x3⟩ := step_line F.reader (m := St.start) (m' := St.start) (t := [13, 10]) rfl hcr (by simp)
    (by show St.recv F .start (.line [13, 10]) = _
        rw [St.recv, if_pos (show ([13, 10] : Bytes) = crlf from rfl)]) b rest segs [] hs e log
  refine ⟨r, g', x2, fun n => ?_⟩
  have := x3 n
  rwa [List.append_nil, List.append_nil] at this

/-! ### the hypotheses are met -/

/-- A framing: `L` starts a request, a header line `T` means chunked and `2` two bytes; a chunk size is one decimal digit. -/
def demoFraming : Framing where
  start l := l.head? == some 76
  body ls := if [84, 13, 10] ∈ ls then some .chunked else if [50, 13, 10] ∈ ls then some (.length 2) else some .none
  chunkSize l := match l with | [c, 13, 10] => if 48 ≤ c then some (c - 48) else none | _ => none

theorem line_iff (t : Bytes) (h : findCRLF t = some (t, [])) : Line t := by
  obtain ⟨-, u, hu⟩ := find_eq h
  refine ⟨⟨u, hu⟩, fun p q e => ?_⟩
  obtain ⟨l, r, h1, h2⟩ := find_some p q
  rw [← e, h] at h1
  simp only [Option.some.injEq, Prod.mk.injEq] at h1
  obtain ⟨rfl, rfl⟩ := h1
  have := congrArg List.length e
  simp at this
  exact List.length_eq_zero_iff.mp (by omega)

/-- `L CRLF 2 CRLF CRLF ab`. -/
def demoPlain : Message := ⟨[76, 13, 10], [[50, 13, 10], [13, 10]], .plain [97, 98]⟩
/-- `L CRLF T CRLF CRLF 2 CRLF ab CRLF 0 CRLF CRLF`. -/
def demoChunked : Message := ⟨[76, 13, 10], [[84, 13, 10], [13, 10]], .chunks [([50, 13, 10], [97, 98])] [48, 13, 10] [[13, 10]]⟩

theorem demoPlain_ok : demoPlain.Ok demoFraming where
  line := line_iff _ (by decide +kernel)
  line_ne := by decide
  line_len := by decide
  start := by decide
  header := ⟨by intro t ht; refine line_iff t ?_; revert t; decide +kernel, by decide, by decide⟩
  header_line := by decide
  header_len := by decide
  body := by show demoFraming.body _ = _; decide +kernel

theorem demoChunked_ok : demoChunked.Ok demoFraming where
  line := line_iff _ (by decide +kernel)
  line_ne := by decide
  line_len := by decide
  start := by decide
  header := ⟨by intro t ht; refine line_iff t ?_; revert t; decide +kernel, by decide, by decide⟩
  header_line := by decide
  header_len := by decide
  body := by
    refine ⟨by decide +kernel, ?_, line_iff _ (by decide +kernel), by decide, by decide +kernel, ⟨?_, by decide, by decide⟩, by decide, by decide⟩
    · intro c hc
      rw [List.mem_singleton] at hc
      subst hc
      exact ⟨line_iff _ (by decide +kernel), by decide, by decide, by decide +kernel⟩
    · intro t ht
      rw [List.mem_singleton] at ht
      subst ht
      exact line_iff _ (by decide +kernel)

/-- **C164** (violation): the same bytes, a chunked request, are received or fail according to the pieces in which they arrive. -/
theorem C164_witness : ∃ p q : List Bytes, p.flatten = demoChunked.bytes ∧ q.flatten = demoChunked.bytes ∧
    (readRequest demoFraming.reader 20 .start [] false p []).1 = .complete [] [] ∧ (readRequest demoFraming.reader 20 .start [] false q []).1 = .failed :=
  ⟨[demoChunked.bytes], [demoChunked.bytes.take 13, demoChunked.bytes.drop 13], by decide +kernel, by decide +kernel, by decide +kernel, by decide +kernel⟩

/-- **C164** (violation): two requests in one piece, and in two. -/
theorem C164_pipeline_witness : (handleRequests demoFraming.reader .start 20 5 [demoPlain.bytes ++ demoPlain.bytes]).length = 1 ∧
    (handleRequests demoFraming.reader .start 20 5 [demoPlain.bytes, demoPlain.bytes]).length = 2 := by decide +kernel

example : Aligned ([48, 13, 10] ++ [[13, 10]].flatten) (demoChunked.line ++ demoChunked.header.flatten) [([50, 13, 10], [97, 98])]
    ([demoChunked.bytes.take 11] ++ [[97], [98]] ++ [demoChunked.bytes.drop 13]) :=
  .cons (by decide) (by decide) (by decide) (by decide) (.nil (by decide) (by decide))

end Verif.Http.Srv


import Verif.Http.MessageProps
/-!
# The client connection receives responses, `pyslet/http/client.py:813-950`: C50, C51
-/
namespace Verif.Http

/-- `s.find(p)` for a `p` that is not empty. -/
def findSub (p : Bytes) : Bytes → Option Nat
  | [] => none
  | b :: r => if p.isPrefixOf (b :: r) then some 0 else (findSub p r).map (· + 1)

/-- `s.split(CRLF)`. -/
def splitCRLF : Bytes → List Bytes
  | [] => [[]]
  | [b] => [[b]]
  | b :: c :: r => if b = 13 ∧ c = 10 then [] :: splitCRLF r else
    match splitCRLF (c :: r) with
    | [] => [[b]]
    | h :: t => (b :: h) :: t

/-- How the loop of `_recv_task` goes on: another iteration, `break`, or `return (True, False, False)`. -/
inductive Turn where
  | go | wait | done
  deriving DecidableEq, Repr

/-- `self.recv_buffer` after `data` is left over, client.py:881-886, 903-908. -/
def rebuf (data : Bytes) : List Bytes := if data ≠ [] then [data] else []

/-- The lines of the header in the buffer and what follows, client.py:860-880: `none` if the header is not complete. -/
def takeHeader (data : Bytes) : Option (List Bytes × Bytes) :=
  match findSub CRLF data with
  | some 0 => some ([CRLF], data.drop 2)
  | some (_ + 1) => match findSub (CRLF ++ CRLF) data with
    | some pos => some ((splitCRLF (data.take (pos + 2))).map (· ++ CRLF), data.drop (pos + 4))
    | none => none
  | none => none

/-- A line and what follows, client.py:892-902. -/
def takeLine (data : Bytes) : Option (Bytes × Bytes) :=
  match findSub CRLF data with
  | some pos => some (data.take (pos + 2), data.drop (pos + 2))
  | none => none

/-- One iteration of the loop of `_recv_task`, client.py:853-948, for `err = None`. -/
def iter (bufs : List Bytes) (m : Msg) : Except Fail (List Bytes × Msg × Turn) :=
  match m.recvMode with
  | none => .ok (bufs, m, .done)
  | some need =>
    if need = -3 then
      match takeHeader bufs.flatten with
      | some (lines, data) => do return (rebuf data, ← m.recv (.lines lines), .go)
      | none => .ok (bufs, m, .wait)
    else if need = -2 then
      match takeLine bufs.flatten with
      | some (line, data) => do return (rebuf data, ← m.recv (.bytes line), .go)
      | none => .ok (bufs, m, .wait)
    else if need = -1 then
      match bufs with
      | data :: bs => do return (bs, ← m.recv (.bytes data), .go)
      | [] => .ok (bufs, m, .wait)
    else if need = 0 then do return (bufs, ← m.recv .none, .go)
    else if need > 0 then
      match bufs with
      | data :: bs =>
        if (data.length : Int) ≤ need then do return (bs, ← m.recv (.bytes data), .go)
        else do return (data.drop need.toNat :: bs, ← m.recv (.bytes (data.take need.toNat)), .go)
      | [] => .ok (bufs, m, .wait)
    else .error .type

/-- The loop of `_recv_task`, client.py:853-949. -/
def loop : Nat → List Bytes → Msg → Except Fail (List Bytes × Msg × Bool)
  | 0, _, _ => .error .fuel
  | n + 1, bufs, m => do
    match ← iter bufs m with
    | (bufs, m, .go) => loop n bufs m
    | (bufs, m, .wait) => return (bufs, m, false)
    | (bufs, m, .done) => return (bufs, m, true)

/-- A connection: `recv_buffer`, `response`, `response_queue`, and the responses that are complete. -/
structure Conn where
  bufs : List Bytes
  resp : Option Msg
  queue : List Msg
  finished : List Msg
  deriving DecidableEq, Repr

/-- `_recv_task` when the socket returns `data`, and what `connection_task` does when a response is complete,
client.py:339-374, 813-949; without `response` the socket is not read.  The fuel is enough, as C50 shows. -/
def Conn.onData (c : Conn) (data : Bytes) : Except Fail Conn :=
  match c.resp with
  | none => .ok c
  | some m => do
    let bufs := c.bufs ++ [data]
    let r ← loop (2 * bufs.flatten.length + m.cost + 1) bufs m
    if r.2.2 then
      match c.queue with
      | q :: qs => return ⟨r.1, some q.startReceiving, qs, c.finished ++ [r.2.1]⟩
      | [] => return ⟨r.1, none, [], c.finished ++ [r.2.1]⟩
    else return { c with bufs := r.1, resp := some r.2.1 }

/-- The connection reads the pieces of data one after the other. -/
def Conn.onReads (c : Conn) : List Bytes → Except Fail Conn
  | [] => .ok c
  | d :: ds => do (← c.onData d).onReads ds

/-! ## Specification -/

/-- An interim response, after which the final response follows. -/
def Interim (n : Nat) : Prop := 100 ≤ n ∧ n ≤ 199 ∧ n ≠ 101

/-- What a client sees of a response: status line, header fields and body. -/
structure Out where
  start : Start
  headers : Headers
  body : Bytes
  deriving DecidableEq, Repr

/-- The bytes are those of any number of interim responses and of a response that the client sees as `o`.  `fl`: `flush` of the
stream for the body may block, which is only allowed for bodies with a given length. -/
inductive Bytes.Are (head fl : Bool) (o : Out) : Bytes → Prop where
  | last (w : Wire) (h h' : Headers) (st : Start) : Framed head w st h h' → ¬ Interim st.status → (fl = true → ∃ b, w.body = .raw b) →
      o = ⟨st, h', w.body.data⟩ → Bytes.Are head fl o w.bytes
  | interim (w : Wire) (h h' : Headers) (st : Start) (bs : Bytes) : Framed head w st h h' → Interim st.status → Bytes.Are head fl o bs →
      Bytes.Are head fl o (w.bytes ++ bs)

/-- The client sees the message `m` as `o`. -/
def Msg.Is (m : Msg) (o : Out) : Prop := m.start = some o.start ∧ m.headers = o.headers ∧ m.body = o.body

/-- A response that has not received anything. -/
structure Fresh (m : Msg) : Prop where
  mode : m.mode = .start
  headers : m.headers = []
  curr : m.curr = none
  buf : m.buf = []
  body : m.body = []

/-! ## Proofs -/

theorem findSub_append {p s : Bytes} {i : Nat} (h : findSub p s = some i) (t : Bytes) : findSub p (s ++ t) = some i := by
  induction s generalizing i with
  | nil => cases h
  | cons b s ih =>
    rw [findSub] at h
    rw [List.cons_append, findSub]
    split at h
    · rename_i hp
      cases h
      rw [if_pos]
      rw [List.isPrefixOf_iff_prefix] at hp ⊢
      exact hp.trans ⟨t, by simp⟩
    · rename_i hp
      cases hf : findSub p s with
      | none => rw [hf] at h; cases h
      | some j =>
        rw [hf] at h
        simp only [Option.map_some, Option.some.injEq] at h
        rw [ih hf]
        rw [if_neg]
        · simp [h]
        · intro hq
          have : ∃ k, findSub p (b :: s) = some k := by
            rw [findSub]; rw [if_neg hp, hf]; exact ⟨_, rfl⟩
          -- `p` does not fit at the start of `b :: s`, but does at the start of `b :: s ++ t`: then `s` is too short
          have hlen : j + p.length ≤ s.length := by
            clear ih hq this h hp
            induction s generalizing j with
            | nil => cases hf
            | cons c s ih2 =>
              rw [findSub] at hf
              split at hf
              · rename_i hp; cases hf
                have := (List.isPrefixOf_iff_prefix.mp hp).length_le
                simpa using this
              · cases hg : findSub p s with
                | none => rw [hg] at hf; cases hf
                | some k =>
                  rw [hg] at hf; simp only [Option.map_some, Option.some.injEq] at hf
                  have := ih2 k hg
                  simp; omega
          rw [List.isPrefixOf_iff_prefix] at hq
          apply hp
          rw [List.isPrefixOf_iff_prefix]
          have h2 : (b :: s) <+: (b :: (s ++ t)) := ⟨t, by simp⟩
          exact List.prefix_of_prefix_length_le hq h2 (by simp; omega)

theorem findSub_len {p s : Bytes} {i : Nat} (h : findSub p s = some i) : i + p.length ≤ s.length := by
  induction s generalizing i with
  | nil => cases h
  | cons c s ih =>
    rw [findSub] at h
    split at h
    · rename_i hp; cases h
      have := (List.isPrefixOf_iff_prefix.mp hp).length_le
      simpa using this
    · cases hg : findSub p s with
      | none => rw [hg] at h; cases h
      | some k =>
        rw [hg] at h; simp only [Option.map_some, Option.some.injEq] at h
        have := ih hg
        simp; omega

theorem noCRLF_cons {b : Nat} {l : Bytes} (h : NoCRLF (b :: l)) : NoCRLF l := by
  intro x y e; exact h (b :: x) y (by rw [e]; rfl)

theorem noCRLF_head {b c : Nat} {l : Bytes} (h : NoCRLF (b :: c :: l)) : ¬ (b = 13 ∧ c = 10) := by
  rintro ⟨rfl, rfl⟩; exact h [] l rfl

theorem find_line {l : Bytes} (h : NoCRLF l) (r : Bytes) : findSub CRLF (l ++ CRLF ++ r) = some l.length := by
  induction l with
  | nil => simp [CRLF, findSub]
  | cons b l ih =>
    rw [List.cons_append, List.cons_append, findSub, ih (noCRLF_cons h), if_neg]
    · simp
    · cases l with
      | nil => simp [CRLF]
      | cons c l => have := noCRLF_head h; simp [CRLF]; intro h1 h2; exact this ⟨h1.symm, h2.symm⟩

theorem block_cons (l : Bytes) (ls : List Bytes) : block (l :: ls) = l ++ CRLF ++ block ls := by simp [block]

theorem find_blank : ∀ (ls : List Bytes) (l : Bytes), NoCRLF l → Lines ls → ∀ r,
    findSub (CRLF ++ CRLF) (l ++ CRLF ++ block ls ++ r) = some ((block (l :: ls)).length - 4) := by
  intro ls
  induction ls with
  | nil =>
    intro l hl _ r
    induction l with
    | nil => simp [block, CRLF, findSub]
    | cons b l ih =>
      have e : b :: l ++ CRLF ++ block [] ++ r = b :: (l ++ CRLF ++ block [] ++ r) := by simp
      rw [e, findSub, ih (noCRLF_cons hl), if_neg]
      · simp [block, CRLF]
      · cases l with
        | nil => simp [CRLF]
        | cons c l => have := noCRLF_head hl; simp [CRLF]; intro h1 h2; exact absurd ⟨h1.symm, h2.symm⟩ this
  | cons l2 ls ih =>
    intro l hl hls r
    obtain ⟨h2n, h2⟩ := hls l2 (by simp)
    have ih' := ih l2 h2 (fun x hx => hls x (by simp [hx])) r
    rw [block_cons] at ih' ⊢
    induction l with
    | nil =>
      have e : [] ++ CRLF ++ (l2 ++ CRLF ++ block ls) ++ r = 13 :: 10 :: (l2 ++ CRLF ++ block ls ++ r) := by simp [CRLF]
      rw [e, findSub, findSub, ih', if_neg, if_neg]
      · simp [CRLF, block]; omega
      · simp [CRLF]
      · obtain ⟨b, l2, rfl⟩ := List.exists_cons_of_ne_nil h2n
        cases l2 with
        | nil => simp [CRLF]
        | cons c l2 => have := noCRLF_head h2; simp [CRLF]; intro h1 h2; exact absurd ⟨h1.symm, h2.symm⟩ this
    | cons b l ihl =>
      have e : b :: l ++ CRLF ++ (l2 ++ CRLF ++ block ls) ++ r = b :: (l ++ CRLF ++ (l2 ++ CRLF ++ block ls) ++ r) := by simp
      rw [e, findSub, ihl (noCRLF_cons hl), if_neg]
      · simp [block, CRLF]; omega
      · cases l with
        | nil => simp [CRLF]
        | cons c l => have := noCRLF_head hl; simp [CRLF]; intro h1 h2; exact absurd ⟨h1.symm, h2.symm⟩ this

theorem splitCRLF_ne : ∀ s, splitCRLF s ≠ [] := by
  intro s
  match s with
  | [] => simp [splitCRLF]
  | [b] => simp [splitCRLF]
  | b :: c :: r =>
    rw [splitCRLF]
    split
    · simp
    · split <;> simp

theorem splitCRLF_line : ∀ {l : Bytes}, NoCRLF l → ∀ r, splitCRLF (l ++ CRLF ++ r) = l :: splitCRLF r := by
  intro l
  induction l with
  | nil => intro _ r; simp [CRLF, splitCRLF]
  | cons b l ih =>
    intro h r
    have ih' := ih (noCRLF_cons h) r
    cases l with
    | nil =>
      simp only [CRLF, List.nil_append, List.cons_append] at ih' ⊢
      rw [splitCRLF, ih', if_neg (by simp)]
    | cons c l =>
      simp only [List.cons_append] at ih' ⊢
      rw [splitCRLF, ih', if_neg (noCRLF_head h)]

theorem splitCRLF_lines : ∀ {ls : List Bytes}, Lines ls → splitCRLF ((ls.map (· ++ CRLF)).flatten) = ls ++ [[]] := by
  intro ls
  induction ls with
  | nil => intro _; rfl
  | cons l ls ih =>
    intro h
    simp only [List.map_cons, List.flatten_cons]
    rw [splitCRLF_line (h l (by simp)).2, ih (fun x hx => h x (by simp [hx]))]
    rfl

/-- A line at the start of the stream is found when all of it is in the buffer. -/
theorem takeLine_spec {buf u l r : Bytes} (h : NoCRLF l) (e : buf ++ u = l ++ CRLF ++ r) :
    (takeLine buf = none ∧ u ≠ []) ∨ ∃ r', takeLine buf = some (l ++ CRLF, r') ∧ r' ++ u = r ∧ r'.length < buf.length := by
  unfold takeLine
  cases hf : findSub CRLF buf with
  | none =>
    refine .inl ⟨rfl, ?_⟩
    rintro rfl
    rw [List.append_nil] at e
    rw [e, find_line h] at hf
    cases hf
  | some i =>
    have h1 := findSub_append hf u
    rw [e, find_line h] at h1
    cases h1
    have hlen := findSub_len hf
    have hc : CRLF.length = 2 := rfl
    rw [hc] at hlen
    have hb : buf = l ++ CRLF ++ buf.drop (l.length + 2) := by
      have h2 := congrArg (List.take (l.length + 2)) e
      rw [List.take_append_of_le_length hlen, List.take_append_of_le_length (by simp [CRLF])] at h2
      have h3 : List.take (l.length + 2) (l ++ CRLF) = l ++ CRLF := List.take_of_length_le (by simp [CRLF])
      rw [h3] at h2
      conv => lhs; rw [← List.take_append_drop (l.length + 2) buf, h2]
    refine .inr ⟨buf.drop (l.length + 2), ?_, ?_, by simp; omega⟩
    · simp only [Option.some.injEq, Prod.mk.injEq, and_true]
      conv => lhs; rw [hb]
      rw [List.take_append_of_le_length (by simp [CRLF])]
      exact List.take_of_length_le (by simp [CRLF])
    · rw [hb, List.append_assoc] at e
      exact List.append_cancel_left e

/-- The header at the start of the stream is found when all of it is in the buffer. -/
theorem takeHeader_spec {buf u r : Bytes} {ls : List Bytes} (h : Lines ls) (e : buf ++ u = block ls ++ r) :
    (takeHeader buf = none ∧ u ≠ []) ∨
    ∃ r', takeHeader buf = some (ls.map (· ++ CRLF) ++ [CRLF], r') ∧ r' ++ u = r ∧ r'.length < buf.length := by
  unfold takeHeader
  cases ls with
  | nil =>
    have hb : block [] = CRLF := rfl
    have e' : buf ++ u = [] ++ CRLF ++ r := by simpa [hb] using e
    have hn : NoCRLF [] := by intro a b; simp
    cases hf : findSub CRLF buf with
    | none =>
      refine .inl ⟨rfl, ?_⟩
      rintro rfl
      rw [List.append_nil] at e'
      rw [e', find_line hn] at hf
      cases hf
    | some i =>
      have h1 := findSub_append hf u
      rw [e', find_line hn] at h1
      cases h1
      obtain hh | ⟨r', h1, h2, h3⟩ := takeLine_spec hn e'
      · unfold takeLine at hh; rw [hf] at hh; cases hh.1
      · unfold takeLine at h1
        rw [hf] at h1
        simp only [Option.some.injEq, Prod.mk.injEq] at h1
        exact .inr ⟨buf.drop 2, rfl, by rw [← h2, ← h1.2]; rfl, by rw [← h1.2] at h3; exact h3⟩
  | cons l ls =>
    obtain ⟨hln, hl⟩ := h l (by simp)
    have hls : Lines ls := fun x hx => h x (by simp [hx])
    rw [block_cons] at e
    have e1 : buf ++ u = l ++ CRLF ++ (block ls ++ r) := by rw [e]; simp
    have hfull := find_blank ls l hl hls r
    cases hf : findSub CRLF buf with
    | none =>
      refine .inl ⟨rfl, ?_⟩
      rintro rfl
      rw [List.append_nil] at e1
      rw [e1, find_line hl] at hf
      cases hf
    | some i =>
      have h1 := findSub_append hf u
      rw [e1, find_line hl] at h1
      simp only [Option.some.injEq] at h1
      have : l.length ≠ 0 := by simpa using hln
      obtain ⟨k, rfl⟩ : ∃ k, i = k + 1 := ⟨i - 1, by omega⟩
      dsimp only
      cases hg : findSub (CRLF ++ CRLF) buf with
      | none =>
        refine .inl ⟨rfl, ?_⟩
        rintro rfl
        rw [List.append_nil] at e
        rw [e, hfull] at hg
        cases hg
      | some j =>
        have h2 := findSub_append hg u
        rw [e, hfull] at h2
        simp only [Option.some.injEq] at h2
        have hlen := findSub_len hg
        have hc : (CRLF ++ CRLF).length = 4 := rfl
        rw [hc] at hlen
        have hbl : 4 ≤ (block (l :: ls)).length := by simp [block, CRLF]; omega
        have hj : j + 4 = (block (l :: ls)).length := by omega
        rw [← block_cons] at e
        have hb : buf = block (l :: ls) ++ buf.drop (j + 4) := by
          have h2 := congrArg (List.take (j + 4)) e
          rw [List.take_append_of_le_length hlen, List.take_append_of_le_length (by omega), hj, List.take_length] at h2
          conv => lhs; rw [← List.take_append_drop (j + 4) buf, hj, h2]
          rw [hj]
        have ht : buf.take (j + 2) = ((l :: ls).map (· ++ CRLF)).flatten := by
          have hlen2 : (((l :: ls).map (· ++ CRLF)).flatten).length = j + 2 := by
            have : (block (l :: ls)).length = (((l :: ls).map (· ++ CRLF)).flatten).length + 2 := by
              rw [block, List.length_append]; rfl
            omega
          conv => lhs; rw [hb, block, List.append_assoc]
          rw [List.take_append_of_le_length (by omega), ← hlen2, List.take_length]
        refine .inr ⟨buf.drop (j + 4), ?_, ?_, by simp; omega⟩
        · dsimp only
          rw [ht, splitCRLF_lines h]
          simp [CRLF]
        · rw [hb, List.append_assoc] at e
          exact List.append_cancel_left e

/-- The response `m` is receiving a response that the client sees as `o`, and the bytes have not been passed to it. -/
inductive Job (head fl : Bool) (o : Out) : Msg → Bytes → Prop where
  | last (w : Wire) (h h' : Headers) (st : Start) (m : Msg) (rest : Bytes) : Framed head w st h h' → ¬ Interim st.status →
      (fl = true → ∃ b, w.body = .raw b) → o = ⟨st, h', w.body.data⟩ → Rem w st h h' m rest → Job head fl o m rest
  | interim (w : Wire) (h h' : Headers) (st : Start) (m : Msg) (rest bs : Bytes) : Framed head w st h h' → Interim st.status →
      Bytes.Are head fl o bs → Rem w st h h' m rest → m.mode ≠ .done → Job head fl o m (rest ++ bs)

theorem Job.fresh {head fl : Bool} {o : Out} {bs : Bytes} (h : Bytes.Are head fl o bs) {m : Msg} (F : Fresh m) (hfl : fl = false → m.flushes = []) :
    Job head fl o m bs := by
  have hr : ∀ (w : Wire) (hd h' : Headers) (st : Start), (fl = true → ∃ b, w.body = .raw b) → Rem w st hd h' m w.bytes := by
    intro w hd h' st hb
    refine .start m F.mode F.headers F.curr F.buf F.body ?_
    intro hn
    cases fl with
    | false => exact hfl rfl
    | true => obtain ⟨b, hb⟩ := hb rfl; exact absurd hb (hn b)
  cases h with
  | last w h h' st hF hI hfw ho => exact .last w h h' st m _ hF hI hfw ho (hr w h h' st hfw)
  | interim w h h' st bs hF hI hA =>
    refine .interim w h h' st m _ bs hF hI hA (hr w h h' st ?_) (by rw [F.mode]; decide)
    intro _
    cases hb : w.body with
    | raw b => exact ⟨b, rfl⟩
    | chunked cs last tr =>
      have := (hF.chunked cs last tr hb).1
      unfold responseFrame at this
      rw [if_pos (.inl (by have := hI.1; have := hI.2.1; omega))] at this
      cases this

/-- A response that is being received gets what it asks for. -/
theorem Job.step {head fl : Bool} {o : Out} {m : Msg} {rest : Bytes} (J : Job head fl o m rest) (hm : m.head = head)
    (hfl : fl = false → m.flushes = []) :
    (m.recvMode = none ∧ rest = [] ∧ m.Is o) ∨
    (m.recvMode = some (-2) ∧ ∃ l rest', rest = l ++ CRLF ++ rest' ∧ NoCRLF l ∧ ∃ m', m.recv (.bytes (l ++ CRLF)) = .ok m' ∧
      Job head fl o m' rest' ∧ m'.head = head ∧ (fl = false → m'.flushes = []) ∧ m'.cost ≤ m.cost + 1) ∨
    (m.recvMode = some (-3) ∧ ∃ ls rest', rest = block ls ++ rest' ∧ Lines ls ∧ ∃ m', m.recv (.lines (ls.map (· ++ CRLF) ++ [CRLF])) = .ok m' ∧
      Job head fl o m' rest' ∧ m'.head = head ∧ (fl = false → m'.flushes = []) ∧ m'.cost ≤ m.cost + 1) ∨
    (∃ n : Nat, m.recvMode = some (n : Int) ∧ 0 < n ∧ n ≤ rest.length ∧ ∀ d e, rest = d ++ e → d ≠ [] → d.length ≤ n →
      ∃ m', m.recv (.bytes d) = .ok m' ∧ Job head fl o m' e ∧ m'.head = head ∧ (fl = false → m'.flushes = []) ∧ m'.cost ≤ m.cost + 1) ∨
    (m.recvMode = some 0 ∧ ∃ m', m.recv .none = .ok m' ∧ Job head fl o m' rest ∧ m'.head = head ∧ (fl = false → m'.flushes = []) ∧ m'.cost < m.cost) := by
  have fin : ∀ {m' : Msg} {a : Arg} {r : Bytes} {k : Nat} {w : Wire} {h h' : Headers} {st : Start}, m.recvCore a = .ok m' → Framed head w st h h' →
      Rem w st h h' m' r → m'.head = head → m'.cost ≤ k → ∀ {bs : Bytes},
      (bs = [] ∧ ¬ Interim st.status ∧ (fl = true → ∃ b, w.body = .raw b) ∧ o = ⟨st, h', w.body.data⟩) ∨ (Interim st.status ∧ Bytes.Are head fl o bs) →
      ∃ m2, m.recv a = .ok m2 ∧ Job head fl o m2 (r ++ bs) ∧ m2.head = head ∧ (fl = false → m2.flushes = []) ∧ m2.cost ≤ k := by
    intro m' a r k w h h' st hc hF R hhd hk bs hcase
    have hflu : fl = false → m'.flushes = [] := fun hf => recvCore_flushes hc (hfl hf)
    unfold Msg.recv
    simp only [hc, bind, Except.bind]
    by_cases hd : m'.mode = .done
    · rw [if_pos hd]
      cases R with
      | done h1 h2 h3 h4 h5 h6 =>
        rcases hcase with ⟨rfl, hI, hb, ho⟩ | ⟨hI, hA⟩
        · refine ⟨m', ?_, .last w h h' st m' _ hF hI hb ho (.done m' h1 h2 h3 h4 h5 h6), hhd, hflu, hk⟩
          unfold Msg.handleMessage; rw [h2]; dsimp only; rw [if_neg (show ¬ (100 ≤ st.status ∧ st.status ≤ 199 ∧ st.status ≠ 101) from hI)]; rfl
        · refine ⟨m'.startReceiving, ?_, ?_, hhd, hflu, ?_⟩
          · unfold Msg.handleMessage; rw [h2]; dsimp only; rw [if_pos (show 100 ≤ st.status ∧ st.status ≤ 199 ∧ st.status ≠ 101 from hI)]; rfl
          · rw [List.nil_append]
            refine Job.fresh hA ⟨rfl, rfl, rfl, h5, ?_⟩ hflu
            show m'.body = []
            rw [h6]
            cases hb : w.body with
            | raw b =>
              have := (hF.raw b hb).1
              unfold responseFrame at this
              rw [if_pos (.inl (by have := hI.1; have := hI.2.1; omega))] at this
              simp only [Except.ok.injEq, Frame.mk.injEq, Option.some.injEq, true_and, and_true] at this
              show b = []
              exact List.length_eq_zero_iff.mp (by omega)
            | chunked cs last tr =>
              have := (hF.chunked cs last tr hb).1
              unfold responseFrame at this
              rw [if_pos (.inl (by have := hI.1; have := hI.2.1; omega))] at this
              cases this
          · refine Nat.le_trans ?_ hk
            simp [Msg.cost, Msg.startReceiving]
      | raw b _ hw hmode => rcases hmode with h | h <;> (rw [h] at hd; cases hd)
      | chunk _ _ _ _ _ _ hw hmode => rcases hmode with h | h | h <;> (rw [h] at hd; cases hd)
      | start h1 => rw [h1] at hd; cases hd
      | header h1 => rw [h1] at hd; cases hd
      | chunkHead _ _ _ _ _ h1 => rw [h1] at hd; cases hd
      | trailer _ _ _ _ h1 => rw [h1] at hd; cases hd
    · rw [if_neg hd]
      rcases hcase with ⟨rfl, hI, hb, ho⟩ | ⟨hI, hA⟩
      · rw [List.append_nil]
        exact ⟨m', rfl, .last w h h' st m' _ hF hI hb ho R, hhd, hflu, hk⟩
      · exact ⟨m', rfl, .interim w h h' st m' r bs hF hI hA R hd, hhd, hflu, hk⟩
  obtain ⟨w, h, h', st, r, bs, hF, R, hcase, rfl, hnd⟩ : ∃ w h h' st r bs, Framed head w st h h' ∧ Rem w st h h' m r ∧
      ((bs = [] ∧ ¬ Interim st.status ∧ (fl = true → ∃ b, w.body = .raw b) ∧ o = ⟨st, h', w.body.data⟩) ∨ (Interim st.status ∧ Bytes.Are head fl o bs)) ∧
      rest = r ++ bs ∧ (m.mode = .done → bs = [] ∧ o = ⟨st, h', w.body.data⟩) := by
    cases J with
    | last w h h' st _ _ hF hI hb ho R => exact ⟨w, h, h', st, rest, [], hF, R, .inl ⟨rfl, hI, hb, ho⟩, by simp, fun _ => ⟨rfl, ho⟩⟩
    | interim w h h' st _ r bs hF hI hA R hd => exact ⟨w, h, h', st, r, bs, hF, R, .inr ⟨hI, hA⟩, rfl, fun h => absurd h hd⟩
  rcases R.step hF hm with ⟨h1, h2, h3, h4, h5, h6⟩ | ⟨h1, l, r', h2, h3, m', h4, h5, h6, h7⟩ | ⟨h1, l, r', h2, h3, m', h4, h5, h6, h7⟩ |
    ⟨n, h1, h2, h3, h4⟩ | ⟨h1, m', h4, h5, h6, h7⟩
  · obtain ⟨hb, ho⟩ := hnd h2
    exact .inl ⟨h1, by simp [h3, hb], by rw [ho]; exact ⟨h4, h5, h6⟩⟩
  · refine .inr (.inl ⟨h1, l, r' ++ bs, by simp [h2], h3, ?_⟩)
    exact fin h4 hF h5 h6 h7 hcase
  · refine .inr (.inr (.inl ⟨h1, l, r' ++ bs, by simp [h2], h3, ?_⟩))
    exact fin h4 hF h5 h6 h7 hcase
  · refine .inr (.inr (.inr (.inl ⟨n, h1, h2, by simp; omega, ?_⟩)))
    intro d e he hd hdn
    have h8 : r = d ++ r.drop d.length := by
      have := congrArg (List.take d.length) he
      rw [List.take_append_of_le_length (by omega)] at this
      conv => lhs; rw [← List.take_append_drop d.length r, this]
      simp
    obtain ⟨m', g1, g2, g3, g4⟩ := h4 d (r.drop d.length) h8 hd hdn
    have h9 : e = r.drop d.length ++ bs := by
      rw [h8, List.append_assoc] at he
      exact (List.append_cancel_left he).symm
    rw [h9]
    exact fin g1 hF g2 g3 g4 hcase
  · refine .inr (.inr (.inr (.inr ⟨h1, ?_⟩)))
    obtain ⟨m2, g1, g2, g3, g4, g5⟩ := fin h4 hF h5 h6 (Nat.le_refl _) hcase
    exact ⟨m2, g1, g2, g3, g4, by omega⟩

theorem rebuf_flatten (d : Bytes) : (rebuf d).flatten = d := by unfold rebuf; split <;> simp_all

theorem rebuf_ne {d b : Bytes} (h : b ∈ rebuf d) : b ≠ [] := by unfold rebuf at h; split at h <;> simp_all

/-- One iteration of the loop. -/
theorem iter_spec {head fl : Bool} {o : Out} {m : Msg} {rest tail u : Bytes} {bufs : List Bytes} (J : Job head fl o m rest) (hm : m.head = head)
    (hfl : fl = false → m.flushes = []) (hbufs : ∀ b ∈ bufs, b ≠ []) (he : bufs.flatten ++ u = rest ++ tail) :
    (iter bufs m = .ok (bufs, m, .done) ∧ rest = [] ∧ m.Is o) ∨
    (iter bufs m = .ok (bufs, m, .wait) ∧ u ≠ [] ∧ rest ≠ []) ∨
    (∃ bufs' m' rest', iter bufs m = .ok (bufs', m', .go) ∧ Job head fl o m' rest' ∧ m'.head = head ∧ (fl = false → m'.flushes = []) ∧
      (∀ b ∈ bufs', b ≠ []) ∧ bufs'.flatten ++ u = rest' ++ tail ∧ 2 * bufs'.flatten.length + m'.cost < 2 * bufs.flatten.length + m.cost) := by
  unfold iter
  rcases J.step hm hfl with ⟨h1, h2, h3⟩ | ⟨h1, l, r', h2, h3, m', h4, h5, h6, h7, h8⟩ | ⟨h1, ls, r', h2, h3, m', h4, h5, h6, h7, h8⟩ |
    ⟨n, h1, h2, h3, h4⟩ | ⟨h1, m', h4, h5, h6, h7, h8⟩
  · rw [h1]; exact .inl ⟨rfl, h2, h3⟩
  · rw [h1]
    simp only [show ¬ ((-2 : Int) = -3) by decide, if_false, if_true]
    rw [h2] at he
    rcases takeLine_spec (buf := bufs.flatten) (u := u) (l := l) (r := r' ++ tail) h3 (by rw [he]; simp) with ⟨g1, g2⟩ | ⟨d, g1, g2, g3⟩
    · rw [g1]; exact .inr (.inl ⟨rfl, g2, by rw [h2]; simp [CRLF]⟩)
    · rw [g1]
      dsimp only
      rw [h4]
      refine .inr (.inr ⟨_, _, _, rfl, h5, h6, h7, fun b => rebuf_ne, ?_, ?_⟩)
      · rw [rebuf_flatten, g2]
      · rw [rebuf_flatten]; omega
  · rw [h1]
    simp only [if_true]
    rw [h2] at he
    rcases takeHeader_spec (buf := bufs.flatten) (u := u) (ls := ls) (r := r' ++ tail) h3 (by rw [he]; simp) with ⟨g1, g2⟩ | ⟨d, g1, g2, g3⟩
    · rw [g1]; exact .inr (.inl ⟨rfl, g2, by rw [h2]; simp [block, CRLF]⟩)
    · rw [g1]
      dsimp only
      rw [h4]
      refine .inr (.inr ⟨_, _, _, rfl, h5, h6, h7, fun b => rebuf_ne, ?_, ?_⟩)
      · rw [rebuf_flatten, g2]
      · rw [rebuf_flatten]; omega
  · rw [h1]
    dsimp only
    rw [if_neg (by omega), if_neg (by omega), if_neg (by omega), if_neg (by omega), if_pos (by omega)]
    cases bufs with
    | nil =>
      simp only [List.flatten_nil, List.nil_append] at he
      refine .inr (.inl ⟨rfl, ?_, ?_⟩)
      · rw [he]; intro h0; rw [(List.append_eq_nil_iff.mp h0).1] at h3; simp at h3; omega
      · intro h0; rw [h0] at h3; simp at h3; omega
    | cons data bs =>
      have hdne := hbufs data (by simp)
      have hbs : ∀ b ∈ bs, b ≠ [] := fun b hb => hbufs b (by simp [hb])
      simp only [List.flatten_cons, List.append_assoc] at he
      dsimp only
      by_cases hlen : (data.length : Int) ≤ n
      · rw [if_pos hlen]
        have hl : data.length ≤ rest.length := by omega
        have hr : rest = data ++ rest.drop data.length := by
          have := congrArg (List.take data.length) he
          rw [List.take_append_of_le_length (Nat.le_refl _), List.take_append_of_le_length hl, List.take_length] at this
          conv => lhs; rw [← List.take_append_drop data.length rest, ← this]
        obtain ⟨m', g1, g2, g3, g4, g5⟩ := h4 data _ hr hdne (by omega)
        rw [g1]
        refine .inr (.inr ⟨_, _, _, rfl, g2, g3, g4, hbs, ?_, ?_⟩)
        · rw [hr, List.append_assoc] at he
          exact List.append_cancel_left he
        · have : data.length ≠ 0 := by simpa using hdne
          simp only [List.flatten_cons, List.length_append]; omega
      · rw [if_neg hlen]
        simp only [Int.toNat_natCast]
        have hl : n < data.length := by omega
        have hr : rest = data.take n ++ rest.drop n := by
          have := congrArg (List.take n) he
          rw [List.take_append_of_le_length (by omega), List.take_append_of_le_length h3] at this
          conv => lhs; rw [← List.take_append_drop n rest, ← this]
        obtain ⟨m', g1, g2, g3, g4, g5⟩ := h4 (data.take n) _ hr (by intro h0; have := congrArg List.length h0; rw [List.length_take, List.length_nil] at this; omega) (by simp; omega)
        rw [g1]
        refine .inr (.inr ⟨_, _, _, rfl, g2, g3, g4, ?_, ?_, ?_⟩)
        · intro b hb
          rcases List.mem_cons.mp hb with rfl | hb
          · intro h0; have := congrArg List.length h0; simp at this; omega
          · exact hbs b hb
        · simp only [List.flatten_cons, List.append_assoc]
          rw [← List.take_append_drop n data, hr, List.append_assoc, List.append_assoc] at he
          have := List.append_cancel_left he
          rw [← this]
        · simp only [List.flatten_cons, List.length_append, List.length_drop]; omega
  · rw [h1]
    dsimp only
    rw [if_neg (by decide), if_neg (by decide), if_neg (by decide), if_pos rfl, h4]
    exact .inr (.inr ⟨_, _, _, rfl, h5, h6, h7, hbufs, he, by omega⟩)

/-- The loop ends. -/
theorem loop_spec {head fl : Bool} {o : Out} {tail u : Bytes} : ∀ (n : Nat) {m : Msg} {rest : Bytes} {bufs : List Bytes}, Job head fl o m rest →
    m.head = head → (fl = false → m.flushes = []) → (∀ b ∈ bufs, b ≠ []) → bufs.flatten ++ u = rest ++ tail →
    2 * bufs.flatten.length + m.cost < n →
    (∃ bufs' m', loop n bufs m = .ok (bufs', m', true) ∧ m'.Is o ∧ (∀ b ∈ bufs', b ≠ []) ∧ bufs'.flatten ++ u = tail) ∨
    (∃ bufs' m' rest', loop n bufs m = .ok (bufs', m', false) ∧ Job head fl o m' rest' ∧ m'.head = head ∧ (fl = false → m'.flushes = []) ∧
      (∀ b ∈ bufs', b ≠ []) ∧ bufs'.flatten ++ u = rest' ++ tail ∧ u ≠ [] ∧ rest' ≠ []) := by
  intro n
  induction n with
  | zero => intros; omega
  | succ n ih =>
    intro m rest bufs J hm hfl hbufs he hn
    rw [loop]
    rcases iter_spec (tail := tail) (u := u) J hm hfl hbufs he with ⟨h1, h2, h3⟩ | ⟨h1, h2, h3⟩ | ⟨bufs', m', rest', h1, h2, h3, h4, h5, h6, h7⟩
    · rw [h1]
      exact .inl ⟨bufs, m, rfl, h3, hbufs, by rw [he, h2]; simp⟩
    · rw [h1]
      exact .inr ⟨bufs, m, rest, rfl, J, hm, hfl, hbufs, he, h2, h3⟩
    · rw [h1]
      exact ih h2 h3 h4 h5 h6 (by omega)

end Verif.Http

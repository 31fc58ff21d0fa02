import Verif.Http.Conn
/-!
# C50 and C51: what the client sees of the responses
-/
namespace Verif.Http

/-- The responses in the queue, what the client will see of them, and their bytes. -/
inductive Pending : List Msg → List Out → Bytes → Prop where
  | nil : Pending [] [] []
  | cons (m : Msg) (ms : List Msg) (fl : Bool) (o : Out) (os : List Out) (b bs : Bytes) : Fresh m → (fl = false → m.flushes = []) →
      Bytes.Are m.head fl o b → Pending ms os bs → Pending (m :: ms) (o :: os) (b ++ bs)

/-- The client sees the messages as the outcomes. -/
inductive Seen : List Msg → List Out → Prop where
  | nil : Seen [] []
  | cons (m : Msg) (ms : List Msg) (o : Out) (os : List Out) : m.Is o → Seen ms os → Seen (m :: ms) (o :: os)

theorem Seen.snoc {ms : List Msg} {os : List Out} (h : Seen ms os) {m : Msg} {o : Out} (hm : m.Is o) : Seen (ms ++ [m]) (os ++ [o]) := by
  induction h with
  | nil => exact .cons _ _ _ _ hm .nil
  | cons m ms o os h1 _ ih => exact .cons _ _ _ _ h1 ih

theorem Rem.body_prefix {w : Wire} {st : Start} {h h' : Headers} {m : Msg} {rest : Bytes} (R : Rem w st h h' m rest) : m.body <+: w.body.data := by
  cases R with
  | start h1 h2 h3 h4 h5 h6 => rw [h5]; exact List.nil_prefix
  | header h1 hs h2 h3 h4 h5 h6 => rw [h5]; exact List.nil_prefix
  | raw b d hw hmode hst hh hc hk hbd hl hp hne hb hd =>
    rw [hw, Body.data]; exact ⟨m.buf ++ rest, by rw [← hb]; simp⟩
  | chunkHead cs0 cs last tr hw hmode hst hh hc hk hbd hbuf hb hf =>
    rw [hw, Body.data, hb]; exact ⟨(cs.map (·.2)).flatten, by simp⟩
  | chunk cs0 c cs last tr d hw hmode hst hh hc hk hbd hl hp hb hd he hf =>
    rw [hw, Body.data]
    refine ⟨m.buf ++ d ++ (cs.map (·.2)).flatten, ?_⟩
    rw [← List.append_assoc, ← List.append_assoc, hb]; simp
  | trailer cs last tr hw hmode hst hh hc hbuf hb hf => rw [hw, Body.data, hb]; exact List.prefix_refl _
  | done h1 h2 h3 h4 h5 h6 => rw [h6]; exact List.prefix_refl _

theorem Job.body_prefix {head fl : Bool} {o : Out} {m : Msg} {rest : Bytes} (J : Job head fl o m rest) : m.body <+: o.body := by
  cases J with
  | last w h h' st _ _ hF hI hb ho R => rw [ho]; exact R.body_prefix
  | interim w h h' st _ r bs hF hI hA R hd =>
    have hp := R.body_prefix
    have : w.body.data = [] := by
      cases hb : w.body with
      | raw b =>
        have := (hF.raw b hb).1
        unfold responseFrame at this
        rw [if_pos (.inl (by have := hI.1; have := hI.2.1; omega))] at this
        simp only [Except.ok.injEq, Frame.mk.injEq, Option.some.injEq, true_and, and_true] at this
        show b = []
        exact List.length_eq_zero_iff.mp (by omega)
      | chunked cs last tr =>
        have := (hF.chunked cs last tr hb).1
        unfold responseFrame at this
        rw [if_pos (.inl (by have := hI.1; have := hI.2.1; omega))] at this
        cases this
    rw [this] at hp
    rw [List.prefix_nil.mp hp]
    exact List.nil_prefix

/-- A connection: `od` are the responses that are complete, `os` those to come; the bytes `u` have not been read. -/
inductive ConnInv : Conn → List Out → List Out → Bytes → Prop where
  | idle (bufs : List Bytes) (fin : List Msg) (od : List Out) (u : Bytes) : Seen fin od → (∀ b ∈ bufs, b ≠ []) → bufs.flatten ++ u = [] →
      ConnInv ⟨bufs, none, [], fin⟩ od [] u
  | busy (bufs : List Bytes) (m : Msg) (q : List Msg) (fin : List Msg) (od : List Out) (fl : Bool) (o : Out) (os : List Out) (rest tail u : Bytes) :
      Seen fin od → Job m.head fl o m rest → (fl = false → m.flushes = []) → (∀ b ∈ bufs, b ≠ []) → Pending q os tail →
      bufs.flatten ++ u = rest ++ tail → ConnInv ⟨bufs, some m, q, fin⟩ od (o :: os) u

theorem fresh_start {m : Msg} (F : Fresh m) : Fresh m.startReceiving := ⟨rfl, rfl, rfl, F.buf, F.body⟩

/-- Reading a piece of data: either the current response is complete, or it waits for bytes that have not been read. -/
theorem onData_inv {c : Conn} {od os : List Out} {d u : Bytes} (hd : d ≠ []) (I : ConnInv c od os (d ++ u)) :
    ∃ c', c.onData d = .ok c' ∧
      ((∃ o os', os = o :: os' ∧ ConnInv c' (od ++ [o]) os' u) ∨ (ConnInv c' od os u ∧ u ≠ [] ∧ os ≠ [])) := by
  cases I with
  | idle bufs fin _ _ hs hb he =>
    exact absurd (List.append_eq_nil_iff.mp (List.append_eq_nil_iff.mp he).2).1 hd
  | busy bufs m q fin _ fl o os rest tail _ hs J hfl hb hp he =>
    unfold Conn.onData
    dsimp only
    have hb' : ∀ b ∈ bufs ++ [d], b ≠ [] := by
      intro b hm; rcases List.mem_append.mp hm with h | h
      · exact hb b h
      · simp only [List.mem_singleton] at h; rw [h]; exact hd
    have he' : (bufs ++ [d]).flatten ++ u = rest ++ tail := by rw [← he]; simp
    rcases loop_spec (tail := tail) (u := u) (2 * (bufs ++ [d]).flatten.length + m.cost + 1) J rfl hfl hb' he' (by omega) with
      ⟨bufs', m', h1, h2, h3, h4⟩ | ⟨bufs', m', rest', h1, h2, h3, h4, h5, h6, h7, h8⟩
    · simp only [h1, bind, Except.bind, if_true]
      cases hp with
      | nil =>
        refine ⟨_, rfl, .inl ⟨o, [], rfl, .idle bufs' _ _ u (hs.snoc h2) h3 h4⟩⟩
      | cons m2 ms fl2 o2 os2 b bs F hf2 hA hp2 =>
        refine ⟨_, rfl, .inl ⟨o, o2 :: os2, rfl, .busy bufs' _ ms _ _ fl2 o2 os2 b bs u (hs.snoc h2) ?_ ?_ h3 hp2 h4⟩⟩
        · exact Job.fresh (m := m2.startReceiving) hA (fresh_start F) hf2
        · exact hf2
    · simp only [h1, bind, Except.bind, Bool.false_eq_true, if_false]
      refine ⟨_, rfl, .inr ⟨.busy bufs' m' q fin od fl o os rest' tail u hs (by rw [h3]; exact h2) h4 h5 hp h6, h7, by simp⟩⟩

/-- Reading any sequence of pieces of data. -/
theorem onReads_inv : ∀ {ds : List Bytes} {c : Conn} {od os : List Out} {u : Bytes}, (∀ d ∈ ds, d ≠ []) → ConnInv c od os (ds.flatten ++ u) →
    ∃ c' o1 o2, c.onReads ds = .ok c' ∧ os = o1 ++ o2 ∧ ConnInv c' (od ++ o1) o2 u := by
  intro ds
  induction ds with
  | nil => intro c od os u _ I; exact ⟨c, [], os, rfl, rfl, by simpa using I⟩
  | cons d ds ih =>
    intro c od os u hne I
    rw [List.flatten_cons, List.append_assoc] at I
    obtain ⟨c1, h1, h2⟩ := onData_inv (hne d (by simp)) I
    rw [Conn.onReads, h1]
    rcases h2 with ⟨o, os', rfl, I'⟩ | ⟨I', _⟩
    · obtain ⟨c', o1, o2, g1, g2, g3⟩ := ih (fun x hx => hne x (by simp [hx])) I'
      exact ⟨c', o :: o1, o2, g1, by rw [g2]; rfl, by simpa using g3⟩
    · obtain ⟨c', o1, o2, g1, g2, g3⟩ := ih (fun x hx => hne x (by simp [hx])) I'
      exact ⟨c', o1, o2, g1, g2, g3⟩

/-- **C50**: a client receives a response, after any interim responses, however its bytes are cut into the pieces that the socket
returns, and however often the stream for the body blocks or accepts only a part of the data: the response is complete when its
last byte has been read, its status line, header fields and body are those of the message, and no byte is left. -/
theorem C50_received {fl : Bool} {o : Out} {bs : Bytes} {m : Msg} (hA : Bytes.Are m.head fl o bs) (F : Fresh m)
    (hfl : fl = false → m.flushes = []) (ds : List Bytes) (hne : ∀ d ∈ ds, d ≠ []) (he : ds.flatten = bs) :
    ∃ m', Conn.onReads ⟨[], some m, [], []⟩ ds = .ok ⟨[], none, [], [m']⟩ ∧ m'.Is o := by
  have I : ConnInv ⟨[], some m, [], []⟩ [] [o] (ds.flatten ++ []) :=
    .busy [] m [] [] [] fl o [] bs [] _ .nil (Job.fresh hA F hfl) hfl (by simp) .nil (by simp [he])
  -- the last piece completes the response
  suffices H : ∀ (ds : List Bytes) (c : Conn), (∀ d ∈ ds, d ≠ []) → ds ≠ [] → ConnInv c [] [o] (ds.flatten ++ []) →
      ∃ m', c.onReads ds = .ok ⟨[], none, [], [m']⟩ ∧ m'.Is o by
    refine H ds _ hne ?_ I
    rintro rfl
    have : ∀ {b : Bytes} {head fl : Bool} {o : Out}, Bytes.Are head fl o b → b ≠ [] := by
      intro b head fl o h
      cases h with
      | last w => simp [Wire.bytes, CRLF]
      | interim w => simp [Wire.bytes, CRLF]
    exact this hA he.symm
  intro ds
  induction ds with
  | nil => intro c _ h; exact absurd rfl h
  | cons d ds ih =>
    intro c hne _ I
    rw [List.flatten_cons, List.append_assoc] at I
    obtain ⟨c1, h1, h2⟩ := onData_inv (hne d (by simp)) I
    rw [Conn.onReads, h1]
    rcases h2 with ⟨o', os', hos, I'⟩ | ⟨I', hu, _⟩
    · simp only [List.cons.injEq] at hos
      obtain ⟨rfl, rfl⟩ := hos
      cases I' with
      | idle bufs fin _ _ hs hb he2 =>
        have h3 := List.append_eq_nil_iff.mp he2
        have hds : ds = [] := by
          cases ds with
          | nil => rfl
          | cons x xs =>
            have := (List.append_eq_nil_iff.mp h3.2).1
            simp only [List.flatten_cons] at this
            exact absurd (List.append_eq_nil_iff.mp this).1 (hne x (by simp))
        have hbf : bufs = [] := by
          cases bufs with
          | nil => rfl
          | cons x xs =>
            have := h3.1
            simp only [List.flatten_cons] at this
            exact absurd (List.append_eq_nil_iff.mp this).1 (hb x (by simp))
        subst hds hbf
        cases hs with
        | cons m' ms o os hI hs2 => cases hs2; exact ⟨m', rfl, hI⟩
    · cases ds with
      | nil => simp at hu
      | cons x xs => exact ih c1 (fun y hy => hne y (by simp [hy])) (by simp) I'

/-- **C50**: while bytes of the response are missing the response is not reported as complete, and the stream for the body has
received a prefix of the body. -/
theorem C50_prefix {fl : Bool} {o : Out} {bs : Bytes} {m : Msg} (hA : Bytes.Are m.head fl o bs) (F : Fresh m)
    (hfl : fl = false → m.flushes = []) (ds : List Bytes) (hne : ∀ d ∈ ds, d ≠ []) (u : Bytes) (hu : u ≠ []) (he : ds.flatten ++ u = bs) :
    ∃ bufs m', Conn.onReads ⟨[], some m, [], []⟩ ds = .ok ⟨bufs, some m', [], []⟩ ∧ m'.body <+: o.body := by
  have I : ConnInv ⟨[], some m, [], []⟩ [] [o] (ds.flatten ++ u) :=
    .busy [] m [] [] [] fl o [] bs [] _ .nil (Job.fresh hA F hfl) hfl (by simp) .nil (by simp [he])
  obtain ⟨c', o1, o2, h1, h2, h3⟩ := onReads_inv hne I
  cases h3 with
  | idle bufs fin _ _ hs hb he2 => exact absurd (List.append_eq_nil_iff.mp he2).2 hu
  | busy bufs m' q fin _ fl o' os rest tail _ hs J hfl hb hp he2 =>
    have : o1 = [] ∧ o' = o ∧ os = [] := by
      cases o1 with
      | nil => simp at h2; exact ⟨rfl, h2.1.symm, h2.2⟩
      | cons x xs => cases xs <;> simp at h2
    obtain ⟨rfl, rfl, rfl⟩ := this
    cases hp
    cases hs
    exact ⟨bufs, m', h1, J.body_prefix⟩

/-- **C51**: with several requests in flight on a connection, however the bytes of the responses are cut into pieces: the
responses that are complete are the first ones, in order, each with its own status line, header fields and body; the response
that is being received has a prefix of its own body.  What is missing: that a response is complete when its last byte has been
read, see `C51_pipelined_violation`. -/
theorem C51_pipelined_partial {m : Msg} {q : List Msg} {os : List Out} {bs : Bytes} (P : Pending (m :: q) os bs) (ds : List Bytes)
    (hne : ∀ d ∈ ds, d ≠ []) (u : Bytes) (he : ds.flatten ++ u = bs) :
    ∃ c o1 o2, Conn.onReads ⟨[], some m, q, []⟩ ds = .ok c ∧ os = o1 ++ o2 ∧ Seen c.finished o1 ∧
      (∀ m', c.resp = some m' → ∃ o o2', o2 = o :: o2' ∧ m'.body <+: o.body) ∧ (c.resp = none → o2 = [] ∧ u = []) := by
  cases P with
  | cons m ms fl o os b bs F hfl hA hp =>
    have I : ConnInv ⟨[], some m, q, []⟩ [] (o :: os) (ds.flatten ++ u) :=
      .busy [] m q [] [] fl o os b bs _ .nil (Job.fresh hA F hfl) hfl (by simp) hp (by simp [he])
    obtain ⟨c', o1, o2, h1, h2, h3⟩ := onReads_inv hne I
    refine ⟨c', o1, o2, h1, h2, ?_⟩
    cases h3 with
    | idle bufs fin _ _ hs hb he2 => exact ⟨hs, by simp, fun _ => ⟨rfl, (List.append_eq_nil_iff.mp he2).2⟩⟩
    | busy bufs m' q fin _ fl o' os' rest tail _ hs J hfl hb hp he2 =>
      exact ⟨hs, fun m'' hm => by cases hm; exact ⟨o', os', rfl, J.body_prefix⟩, by simp⟩

/-- **C51**: each piece of data that is read either completes the current response or the response needs bytes that have not been read. -/
theorem C51_each_read_partial {m : Msg} {q : List Msg} {os : List Out} {bs : Bytes} (P : Pending (m :: q) os bs) (ds : List Bytes) (d : Bytes)
    (hne : ∀ d ∈ ds, d ≠ []) (hd : d ≠ []) (u : Bytes) (he : ds.flatten ++ (d ++ u) = bs) :
    ∃ c c', Conn.onReads ⟨[], some m, q, []⟩ ds = .ok c ∧ c.onData d = .ok c' ∧
      (c'.finished.length = c.finished.length + 1 ∨ (c'.finished.length = c.finished.length ∧ u ≠ [])) := by
  have hlen : ∀ {ms : List Msg} {os : List Out}, Seen ms os → ms.length = os.length := by
    intro ms os h; induction h with
    | nil => rfl
    | cons _ _ _ _ _ _ ih => simp [ih]
  have hfin : ∀ {c : Conn} {od os : List Out} {u : Bytes}, ConnInv c od os u → c.finished.length = od.length := by
    intro c od os u h
    cases h with
    | idle _ _ _ _ hs => exact hlen hs
    | busy _ _ _ _ _ _ _ _ _ _ _ hs => exact hlen hs
  cases P with
  | cons m ms fl o os b bs F hfl hA hp =>
    have I : ConnInv ⟨[], some m, q, []⟩ [] (o :: os) (ds.flatten ++ (d ++ u)) :=
      .busy [] m q [] [] fl o os b bs _ .nil (Job.fresh hA F hfl) hfl (by simp) hp (by simp [he])
    obtain ⟨c, o1, o2, h1, h2, h3⟩ := onReads_inv hne I
    obtain ⟨c', g1, g2⟩ := onData_inv hd h3
    refine ⟨c, c', h1, g1, ?_⟩
    rcases g2 with ⟨o', os', _, I'⟩ | ⟨I', hu, _⟩
    · left; rw [hfin I', hfin h3]; simp
    · right; exact ⟨by rw [hfin I', hfin h3], hu⟩

/-! ## A response with chunks, an interim response, a violation -/

/-- A response that has not been started. -/
def newMsg (writes : List (Option Nat)) : Msg :=
  ⟨false, .start, none, [], none, false, none, 0, none, [], [], [], writes, []⟩

/-- `HTTP/1.1 200 OK` -/
def line200 : Bytes := [72, 84, 84, 80, 47, 49, 46, 49, 32, 50, 48, 48, 32, 79, 75]
/-- `HTTP/1.1 100 C` -/
def line100 : Bytes := [72, 84, 84, 80, 47, 49, 46, 49, 32, 49, 48, 48, 32, 67]
/-- `Transfer-Encoding: chunked` -/
def lineTE : Bytes := sTransferEncoding ++ [58, 32] ++ chunkedToken
/-- `Content-Length: 2` -/
def lineCL : Bytes := sContentLength ++ [58, 32, 50]

def wire100 : Wire := ⟨line100, [], .raw []⟩
/-- Two chunks, the first one with an extension, and a trailer `x:y`. -/
def wireChunks : Wire := ⟨line200, [lineTE], .chunked [([50, 59, 97, 61, 98], [13, 10]), ([49], [7])] [48] [[120, 58, 121]]⟩
def wireLength : Wire := ⟨line200, [lineCL], .raw [13, 10]⟩

instance (l : Bytes) : Decidable (NoCRLF l) :=
  decidable_of_iff (findSub CRLF l = none) (by
    constructor
    · intro h a b e
      subst e
      induction a with
      | nil => simp [findSub, CRLF] at h
      | cons x a ih =>
        rw [List.cons_append, findSub] at h
        split at h
        · cases h
        · exact ih (by simpa using h)
    · intro h
      induction l with
      | nil => rfl
      | cons b l ih =>
        rw [findSub, ih (noCRLF_cons h), if_neg]
        · rfl
        · intro hp
          rw [List.isPrefixOf_iff_prefix] at hp
          obtain ⟨t, ht⟩ := hp
          exact h [] t (by rw [← ht]; rfl))

instance (ls : List Bytes) : Decidable (Lines ls) := inferInstanceAs (Decidable (∀ l ∈ ls, l ≠ [] ∧ NoCRLF l))

def st200 : Start := ⟨some ⟨1, 1⟩, 200, [79, 75]⟩
def st100 : Start := ⟨some ⟨1, 1⟩, 100, [67]⟩
def hTE : Headers := [(lowerBytes sTransferEncoding, sTransferEncoding, [chunkedToken])]
def hCL : Headers := [(lowerBytes sContentLength, sContentLength, [[50]])]
def hX : Headers := hTE ++ [([120], [120], [[121]])]

theorem framed_chunks : Framed false wireChunks st200 hTE hX where
  start := by decide +kernel
  startNe := by decide +kernel
  status := by decide +kernel
  lines := by decide +kernel
  fields := by unfold Fields; decide +kernel
  handled := by decide +kernel
  raw := by intro b h; cases h
  chunked := by
    intro cs last tr h
    cases h
    refine ⟨by decide +kernel, ?_, ⟨by decide +kernel, ⟨0, []⟩, by decide +kernel, rfl⟩, by decide +kernel, by unfold Fields; decide +kernel⟩
    intro c hc
    simp only [List.mem_cons, List.not_mem_nil, or_false] at hc
    rcases hc with rfl | rfl
    · exact ⟨by simp, by decide +kernel, ⟨2, [([97], [97], [98])]⟩, by decide +kernel, rfl⟩
    · exact ⟨by simp, by decide +kernel, ⟨1, []⟩, by decide +kernel, rfl⟩

theorem framed_length : Framed false wireLength st200 hCL hCL where
  start := by decide +kernel
  startNe := by decide +kernel
  status := by decide +kernel
  lines := by decide +kernel
  fields := by unfold Fields; decide +kernel
  handled := by decide +kernel
  raw := by intro b h; cases h; exact ⟨by decide +kernel, rfl⟩
  chunked := by intro cs last tr h; cases h

theorem framed_100 : Framed false wire100 st100 [] [] where
  start := by decide +kernel
  startNe := by decide +kernel
  status := by decide +kernel
  lines := by decide +kernel
  fields := by unfold Fields; decide +kernel
  handled := by decide +kernel
  raw := by intro b h; cases h; exact ⟨by decide +kernel, rfl⟩
  chunked := by intro cs last tr h; cases h

/-- A response with chunks after an interim response. -/
theorem are_chunks : Bytes.Are false false ⟨st200, hX, [13, 10, 7]⟩ (wire100.bytes ++ wireChunks.bytes) :=
  .interim wire100 [] [] st100 _ framed_100 ⟨by decide, by decide, by decide⟩
    (.last wireChunks hTE hX st200 framed_chunks (by unfold Interim; decide) (by simp) rfl)

theorem are_length : Bytes.Are false true ⟨st200, hCL, [13, 10]⟩ wireLength.bytes :=
  .last wireLength hCL hCL st200 framed_length (by unfold Interim; decide) (fun _ => ⟨_, rfl⟩) rfl

/-- The hypotheses of C50 hold for them; the stream blocks and accepts single bytes. -/
example : ∃ m', Conn.onReads ⟨[], some (newMsg [none, some 0, none]), [], []⟩ ((wire100.bytes ++ wireChunks.bytes).map fun b => [b]) =
    .ok ⟨[], none, [], [m']⟩ ∧ m'.Is ⟨st200, hX, [13, 10, 7]⟩ :=
  C50_received are_chunks ⟨rfl, rfl, rfl, rfl, rfl⟩ (fun _ => rfl) _ (by intro d hd; obtain ⟨b, _, rfl⟩ := List.mem_map.mp hd; simp) (by
    generalize wire100.bytes ++ wireChunks.bytes = l
    induction l with
    | nil => rfl
    | cons b l ih => simp [ih])

/-- **C51** does not hold in full: two requests are in flight and both responses arrive in one piece.  All bytes have been read,
but the second response is not complete: its bytes stay in the buffer until the socket returns more data. -/
theorem C51_pipelined_violation : ∃ c, Conn.onReads ⟨[], some (newMsg []), [newMsg []], []⟩ [wireLength.bytes ++ wireLength.bytes] = .ok c ∧
    c.finished.length = 1 ∧ c.bufs = [wireLength.bytes] ∧ ∃ m, c.resp = some m ∧ m.mode = .start := by
  refine ⟨⟨[wireLength.bytes], some (newMsg []), [], [{ newMsg [] with mode := .done, start := some st200, headers := hCL, len := some 2, pos := 2, body := [13, 10] }]⟩,
    ?_, rfl, rfl, newMsg [], rfl, rfl⟩
  decide +kernel

/-- **C50**: a `flush` that blocks at the end of a body with chunks: the message asks for another end of a chunk and is not
complete although all bytes have been read (messages.py:881-888 with 953-955). -/
theorem C50_flush_violation : ∃ c m, Conn.onReads ⟨[], some { newMsg [] with flushes := [true] }, [], []⟩ [wireChunks.bytes] = .ok c ∧
    c.resp = some m ∧ m.mode = .chunkEnd ∧ c.finished = [] ∧ m.body = [13, 10, 7] := by
  refine ⟨⟨[], some { newMsg [] with mode := .chunkEnd, start := some st200, headers := hX, chunked := true, len := some 0, body := [13, 10, 7] }, [], []⟩, _, ?_, rfl, rfl, rfl, rfl⟩
  decide +kernel

/-- **C50**: the end of the data does not complete a message that is delimited by the end of the connection: `recv(b'')` sets an
attribute with another name (messages.py:870). -/
theorem C50_eof_violation (m : Msg) (h : m.mode = .data) : m.recv (.bytes []) = .ok m := by
  unfold Msg.recv Msg.recvCore
  simp only [h, ne_eq, not_true_eq_false, if_false, bind, Except.bind]
  rw [if_neg (by simp)]
  rfl

end Verif.Http

import Verif.Http.ConnClaims
/-!
# C54: a body that is delimited by its own boundary (multipart/byteranges), messages.py:824-868
-/
namespace Verif.Http

/-- While the stream for the body blocks, the connection calls `recv(None)`, client.py:921-934. -/
def Msg.unblock : Nat → Msg → Except Fail Msg
  | 0, m => .ok m
  | n + 1, m => if m.mode = .blocked then do (← m.recv .none).unblock n else .ok m

/-- A message that takes all data (RECV_ALL) receives the pieces of data one after the other. -/
def Msg.feed : Msg → List Bytes → Except Fail Msg
  | m, [] => .ok m
  | m, d :: ds => do
    let m ← m.recv (.bytes d)
    let m ← m.unblock m.cost
    m.feed ds

/-! ## Specification -/

/-- The first `n` bytes of the data end with the boundary, and no fewer do. -/
def FirstEnd (b s : Bytes) (n : Nat) : Prop := n ≤ s.length ∧ b <:+ s.take n ∧ ∀ k, k < n → ¬ b <:+ s.take k

/-- The boundary does not occur in the data. -/
def NoEnd (b s : Bytes) : Prop := ∀ k, k ≤ s.length → ¬ b <:+ s.take k

/-! ## Proofs -/

/-- The matches in progress are the proper prefixes of the boundary at the end of the data. -/
def Matches (b x : Bytes) (ms : List Nat) : Prop := ∀ p, p ∈ ms ↔ 1 ≤ p ∧ p < b.length ∧ b.take p <:+ x

theorem take_succ_suffix {b x : Bytes} {p c : Nat} (hp : p < b.length) : b.take (p + 1) <:+ x ++ [c] ↔ b.take p <:+ x ∧ b[p]? = some c := by
  rw [List.take_add_one, List.getElem?_eq_getElem hp]
  simp only [Option.toList_some, Option.some.injEq]
  constructor
  · rintro ⟨t, ht⟩
    rw [← List.append_assoc] at ht
    have := List.append_inj' ht rfl
    exact ⟨⟨t, this.1⟩, by simpa using this.2⟩
  · rintro ⟨⟨t, rfl⟩, rfl⟩
    exact ⟨t, by simp⟩

theorem boundStep_spec (b : Bytes) (c : Nat) : ∀ ms : List Nat, (∀ p ∈ ms, p < b.length) →
    ((boundStep b c ms).2 = true ↔ ∃ p ∈ ms, b[p]? = some c ∧ p + 1 = b.length) ∧
    ((boundStep b c ms).2 = false → ∀ q, q ∈ (boundStep b c ms).1 ↔ ∃ p ∈ ms, b[p]? = some c ∧ q = p + 1) := by
  intro ms
  induction ms with
  | nil => intro _; simp [boundStep]
  | cons p ps ih =>
    intro h
    have hp := h p (by simp)
    obtain ⟨i1, i2⟩ := ih (fun q hq => h q (by simp [hq]))
    rw [boundStep]
    by_cases hc : b[p]? = some c
    · rw [if_pos hc]
      by_cases hl : p + 1 ≥ b.length
      · rw [if_pos hl]
        exact ⟨⟨fun _ => ⟨p, by simp, hc, by omega⟩, fun _ => rfl⟩, by simp⟩
      · rw [if_neg hl]
        dsimp only
        refine ⟨?_, ?_⟩
        · rw [i1]
          constructor
          · rintro ⟨q, hq, h1, h2⟩; exact ⟨q, by simp [hq], h1, h2⟩
          · rintro ⟨q, hq, h1, h2⟩
            rcases List.mem_cons.mp hq with rfl | hq
            · omega
            · exact ⟨q, hq, h1, h2⟩
        · intro hf q
          rw [List.mem_cons, i2 hf]
          constructor
          · rintro (rfl | ⟨r, hr, h1, h2⟩)
            · exact ⟨p, by simp, hc, rfl⟩
            · exact ⟨r, by simp [hr], h1, h2⟩
          · rintro ⟨r, hr, h1, h2⟩
            rcases List.mem_cons.mp hr with rfl | hr
            · exact .inl h2
            · exact .inr ⟨r, hr, h1, h2⟩
    · rw [if_neg hc]
      refine ⟨?_, ?_⟩
      · rw [i1]
        constructor
        · rintro ⟨q, hq, h1, h2⟩; exact ⟨q, by simp [hq], h1, h2⟩
        · rintro ⟨q, hq, h1, h2⟩
          rcases List.mem_cons.mp hq with rfl | hq
          · exact absurd h1 hc
          · exact ⟨q, hq, h1, h2⟩
      · intro hf q
        rw [i2 hf]
        constructor
        · rintro ⟨r, hr, h1, h2⟩; exact ⟨r, by simp [hr], h1, h2⟩
        · rintro ⟨r, hr, h1, h2⟩
          rcases List.mem_cons.mp hr with rfl | hr
          · exact absurd h1 hc
          · exact ⟨r, hr, h1, h2⟩

theorem boundStep_matches {b x : Bytes} {ms : List Nat} (hb : 2 ≤ b.length) (M : Matches b x ms) (c : Nat) :
    ((boundStep b c ms).2 = true ↔ b <:+ x ++ [c]) ∧
    ((boundStep b c ms).2 = false → Matches b (x ++ [c]) (if b.head? = some c then (boundStep b c ms).1 ++ [1] else (boundStep b c ms).1)) := by
  obtain ⟨h1, h2⟩ := boundStep_spec b c ms (fun p hp => ((M p).mp hp).2.1)
  refine ⟨?_, ?_⟩
  · rw [h1]
    have hl : b.length - 1 < b.length := by omega
    have := take_succ_suffix (x := x) (c := c) hl
    rw [show b.length - 1 + 1 = b.length by omega, List.take_length] at this
    rw [this]
    constructor
    · rintro ⟨p, hp, hc, he⟩
      rw [show b.length - 1 = p by omega]
      exact ⟨((M p).mp hp).2.2, hc⟩
    · rintro ⟨g1, g2⟩
      exact ⟨b.length - 1, (M _).mpr ⟨by omega, by omega, g1⟩, g2, by omega⟩
  · intro hf q
    have hq : q ∈ (if b.head? = some c then (boundStep b c ms).1 ++ [1] else (boundStep b c ms).1) ↔
        q ∈ (boundStep b c ms).1 ∨ (q = 1 ∧ b.head? = some c) := by
      split <;> simp_all
    rw [hq, h2 hf]
    constructor
    · rintro (⟨p, hp, hc, rfl⟩ | ⟨rfl, hh⟩)
      · obtain ⟨m1, m2, m3⟩ := (M p).mp hp
        have hne : p + 1 ≠ b.length := fun he => by
          have := h1.mpr ⟨p, hp, hc, he⟩; rw [hf] at this; cases this
        exact ⟨by omega, by omega, (take_succ_suffix m2).mpr ⟨m3, hc⟩⟩
      · refine ⟨by omega, by omega, ?_⟩
        have := (take_succ_suffix (b := b) (x := x) (p := 0) (c := c) (by omega)).mpr ⟨by simp, by rw [← List.head?_eq_getElem?]; exact hh⟩
        exact this
    · rintro ⟨g1, g2, g3⟩
      obtain ⟨p, rfl⟩ : ∃ p, q = p + 1 := ⟨q - 1, by omega⟩
      obtain ⟨g4, g5⟩ := (take_succ_suffix (by omega)).mp g3
      by_cases hp : p = 0
      · subst hp; exact .inr ⟨rfl, by rw [List.head?_eq_getElem?]; exact g5⟩
      · exact .inl ⟨p, (M p).mpr ⟨by omega, by omega, g4⟩, g5, rfl⟩

/-- The loop over a piece of data finds the first end. -/
theorem boundLoop_spec {b : Bytes} (hb : 2 ≤ b.length) : ∀ (d x : Bytes) (ms : List Nat) (i : Nat), Matches b x ms →
    (∃ ms', boundLoop b d ms i = (ms', none) ∧ Matches b (x ++ d) ms' ∧ ∀ k, 1 ≤ k → k ≤ d.length → ¬ b <:+ x ++ d.take k) ∨
    (∃ k, boundLoop b d ms i = ([], some (i + k)) ∧ 1 ≤ k ∧ k ≤ d.length ∧ b <:+ x ++ d.take k ∧ ∀ j, 1 ≤ j → j < k → ¬ b <:+ x ++ d.take j) := by
  intro d
  induction d with
  | nil => intro x ms i M; left; exact ⟨ms, rfl, by simpa using M, by intro k h1 h2; simp at h2; omega⟩
  | cons c d ih =>
    intro x ms i M
    obtain ⟨h1, h2⟩ := boundStep_matches hb M c
    rw [boundLoop]
    cases hf : (boundStep b c ms).2 with
    | true =>
      right
      rw [if_pos rfl]
      refine ⟨1, rfl, by omega, by simp, ?_, by intro j; omega⟩
      simpa using h1.mp hf
    | false =>
      rw [if_neg (by simp)]
      have hno : ¬ b <:+ x ++ [c] := by rw [← h1, hf]; simp
      rcases ih (x ++ [c]) _ (i + 1) (h2 hf) with ⟨ms', e1, e2, e3⟩ | ⟨k, e1, e2, e3, e4, e5⟩
      · left
        refine ⟨ms', e1, by simpa using e2, ?_⟩
        intro k hk1 hk2
        obtain ⟨k, rfl⟩ : ∃ j, k = j + 1 := ⟨k - 1, by omega⟩
        rw [List.take_succ_cons]
        by_cases hk : k = 0
        · subst hk; simpa using hno
        · have := e3 k (by omega) (by simpa using hk2)
          simpa using this
      · right
        refine ⟨k + 1, by rw [e1]; congr 2; omega, by omega, by simpa using e3, by simpa using e4, ?_⟩
        intro j hj1 hj2
        obtain ⟨j, rfl⟩ : ∃ l, j = l + 1 := ⟨j - 1, by omega⟩
        rw [List.take_succ_cons]
        by_cases hj : j = 0
        · subst hj; simpa using hno
        · have := e5 j (by omega) (by omega)
          simpa using this

/-- The message has received the data `x`, in which the boundary has not been found. -/
structure Waiting (b : Bytes) (x : Bytes) (m : Msg) : Prop where
  mode : m.mode = .data ∨ m.mode = .blocked
  start : ∀ st, m.start = some st → ¬ Interim st.status
  chunked : m.chunked = false
  len : m.len = none
  bound : m.bound = some b
  bmatch : Matches b x m.bmatch
  pos : m.pos = x.length
  body : m.body ++ m.buf = x
  buf : m.mode = .data → m.buf = []

/-- The message has received the data `x` up to the boundary. -/
structure Ended (x : Bytes) (m : Msg) : Prop where
  mode : m.mode = .done ∨ m.mode = .blocked
  start : ∀ st, m.start = some st → ¬ Interim st.status
  chunked : m.chunked = false
  len : m.len = some (m.pos : Int) ∨ ∃ n : Int, m.len = some n ∧ n ≤ m.pos
  body : m.body ++ m.buf = x
  buf : m.mode = .done → m.buf = []

theorem handleMessage_id {m : Msg} (h : ∀ st, m.start = some st → ¬ Interim st.status) : m.handleMessage = m := by
  unfold Msg.handleMessage
  split
  · rename_i st hst
    rw [if_neg]
    exact h st hst
  · rfl

theorem recv_blocked {m : Msg} (hm : m.mode = .blocked) (h : ∀ st, m.recvBuffered.start = some st → ¬ Interim st.status) :
    m.recv .none = .ok m.recvBuffered := by
  unfold Msg.recv Msg.recvCore
  simp only [hm, bind, Except.bind]
  split
  · rw [handleMessage_id h]; rfl
  · rfl

theorem cost_data {m : Msg} (h : m.mode ≠ .blocked) : m.cost = 2 * (m.writes.length + m.flushes.length) := by
  unfold Msg.cost; rw [if_neg h]; rfl

/-- A message that has not found the boundary tries to write what it has. -/
theorem waiting_buffered {b x : Bytes} {m : Msg} (start : ∀ st, m.start = some st → ¬ Interim st.status) (chunked : m.chunked = false)
    (len : m.len = none) (bound : m.bound = some b) (bmatch : Matches b x m.bmatch) (pos : m.pos = x.length) (body : m.body ++ m.buf = x) :
    Waiting b x m.recvBuffered ∧ (m.mode = .blocked → m.recvBuffered.cost < m.cost) := by
  obtain ⟨buf, bd, ws, e1, e2, e3, e4⟩ := recvBuffered_spec m
  rw [e4]
  by_cases hbuf : buf = []
  · rw [if_neg (by simp [hbuf]), chunked, if_neg (by simp), len]
    dsimp only
    subst hbuf
    rw [List.append_nil] at e1
    refine ⟨⟨.inl rfl, start, rfl, rfl, bound, bmatch, pos, by simp [e1, body], fun _ => rfl⟩, ?_⟩
    intro hm
    simp only [Msg.cost, hm, if_true, reduceCtorEq, if_false]; omega
  · rw [if_pos hbuf]
    refine ⟨⟨.inr rfl, start, chunked, len, bound, bmatch, pos, by rw [← body]; exact e1, by simp⟩, ?_⟩
    intro hm
    simp only [Msg.cost, hm, if_true]
    have := e3 hbuf
    omega

theorem ended_buffered {x : Bytes} {m : Msg} (start : ∀ st, m.start = some st → ¬ Interim st.status) (chunked : m.chunked = false)
    {n : Int} (len : m.len = some n) (hn : n ≤ m.pos) (body : m.body ++ m.buf = x) :
    Ended x m.recvBuffered ∧ (m.mode = .blocked → m.recvBuffered.cost < m.cost) := by
  obtain ⟨buf, bd, ws, e1, e2, e3, e4⟩ := recvBuffered_spec m
  rw [e4]
  by_cases hbuf : buf = []
  · rw [if_neg (by simp [hbuf]), chunked, if_neg (by simp), len]
    dsimp only
    rw [if_pos hn]
    subst hbuf
    rw [List.append_nil] at e1
    unfold Msg.flush
    dsimp only
    cases hfl : m.flushes with
    | nil =>
      refine ⟨⟨.inl rfl, start, rfl, .inr ⟨n, rfl, hn⟩, by simp [e1, body], fun _ => rfl⟩, ?_⟩
      intro hm
      simp only [Msg.cost, hm, if_true, reduceCtorEq, if_false, hfl]; omega
    | cons f fs =>
      dsimp only
      cases f with
      | true =>
        rw [if_pos rfl]
        refine ⟨⟨.inr rfl, start, rfl, .inr ⟨n, rfl, hn⟩, by simp [e1, body], by simp⟩, ?_⟩
        intro hm
        simp only [Msg.cost, hm, if_true, hfl, List.length_cons]; omega
      | false =>
        rw [if_neg (by simp)]
        refine ⟨⟨.inl rfl, start, rfl, .inr ⟨n, rfl, hn⟩, by simp [e1, body], fun _ => rfl⟩, ?_⟩
        intro hm
        simp only [Msg.cost, hm, if_true, reduceCtorEq, if_false, hfl, List.length_cons]; omega
  · rw [if_pos hbuf]
    refine ⟨⟨.inr rfl, start, chunked, .inr ⟨n, len, hn⟩, by rw [← body]; exact e1, by simp⟩, ?_⟩
    intro hm
    simp only [Msg.cost, hm, if_true]
    have := e3 hbuf
    omega

theorem Waiting.unblock {b x : Bytes} : ∀ (n : Nat) {m : Msg}, Waiting b x m → m.cost ≤ n → ∃ m', m.unblock n = .ok m' ∧ Waiting b x m' ∧ m'.mode = .data := by
  intro n
  induction n with
  | zero =>
    intro m W hn
    refine ⟨m, rfl, W, ?_⟩
    rcases W.mode with h | h
    · exact h
    · simp only [Msg.cost, h, if_true] at hn; omega
  | succ n ih =>
    intro m W hn
    rw [Msg.unblock]
    by_cases h : m.mode = .blocked
    · rw [if_pos h]
      obtain ⟨W', hc⟩ := waiting_buffered W.start W.chunked W.len W.bound W.bmatch W.pos W.body
      rw [recv_blocked h W'.start]
      exact ih W' (by have := hc h; omega)
    · rw [if_neg h]
      exact ⟨m, rfl, W, by rcases W.mode with g | g; exact g; exact absurd g h⟩

theorem Ended.unblock {x : Bytes} : ∀ (n : Nat) {m : Msg}, Ended x m → m.cost ≤ n → ∃ m', m.unblock n = .ok m' ∧ Ended x m' ∧ m'.mode = .done := by
  intro n
  induction n with
  | zero =>
    intro m W hn
    refine ⟨m, rfl, W, ?_⟩
    rcases W.mode with h | h
    · exact h
    · simp only [Msg.cost, h, if_true] at hn; omega
  | succ n ih =>
    intro m W hn
    rw [Msg.unblock]
    by_cases h : m.mode = .blocked
    · rw [if_pos h]
      have hlen : ∃ n : Int, m.len = some n ∧ n ≤ m.pos := by
        rcases W.len with g | g
        · exact ⟨_, g, by omega⟩
        · exact g
      obtain ⟨k, hk1, hk2⟩ := hlen
      obtain ⟨W', hc⟩ := ended_buffered W.start W.chunked hk1 hk2 W.body
      rw [recv_blocked h W'.start]
      exact ih W' (by have := hc h; omega)
    · rw [if_neg h]
      exact ⟨m, rfl, W, by rcases W.mode with g | g; exact g; exact absurd g h⟩

theorem recv_data {m : Msg} (hm : m.mode = .data) {d : Bytes} (hd : d ≠ []) (h : ∀ st, (m.recvData d).start = some st → ¬ Interim st.status) :
    m.recv (.bytes d) = .ok (m.recvData d) := by
  unfold Msg.recv Msg.recvCore
  simp only [hm, hd, ne_eq, not_false_eq_true, if_true, bind, Except.bind]
  split
  · rw [handleMessage_id h]; rfl
  · rfl

/-- One piece of data. -/
theorem Waiting.piece {b x : Bytes} (hb : 2 ≤ b.length) {m : Msg} (W : Waiting b x m) (hm : m.mode = .data) {d : Bytes} (hd : d ≠ []) :
    ((∀ k, 1 ≤ k → k ≤ d.length → ¬ b <:+ x ++ d.take k) → Waiting b (x ++ d) (m.recvData d)) ∧
    (∀ k, 1 ≤ k → k ≤ d.length → b <:+ x ++ d.take k → (∀ j, 1 ≤ j → j < k → ¬ b <:+ x ++ d.take j) → Ended (x ++ d.take k) (m.recvData d)) := by
  have hbuf := W.buf hm
  have hbody : m.body = x := by have := W.body; rw [hbuf, List.append_nil] at this; exact this
  rcases boundLoop_spec hb d x m.bmatch 0 W.bmatch with ⟨ms', e1, e2, e3⟩ | ⟨k, e1, e2, e3, e4, e5⟩
  · refine ⟨fun _ => ?_, fun k h1 h2 h3 _ => absurd h3 (e3 k h1 h2)⟩
    unfold Msg.recvData Msg.seekBound
    rw [W.bound]
    dsimp only
    rw [e1]
    dsimp only
    rw [W.len]
    dsimp only
    exact (waiting_buffered (m := { m with bound := some b, bmatch := ms', pos := m.pos + d.length, len := none, buf := d }) W.start W.chunked rfl rfl e2
      (by simp [W.pos]) (by simp [hbody])).1
  · refine ⟨fun h => absurd e4 (h k e2 e3), ?_⟩
    intro k' h1 h2 h3 h4
    have hk : k' = k := by
      rcases Nat.lt_trichotomy k' k with h | h | h
      · exact absurd h3 (e5 k' h1 h)
      · exact h
      · exact absurd e4 (h4 k e2 h)
    subst hk
    unfold Msg.recvData Msg.seekBound
    rw [W.bound]
    dsimp only
    rw [e1]
    dsimp only
    rw [if_pos (by omega)]
    by_cases hx : (((m.pos + d.length : Nat) : Int) - (m.pos + ((0 + k' : Nat) : Int)) > 0)
    · rw [if_pos hx]
      refine (ended_buffered (n := (m.pos : Int) + ((0 + k' : Nat) : Int)) (m := { m with bound := none, bmatch := [], len := some ((m.pos : Int) + ((0 + k' : Nat) : Int)), pos := m.pos + d.length, buf := _ }) W.start W.chunked rfl ?_ ?_).1
      · dsimp only; omega
      · dsimp only
        rw [hbody]
        congr 2
        omega
    · rw [if_neg hx]
      refine (ended_buffered (n := (m.pos : Int) + ((0 + k' : Nat) : Int)) (m := { m with bound := none, bmatch := [], len := some ((m.pos : Int) + ((0 + k' : Nat) : Int)), pos := m.pos + d.length, buf := d }) W.start W.chunked rfl ?_ ?_).1
      · dsimp only; omega
      · dsimp only
        rw [hbody, List.take_of_length_le (by omega)]

theorem Waiting.feed {b : Bytes} (hb : 2 ≤ b.length) : ∀ (ds : List Bytes) {x : Bytes} {m : Msg}, Waiting b x m → m.mode = .data → (∀ d ∈ ds, d ≠ []) →
    (∀ k, x.length < k → k ≤ (x ++ ds.flatten).length → ¬ b <:+ (x ++ ds.flatten).take k) →
    ∃ m', m.feed ds = .ok m' ∧ Waiting b (x ++ ds.flatten) m' ∧ m'.mode = .data := by
  intro ds
  induction ds with
  | nil => intro x m W hm _ _; exact ⟨m, rfl, by simpa using W, hm⟩
  | cons d ds ih =>
    intro x m W hm hne hno
    have W1 := (W.piece hb hm (hne d (by simp))).1 (by
      intro k h1 h2 h3
      apply hno (x.length + k) (by omega) (by simp; omega)
      rw [List.take_length_add_append, List.flatten_cons, List.take_append_of_le_length h2]
      exact h3)
    obtain ⟨m2, e1, W2, hm2⟩ := W1.unblock _ (Nat.le_refl _)
    obtain ⟨m3, e2, W3, hm3⟩ := ih W2 hm2 (fun y hy => hne y (by simp [hy])) (by
      intro k h1 h2
      have := hno k (by rw [List.length_append] at h1; omega) (by simpa using h2)
      simpa using this)
    refine ⟨m3, ?_, by simpa using W3, hm3⟩
    rw [Msg.feed, recv_data hm (hne d (by simp)) W1.start]
    simp only [bind, Except.bind, e1, e2]

/-- The message has read its header and its body is delimited by the boundary `b`. -/
structure Msg.Begins (b : Bytes) (m : Msg) : Prop where
  mode : m.mode = .data
  start : ∀ st, m.start = some st → ¬ Interim st.status
  chunked : m.chunked = false
  len : m.len = none
  bound : m.bound = some b
  bmatch : m.bmatch = []
  pos : m.pos = 0
  body : m.body = []
  buf : m.buf = []

theorem Msg.Begins.waiting {b : Bytes} {m : Msg} (B : m.Begins b) : Waiting b [] m where
  mode := .inl B.mode
  start := B.start
  chunked := B.chunked
  len := B.len
  bound := B.bound
  bmatch := by
    intro p
    rw [B.bmatch]
    simp only [List.not_mem_nil, false_iff, not_and]
    intro h1 h2 h3
    have := List.eq_nil_of_suffix_nil h3
    rw [List.take_eq_nil_iff] at this
    rcases this with h | h
    · omega
    · rw [h] at h2; simp at h2
  pos := B.pos
  body := by rw [B.body, B.buf]; rfl
  buf := fun _ => B.buf

/-- **C54**: while the boundary has not been received the message is not complete, and the body is what was received. -/
theorem C54_waiting {b : Bytes} (hb : 2 ≤ b.length) {m : Msg} (B : m.Begins b) (ds : List Bytes) (hne : ∀ d ∈ ds, d ≠ []) (hno : NoEnd b ds.flatten) :
    ∃ m', m.feed ds = .ok m' ∧ m'.mode = .data ∧ m'.body = ds.flatten := by
  obtain ⟨m', e1, W, hm⟩ := B.waiting.feed hb ds B.mode hne (by intro k _ h2; exact hno k (by simpa using h2))
  refine ⟨m', e1, hm, ?_⟩
  have := W.body
  rw [W.buf hm, List.append_nil] at this
  simpa using this

/-- **C54**: the message is complete with the piece of data that completes the first boundary; its body ends with this boundary. -/
theorem C54_complete {b : Bytes} (hb : 2 ≤ b.length) {m : Msg} (B : m.Begins b) (ds : List Bytes) (d : Bytes) (hne : ∀ x ∈ ds, x ≠ [])
    {n : Nat} (hn : FirstEnd b (ds.flatten ++ d) n) (hlt : ds.flatten.length < n) :
    ∃ m', m.feed (ds ++ [d]) = .ok m' ∧ m'.mode = .done ∧ m'.body = (ds.flatten ++ d).take n := by
  obtain ⟨h1, h2, h3⟩ := hn
  obtain ⟨m1, e1, W, hm⟩ := B.waiting.feed hb ds B.mode hne (by
    intro k _ hk
    rw [List.nil_append] at hk ⊢
    have := h3 k (by omega)
    rwa [List.take_append_of_le_length hk] at this)
  rw [List.nil_append] at W
  obtain ⟨k, rfl⟩ : ∃ k, n = ds.flatten.length + k := ⟨n - ds.flatten.length, by omega⟩
  rw [List.take_length_add_append] at h2
  rw [List.length_append] at h1
  have hd : d ≠ [] := by rintro rfl; simp at h1; omega
  have E := (W.piece hb hm hd).2 k (by omega) (by omega) h2 (by
    intro j hj1 hj2 hj
    apply h3 (ds.flatten.length + j) (by omega)
    rw [List.take_length_add_append]; exact hj)
  obtain ⟨m2, e2, E2, hm2⟩ := E.unblock _ (Nat.le_refl _)
  refine ⟨m2, ?_, hm2, ?_⟩
  · have hap : ∀ (l1 l2 : List Bytes) (m : Msg), m.feed (l1 ++ l2) = (m.feed l1) >>= fun m => m.feed l2 := by
      intro l1 l2
      induction l1 with
      | nil => intro m; rfl
      | cons y ys ihy =>
        intro m
        rw [List.cons_append, Msg.feed, Msg.feed]
        simp only [bind, Except.bind]
        cases hr : m.recv (.bytes y) with
        | error e => rfl
        | ok m' =>
          dsimp only
          cases hu : m'.unblock m'.cost with
          | error e => rfl
          | ok m'' => exact ihy m''
    rw [hap, e1]
    show m1.feed [d] = _
    rw [Msg.feed, recv_data hm hd E.start]
    simp only [bind, Except.bind, e2]
    rfl
  · have := E2.body
    rw [E2.buf hm2, List.append_nil] at this
    rw [this, List.take_length_add_append]

/-- **C54**: a response with Content-Type multipart/byteranges and neither Transfer-Encoding nor Content-Length is delimited by
CR LF, two hyphens, its boundary and two hyphens. -/
theorem C54_frame {m : Msg} {h : Headers} {status : Nat} (hs : ¬ (status / 100 = 1 ∨ status = 204 ∨ status = 304 ∨ m.head = true))
    (h1 : getHeader h sTransferEncoding = none) (h2 : getHeader h sContentLength = none) {mt : MediaType} {b : Bytes}
    (h3 : getContentType h = .ok (some mt)) (h4 : lowerText mt.type = sMultipart) (h5 : lowerText mt.subtype = sByteranges) (h6 : mt.boundary = some b)
    (hb : m.body = []) (hf : m.buf = []) (hst : ∀ st, m.start = some st → ¬ Interim st.status) :
    ∃ f, responseFrame m.head status h = .ok f ∧ (m.setFrame f).Begins (CRLF ++ [45, 45] ++ strip b ++ [45, 45]) := by
  refine ⟨⟨false, none, some (CRLF ++ [45, 45] ++ strip b ++ [45, 45])⟩, ?_, rfl, hst, rfl, rfl, rfl, rfl, rfl, hb, hf⟩
  unfold responseFrame recvFrame getTransferEncoding
  rw [if_neg hs, h1]
  show recvFrame.byLength h = _
  unfold recvFrame.byLength getContentLength
  rw [h2]
  simp only [h3, bind, Except.bind, h4, h5, and_self, if_true, h6]
  rfl

/-- `Content-Type: multipart/byteranges; boundary=x` -/
def lineCT : Bytes := [67, 111, 110, 116, 101, 110, 116, 45, 84, 121, 112, 101, 58, 32, 109, 117, 108, 116, 105, 112, 97, 114, 116, 47, 98, 121, 116, 101, 114, 97, 110, 103, 101, 115, 59, 32, 98, 111, 117, 110, 100, 97, 114, 121, 61, 120]
/-- A body with a false start of the boundary. -/
def bodyX : Bytes := [7, 13, 10, 45, 13, 10, 45, 45, 120, 45, 45]

/-- The response with this body in pieces of one byte is received. -/
example : ∃ m : Msg, m.Begins ([13, 10, 45, 45, 120, 45, 45]) ∧ FirstEnd [13, 10, 45, 45, 120, 45, 45] bodyX 11 := by
  refine ⟨{ newMsg [none, some 0] with mode := .data, start := some st200, bound := some [13, 10, 45, 45, 120, 45, 45] },
    ⟨rfl, fun st hst => by cases hst; unfold Interim; decide, rfl, rfl, rfl, rfl, rfl, rfl, rfl⟩, by decide, by decide, by decide⟩

/-- **C54** does not extend to a connection that is used again: bytes of the next response that arrive together with the end of a
multipart/byteranges body are discarded. -/
theorem C54_next_violation : ∃ c, Conn.onReads ⟨[], some (newMsg []), [newMsg []], []⟩
    [line200 ++ CRLF ++ block [lineCT] ++ bodyX ++ wireLength.bytes] = .ok c ∧ c.finished.map (·.body) = [bodyX] ∧ c.bufs = [] ∧ c.resp = some (newMsg []) := by
  refine ⟨⟨[], some (newMsg []), [], [{ newMsg [] with mode := .done, start := some st200, headers := [([99, 111, 110, 116, 101, 110, 116, 45, 116, 121, 112, 101], [67, 111, 110, 116, 101, 110, 116, 45, 84, 121, 112, 101], [[109, 117, 108, 116, 105, 112, 97, 114, 116, 47, 98, 121, 116, 101, 114, 97, 110, 103, 101, 115, 59, 32, 98, 111, 117, 110, 100, 97, 114, 121, 61, 120]])], len := some 11, pos := 51, body := bodyX }]⟩,
    ?_, rfl, rfl, rfl⟩
  decide +kernel

end Verif.Http

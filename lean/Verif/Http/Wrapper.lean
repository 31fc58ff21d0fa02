import Verif.Http.Input
/-!
# C56: the input of a WSGI application, `pyslet/http/messages.py:187-393`
-/
namespace Verif.Http

/-- The `wsgi.input` stream: the bytes that have not been read, and how short its next reads are: a read of `k` bytes returns at most
`l + 1` bytes for the next number `l` of the schedule, and all `k` bytes (or what is left) when the schedule has ended. -/
structure WsgiIn where
  data : Bytes
  sched : List Nat
  deriving DecidableEq, Repr

/-- `input_stream.read(k)`; a negative number reads everything. -/
def WsgiIn.read (s : WsgiIn) (k : Int) : Bytes × WsgiIn :=
  if k < 0 then (s.data, ⟨[], s.sched⟩)
  else match s.sched with
    | [] => (s.data.take k.toNat, ⟨s.data.drop k.toNat, []⟩)
    | l :: ls => (s.data.take (min k.toNat (l + 1)), ⟨s.data.drop (min k.toNat (l + 1)), ls⟩)

/-- `WSGIInputWrapper`, messages.py:207-238: `input` is false when `input_stream` is `None`; `bpos` is the position of `buffer`;
`buffSize` is the length of `buffer`. -/
structure Wrap where
  src : WsgiIn
  input : Bool
  limit : Option Nat
  pos : Int
  buffer : Bytes
  bpos : Nat
  deriving DecidableEq, Repr

/-- The loop that fills the buffer, messages.py:229-236. -/
def fillBuffer (seek : Nat) : Nat → Bytes → WsgiIn → Bytes × WsgiIn × Bool
  | 0, b, s => (b, s, true)
  | f + 1, b, s =>
    if b.length < seek then
      let (d, s) := s.read ((seek : Int) - b.length)
      if d.length = 0 then (b, s, false) else fillBuffer seek f (b ++ d) s
    else (b, s, true)

/-- The constructor, messages.py:207-238, without a transfer encoding; `limit` is the value of `CONTENT_LENGTH`. -/
def Wrap.open (src : WsgiIn) (limit : Option Nat) (seekSize : Nat) : Wrap :=
  let seek := match limit with
    | some n => if n < seekSize then n else seekSize
    | none => seekSize
  let (b, s, i) := fillBuffer seek (seek + 1) [] src
  ⟨s, i, limit, 0, b, 0⟩

/-- The number of bytes that `read` asks the stream for, messages.py:255-259. -/
def clip (limit : Option Nat) (pos n : Int) : Int :=
  match limit with
  | some l => if pos + n > l then l - pos else n
  | none => n

/-- `read` with `n ≠ -1`, messages.py:249-269. -/
def Wrap.read (w : Wrap) (n : Int) : Bytes × Wrap :=
  let data := if n ≠ 0 ∧ w.pos < w.buffer.length then
      (if n < 0 then w.buffer.drop w.bpos else (w.buffer.drop w.bpos).take n.toNat) else []
  let pos := w.pos + data.length
  let bpos := w.bpos + data.length
  let n := n - data.length
  if n ≠ 0 ∧ w.input then
    let (idata, src) := w.src.read (clip w.limit pos n)
    if idata.length = 0 then (data, { w with src := src, input := false, pos := pos, bpos := bpos })
    else (data ++ idata, { w with src := src, pos := pos + idata.length, bpos := bpos })
  else (data, { w with pos := pos, bpos := bpos })

/-- The loop of `seek`, messages.py:295-303. -/
def seekLoop (newPos : Int) : Nat → Wrap → Wrap
  | 0, w => w
  | f + 1, w =>
    if newPos > w.pos then
      let n := newPos - w.pos
      let (data, w) := w.read (if n > 8192 then 8192 else n)
      if data.length = 0 then w else seekLoop newPos f { w with pos := w.pos + data.length }
    else w

/-- The three values of `whence`. -/
inductive Whence where
  | set
  | cur
  | fromEnd
  deriving DecidableEq, Repr

/-- `seek`, messages.py:271-305; `none` is an `IOError`. -/
def Wrap.seek (w : Wrap) (offset : Int) (whence : Whence) : Option Wrap :=
  if w.pos > w.buffer.length then none
  else
    match (match whence with
      | .set => some offset
      | .cur => some (w.pos + offset)
      | .fromEnd => w.limit.map fun l => (l : Int) + offset) with
    | none => none
    | some newPos =>
      if newPos < 0 then none
      else if newPos = w.pos then some w
      else if newPos ≤ w.buffer.length then some { w with pos := newPos, bpos := newPos.toNat }
      else some { seekLoop newPos (newPos.toNat + 1) w with pos := newPos }

/-- `readall`, messages.py:326-334. -/
def Wrap.readAll : Nat → Wrap → Bytes × Wrap
  | 0, w => ([], w)
  | f + 1, w =>
    let (d, w) := w.read 8192
    if d.length = 0 then ([], w)
    else
      let (r, w) := Wrap.readAll f w
      (d ++ r, w)

/-- `readline`, messages.py:345-358; `n` is the number of bytes in `line`. -/
def Wrap.readLine (limit : Int) : Nat → Nat → Wrap → Bytes × Wrap
  | 0, _, w => ([], w)
  | f + 1, n, w =>
    if limit < 0 ∨ (n : Int) < limit then
      let (b, w) := w.read 1
      if b.length = 0 then ([], w)
      else if b = [10] then (b, w)
      else
        let (r, w) := Wrap.readLine limit f (n + 1) w
        (b ++ r, w)
    else ([], w)

/-! ## Specification -/

/-- The body of the request: what the client has sent, up to the content length. -/
def body (data : Bytes) : Option Nat → Bytes
  | some n => data.take n
  | none => data

/-- What an application does with its input. -/
inductive InOp where
  | read (n : Nat)
  | seek (offset : Int) (whence : Whence)
  deriving DecidableEq, Repr

/-- What it sees. -/
inductive InRes where
  | data (d : Bytes)
  | moved
  | refused
  deriving DecidableEq, Repr

/-- Run the operations. -/
def Wrap.run (w : Wrap) : List InOp → List InRes × Wrap
  | [] => ([], w)
  | .read n :: ops =>
    let (d, w) := w.read n
    let (rs, w) := w.run ops
    (.data d :: rs, w)
  | .seek o wh :: ops =>
    match w.seek o wh with
    | none =>
      let (rs, w) := w.run ops
      (.refused :: rs, w)
    | some w =>
      let (rs, w) := w.run ops
      (.moved :: rs, w)

/-- Where a seek goes to from position `p`. -/
def target (limit : Option Nat) (p : Nat) (o : Int) : Whence → Option Int
  | .set => some o
  | .cur => some (p + o)
  | .fromEnd => limit.map fun l => (l : Int) + o

/-- What a random access file with the contents `b` may answer when the reading position is `p`. Only the first `k` bytes can be
reached by seeking: once the position has passed `k` every seek is refused, and after a seek beyond `k` nothing is said (the last position is `none`). -/
inductive InSpec (b : Bytes) (limit : Option Nat) (k : Nat) : Nat → List InOp → List InRes → Option Nat → Prop where
  | nil (p : Nat) : InSpec b limit k p [] [] (some p)
  | read {p n : Nat} {q : Option Nat} {d : Bytes} {ops : List InOp} {rs : List InRes} : d <+: b.drop p → d.length ≤ n → (d = [] → n = 0 ∨ b.length ≤ p) →
      InSpec b limit k (p + d.length) ops rs q → InSpec b limit k p (.read n :: ops) (.data d :: rs) q
  | refused {p : Nat} {q : Option Nat} {o : Int} {wh : Whence} {ops : List InOp} {rs : List InRes} :
      (k < p ∨ target limit p o wh = none ∨ ∃ t, target limit p o wh = some t ∧ t < 0) →
      InSpec b limit k p ops rs q → InSpec b limit k p (.seek o wh :: ops) (.refused :: rs) q
  | moved {p t : Nat} {q : Option Nat} {o : Int} {wh : Whence} {ops : List InOp} {rs : List InRes} : p ≤ k → target limit p o wh = some (t : Int) → t ≤ k →
      InSpec b limit k t ops rs q → InSpec b limit k p (.seek o wh :: ops) (.moved :: rs) q
  | far {p t : Nat} {o : Int} {wh : Whence} {ops : List InOp} {rs : List InRes} : p ≤ k → target limit p o wh = some (t : Int) → k < t →
      InSpec b limit k p (.seek o wh :: ops) (.moved :: rs) none

/-- The bytes that can be reached by seeking. -/
def seekable (data : Bytes) (limit : Option Nat) (seekSize : Nat) : Nat := min (body data limit).length seekSize

/-! ## Proofs -/

theorem source_read (s : WsgiIn) (k : Int) (hk : 0 ≤ k) : ∃ m, m ≤ k.toNat ∧ (s.read k).1 = s.data.take m ∧ (s.read k).2.data = s.data.drop m ∧
    (m = 0 → k = 0) ∧ (k = 1 → m = 1) := by
  unfold WsgiIn.read
  rw [if_neg (by omega)]
  cases s.sched with
  | nil => exact ⟨k.toNat, by omega, rfl, rfl, by omega, by omega⟩
  | cons l ls => exact ⟨min k.toNat (l + 1), by omega, rfl, rfl, by omega, by omega⟩

theorem body_prefix (data : Bytes) (limit : Option Nat) : ∃ m, body data limit = data.take m ∧ (∀ l, limit = some l → m = l) ∧ (limit = none → m = data.length) := by
  cases limit with
  | none => exact ⟨data.length, by simp [body], by simp, by simp⟩
  | some l => exact ⟨l, rfl, by simp, by simp⟩

/-- The wrapper stands at `p`. -/
structure Wrap.At (data : Bytes) (limit : Option Nat) (k : Nat) (w : Wrap) (p : Nat) : Prop where
  lim : w.limit = limit
  pos : w.pos = (p : Int)
  buffer : w.buffer = (body data limit).take k
  size : k = w.buffer.length
  bpos : p < k → w.bpos = p
  src : w.src.data = data.drop (max p k)
  le : p ≤ (body data limit).length
  input : w.input = false → (body data limit).length ≤ max p k

theorem body_le (data : Bytes) (limit : Option Nat) : (body data limit).length ≤ data.length ∧ (∀ l, limit = some l → (body data limit).length = min l data.length) ∧
    (limit = none → body data limit = data) ∧ (∀ j m, j + m ≤ (body data limit).length → ((body data limit).drop j).take m = (data.drop j).take m) := by
  cases limit with
  | none => simp [body]
  | some l =>
    simp only [body, List.length_take]
    refine ⟨by omega, by simp, by simp, ?_⟩
    intro j m h
    rw [List.drop_take, List.take_take]
    congr 1; omega

theorem read_at_wrap {data : Bytes} {limit : Option Nat} {k : Nat} {w : Wrap} {p : Nat} (A : w.At data limit k p) (n : Nat) :
    ∃ d w', w.read n = (d, w') ∧ d <+: (body data limit).drop p ∧ d.length ≤ n ∧ (d = [] → n = 0 ∨ (body data limit).length ≤ p) ∧
      w'.At data limit k (p + d.length) := by
  obtain ⟨src, input, lim, pos, buffer, bpos⟩ := w
  obtain ⟨h1, h2, h3, h4, h5, h6, h7, h8⟩ := A
  dsimp only at h1 h2 h3 h4 h5 h6 h7 h8
  subst h1 h2
  obtain ⟨b1, b2, b3, b4⟩ := body_le data lim
  have hkb : k ≤ (body data lim).length := by rw [h4, h3, List.length_take]; omega
  -- what comes from the buffer
  have hbuf : (if (n : Int) ≠ 0 ∧ (p : Int) < buffer.length then
      (if (n : Int) < 0 then buffer.drop bpos else (buffer.drop bpos).take (n : Int).toNat) else []) =
      ((body data lim).drop p).take (min n (k - p)) := by
    by_cases hc : (n : Int) ≠ 0 ∧ (p : Int) < buffer.length
    · rw [if_pos hc, if_neg (by omega), h5 (by omega), h3, List.drop_take, List.take_take]; simp
    · rw [if_neg hc]
      have : min n (k - p) = 0 := by omega
      rw [this]; simp
  unfold Wrap.read
  dsimp only
  rw [hbuf]
  generalize hdat : ((body data lim).drop p).take (min n (k - p)) = dat
  have hlen : dat.length = min n (k - p) := by rw [← hdat, List.length_take, List.length_drop]; omega
  have hpre : dat <+: (body data lim).drop p := by rw [← hdat]; exact List.take_prefix _ _
  by_cases hc : (n : Int) - dat.length ≠ 0 ∧ input = true
  · rw [if_pos hc]
    have hnk : k - p < n := by omega
    have hpk : p + dat.length = max p k := by omega
    -- the number of bytes that are asked for
    obtain ⟨r, hr, hr0, hrl, hrz⟩ : ∃ r : Int, clip lim (p + dat.length) (n - dat.length) = r ∧ 0 ≤ r ∧ r ≤ n - dat.length ∧
        (r.toNat + max p k ≤ (body data lim).length ∨ (body data lim).length = data.length) ∧ (r = 0 → (body data lim).length ≤ max p k) := by
      cases lim with
      | none => exact ⟨n - dat.length, rfl, by omega, by omega, .inr (by rw [b3 rfl]), by omega⟩
      | some l =>
        have := b2 l rfl
        dsimp only [clip]
        by_cases hl : (p : Int) + dat.length + (n - dat.length) > l
        · rw [if_pos hl]; exact ⟨_, rfl, by omega, by omega, by omega, by omega⟩
        · rw [if_neg hl]; exact ⟨_, rfl, by omega, by omega, by omega, by omega⟩
    rw [hr]
    obtain ⟨m, m1, m2, m3, m4, _⟩ := source_read src r hr0
    have hsl : (src.read r).1.length = min m (data.length - max p k) := by rw [m2, h6, List.length_take, List.length_drop]
    have hi : (src.read r).1 = ((body data lim).drop (max p k)).take (src.read r).1.length := by
      rw [b4 _ _ (by rw [hsl]; omega), ← h6, hsl, m2, h6, ← List.length_drop, List.take_eq_take_min]
    by_cases h0 : (src.read r).1.length = 0
    · rw [if_pos h0]
      refine ⟨_, _, rfl, hpre, by omega, ?_, rfl, by simp, h3, h4, by dsimp only; omega, ?_, by omega, ?_⟩
      · intro hd; rw [hd] at hlen hpk; simp at hlen hpk; omega
      · dsimp only; rw [m3, h6, List.drop_drop]
        by_cases hm : m = 0
        · rw [hm]; congr 1; omega
        · rw [List.drop_eq_nil_of_le (by omega), List.drop_eq_nil_of_le (by omega)]
      · intro _; omega
    · rw [if_neg h0]
      have hdd : dat = ((body data lim).drop p).take (max p k - p) := by rw [← hdat]; congr 1; omega
      have hd : dat ++ (src.read r).1 = ((body data lim).drop p).take (max p k - p + (src.read r).1.length) := by
        rw [List.take_add, ← hdd, List.drop_drop, show p + (max p k - p) = max p k by omega, ← hi]
      refine ⟨_, _, rfl, ?_, by rw [List.length_append]; omega, ?_, rfl, ?_, h3, h4, ?_, ?_, ?_, ?_⟩
      · rw [hd]; exact List.take_prefix _ _
      · intro e; rw [(List.append_eq_nil_iff.mp e).2] at h0; simp at h0
      · simp [List.length_append]; omega
      · rw [List.length_append]; omega
      · dsimp only; rw [m3, h6, List.drop_drop, List.length_append]
        by_cases hm : m ≤ data.length - max p k
        · congr 1; omega
        · rw [List.drop_eq_nil_of_le (by omega), List.drop_eq_nil_of_le (by omega)]
      · rw [List.length_append]; omega
      · dsimp only; intro e; rw [hc.2] at e; cases e
  · rw [if_neg hc]
    refine ⟨_, _, rfl, hpre, by omega, ?_, rfl, by simp, h3, h4, by dsimp only; omega, ?_, by omega, ?_⟩
    · intro e
      rw [e] at hlen
      simp only [List.length_nil] at hlen
      by_cases hn : n = 0
      · exact .inl hn
      · right
        have hi : input = false := by
          cases input with
          | false => rfl
          | true => exact absurd ⟨by rw [e]; simp; omega, rfl⟩ hc
        have := h8 hi; omega
    · dsimp only; rw [h6]; congr 1
      by_cases hn : n ≤ k - p
      · omega
      · have hi : input = false := by
          cases input with
          | false => rfl
          | true => exact absurd ⟨by omega, rfl⟩ hc
        omega
    · dsimp only; intro hi; have := h8 hi; omega

theorem fill_spec (seek : Nat) (data : Bytes) : ∀ (f : Nat) (b : Bytes) (s : WsgiIn), b = data.take b.length → s.data = data.drop b.length → b.length ≤ data.length → b.length ≤ seek → seek - b.length < f →
    ∃ b' s' i, fillBuffer seek f b s = (b', s', i) ∧ b' = data.take (min seek data.length) ∧ s'.data = data.drop (min seek data.length) ∧
      (i = false → data.length ≤ seek) := by
  intro f
  induction f with
  | zero => intro b s _ _ _ _ h; omega
  | succ f ih =>
    intro b s h1 h2 h3 h4 h5
    rw [fillBuffer]
    by_cases hb : b.length < seek
    · rw [if_pos hb]
      obtain ⟨m, m1, m2, m3, m4, _⟩ := source_read s ((seek : Int) - b.length) (by omega)
      have hl : (s.read ((seek : Int) - b.length)).1.length = min m (data.length - b.length) := by rw [m2, h2, List.length_take, List.length_drop]
      generalize hd : s.read ((seek : Int) - b.length) = ds at *
      obtain ⟨d, s1⟩ := ds
      dsimp only at *
      by_cases h0 : d.length = 0
      · rw [if_pos h0]
        have he : data.length ≤ b.length := by omega
        have hm : min seek data.length = b.length := by omega
        refine ⟨_, _, _, rfl, by rw [hm]; exact h1, ?_, fun _ => by omega⟩
        rw [m3, h2, hm, List.drop_drop, List.drop_eq_nil_of_le (by omega), List.drop_eq_nil_of_le (by omega)]
      · rw [if_neg h0]
        apply ih
        · rw [List.length_append, List.take_add, ← h1, hl, ← h2, m2, h2]
          rw [← List.length_drop, ← List.take_eq_take_min]
        · rw [m3, h2, List.drop_drop, List.length_append, hl]
          by_cases hm : m ≤ data.length - b.length
          · congr 2; omega
          · rw [List.drop_eq_nil_of_le (by omega), List.drop_eq_nil_of_le (by omega)]
        · rw [List.length_append]; omega
        · rw [List.length_append]; omega
        · rw [List.length_append]; omega
    · rw [if_neg hb]
      have hs : seek = b.length := by omega
      have hm : min seek data.length = b.length := by omega
      exact ⟨_, _, _, rfl, by rw [hm]; exact h1, by rw [hm]; exact h2, fun h => by cases h⟩

theorem open_at (src : WsgiIn) (limit : Option Nat) (seekSize : Nat) : (Wrap.open src limit seekSize).At src.data limit (seekable src.data limit seekSize) 0 := by
  unfold Wrap.open
  dsimp only
  obtain ⟨b1, b2, b3, _⟩ := body_le src.data limit
  generalize hseek : (match limit with | some n => if n < seekSize then n else seekSize | none => seekSize) = seek
  have hmin : min seek src.data.length = seekable src.data limit seekSize := by
    unfold seekable
    cases limit with
    | none => simp only [body] at *; omega
    | some l =>
      have := b2 l rfl
      dsimp only at hseek
      split at hseek <;> omega
  obtain ⟨b', s', i, e1, e2, e3, e4⟩ := fill_spec seek src.data (seek + 1) [] src rfl rfl (by simp) (by simp) (by simp)
  rw [e1]
  rw [hmin] at e2 e3
  have hk : seekable src.data limit seekSize ≤ (body src.data limit).length := by unfold seekable; omega
  have hb : b' = (body src.data limit).take (seekable src.data limit seekSize) := by
    have := (body_le src.data limit).2.2.2 0 (seekable src.data limit seekSize) (by omega)
    simp only [List.drop_zero] at this
    rw [this, e2]
  refine ⟨rfl, rfl, hb, ?_, fun _ => rfl, by simpa using e3, by simp, ?_⟩
  · dsimp only; rw [e2, List.length_take]; omega
  · intro hi; have := e4 hi; simp only [Nat.zero_max]; omega

theorem seek_at {data : Bytes} {limit : Option Nat} {k : Nat} {w : Wrap} {p : Nat} (A : w.At data limit k p) (o : Int) (wh : Whence) :
    (w.seek o wh = none ∧ (k < p ∨ target limit p o wh = none ∨ ∃ t, target limit p o wh = some t ∧ t < 0)) ∨
      (∃ (w' : Wrap) (t : Nat), w.seek o wh = some w' ∧ p ≤ k ∧ target limit p o wh = some (t : Int) ∧ (k < t ∨ (t ≤ k ∧ w'.At data limit k t))) := by
  obtain ⟨src, input, lim, pos, buffer, bpos⟩ := w
  obtain ⟨h1, h2, h3, h4, h5, h6, h7, h8⟩ := A
  dsimp only at h1 h2 h3 h4 h5 h6 h7 h8
  subst h1 h2
  have hkb : k ≤ (body data lim).length := by rw [h4, h3, List.length_take]; omega
  unfold Wrap.seek
  dsimp only
  by_cases hp : (p : Int) > buffer.length
  · rw [if_pos hp]; left; exact ⟨rfl, .inl (by omega)⟩
  · rw [if_neg hp]
    rw [show (match wh with
      | Whence.set => some o
      | Whence.cur => some ((p : Int) + o)
      | Whence.fromEnd => Option.map (fun l => (l : Int) + o) lim) = target lim p o wh by cases wh <;> rfl]
    cases ht : target lim p o wh with
    | none => left; exact ⟨rfl, .inr (.inl rfl)⟩
    | some t =>
      dsimp only
      by_cases h0 : t < 0
      · rw [if_pos h0]; left; exact ⟨rfl, .inr (.inr ⟨t, rfl, h0⟩)⟩
      · rw [if_neg h0]
        right
        obtain ⟨t, rfl⟩ : ∃ n : Nat, t = n := ⟨t.toNat, by omega⟩
        by_cases he : (t : Int) = p
        · rw [if_pos he]
          have he : t = p := by omega
          subst he
          exact ⟨_, t, rfl, by omega, rfl, .inr ⟨by omega, rfl, rfl, h3, h4, h5, h6, h7, h8⟩⟩
        · rw [if_neg he]
          by_cases hk : (t : Int) ≤ buffer.length
          · rw [if_pos hk]
            refine ⟨_, t, rfl, by omega, rfl, .inr ⟨by omega, rfl, rfl, h3, h4, by dsimp only; omega, ?_, by omega, ?_⟩⟩
            · dsimp only; rw [h6]; congr 1; omega
            · dsimp only; intro hi; have := h8 hi; omega
          · rw [if_neg hk]
            exact ⟨_, t, rfl, by omega, rfl, .inl (by omega)⟩

/-- **C56**: whatever the application reads and wherever it seeks in the first `seekSize` bytes, and however short the reads of the server's
stream are, it sees the body of the request; no byte after the body is taken from the server's stream. -/
theorem C56_input (src : WsgiIn) (limit : Option Nat) (seekSize : Nat) (ops : List InOp) :
    ∃ q, InSpec (body src.data limit) limit (seekable src.data limit seekSize) 0 ops ((Wrap.open src limit seekSize).run ops).1 q ∧
      ∀ p, q = some p → ((Wrap.open src limit seekSize).run ops).2.pos = (p : Int) ∧
        ∃ m ≤ (body src.data limit).length, ((Wrap.open src limit seekSize).run ops).2.src.data = src.data.drop m := by
  suffices H : ∀ (ops : List InOp) (w : Wrap) (p : Nat), w.At src.data limit (seekable src.data limit seekSize) p →
      ∃ q, InSpec (body src.data limit) limit (seekable src.data limit seekSize) p ops (w.run ops).1 q ∧
        ∀ p, q = some p → (w.run ops).2.pos = (p : Int) ∧ ∃ m ≤ (body src.data limit).length, (w.run ops).2.src.data = src.data.drop m from
    H ops _ 0 (open_at src limit seekSize)
  intro ops
  induction ops with
  | nil =>
    intro w p A
    refine ⟨some p, .nil p, ?_⟩
    intro q hq
    cases hq
    refine ⟨A.pos, _, ?_, A.src⟩
    have := A.le
    have : seekable src.data limit seekSize ≤ (body src.data limit).length := by unfold seekable; omega
    omega
  | cons op ops ih =>
    intro w p A
    cases op with
    | read n =>
      obtain ⟨d, w', e1, e2, e3, e4, A'⟩ := read_at_wrap A n
      obtain ⟨q, f1, f2⟩ := ih w' _ A'
      rw [Wrap.run, e1]
      exact ⟨q, .read e2 e3 e4 f1, f2⟩
    | seek o wh =>
      rw [Wrap.run]
      rcases seek_at A o wh with ⟨e1, e2⟩ | ⟨w', t, e1, e2, e3, e4⟩
      · rw [e1]
        obtain ⟨q, f1, f2⟩ := ih w _ A
        exact ⟨q, .refused e2 f1, f2⟩
      · rw [e1]
        rcases e4 with e4 | ⟨e4, A'⟩
        · exact ⟨none, .far e2 e3 e4, by simp⟩
        · obtain ⟨q, f1, f2⟩ := ih w' _ A'
          exact ⟨q, .moved e2 e3 e4 f1, f2⟩

theorem readAll_at {data : Bytes} {limit : Option Nat} {k : Nat} : ∀ (f : Nat) (w : Wrap) (p : Nat), w.At data limit k p → (body data limit).length - p < f →
    (Wrap.readAll f w).1 = (body data limit).drop p := by
  intro f
  induction f with
  | zero => intro w p _ h; omega
  | succ f ih =>
    intro w p A hf
    obtain ⟨d, w', e1, e2, e3, e4, A'⟩ := read_at_wrap A 8192
    rw [Wrap.readAll]
    rw [show ((8192 : Nat) : Int) = 8192 from rfl] at e1
    rw [e1]
    dsimp only
    by_cases h0 : d.length = 0
    · rw [if_pos h0]
      have := e4 (List.length_eq_zero_iff.mp h0)
      rw [List.drop_eq_nil_of_le (by omega)]
    · rw [if_neg h0]
      have := A'.le
      have h2 := ih w' _ A' (by omega)
      rw [h2]
      obtain ⟨r, hr⟩ := e2
      rw [← List.drop_drop, ← hr, List.drop_left]

/-- **C56**: after any reads, and seeks in the first `seekSize` bytes, reading everything returns the rest of the body. -/
theorem C56_all (src : WsgiIn) (limit : Option Nat) (seekSize : Nat) (ops : List InOp) :
    ∃ q, InSpec (body src.data limit) limit (seekable src.data limit seekSize) 0 ops ((Wrap.open src limit seekSize).run ops).1 q ∧
      ∀ p, q = some p → ∀ f, (body src.data limit).length < f → (Wrap.readAll f ((Wrap.open src limit seekSize).run ops).2).1 = (body src.data limit).drop p := by
  suffices H : ∀ (ops : List InOp) (w : Wrap) (p : Nat), w.At src.data limit (seekable src.data limit seekSize) p →
      ∃ q, InSpec (body src.data limit) limit (seekable src.data limit seekSize) p ops (w.run ops).1 q ∧
        ∀ p, q = some p → ∀ f, (body src.data limit).length < f → (Wrap.readAll f (w.run ops).2).1 = (body src.data limit).drop p from
    H ops _ 0 (open_at src limit seekSize)
  intro ops
  induction ops with
  | nil =>
    intro w p A
    refine ⟨some p, .nil p, ?_⟩
    intro q hq f hf
    cases hq
    exact readAll_at f w p A (by omega)
  | cons op ops ih =>
    intro w p A
    cases op with
    | read n =>
      obtain ⟨d, w', e1, e2, e3, e4, A'⟩ := read_at_wrap A n
      obtain ⟨q, f1, f2⟩ := ih w' _ A'
      rw [Wrap.run, e1]
      exact ⟨q, .read e2 e3 e4 f1, f2⟩
    | seek o wh =>
      rw [Wrap.run]
      rcases seek_at A o wh with ⟨e1, e2⟩ | ⟨w', t, e1, e2, e3, e4⟩
      · rw [e1]
        obtain ⟨q, f1, f2⟩ := ih w _ A
        exact ⟨q, .refused e2 f1, f2⟩
      · rw [e1]
        rcases e4 with e4 | ⟨e4, A'⟩
        · exact ⟨none, .far e2 e3 e4, by simp⟩
        · obtain ⟨q, f1, f2⟩ := ih w' _ A'
          exact ⟨q, .moved e2 e3 e4 f1, f2⟩

/-- A body of four bytes in a longer stream, with short reads, read with a seek back to the start. -/
example : ((Wrap.open ⟨[1, 2, 3, 4, 5, 6], [0, 0, 1]⟩ (some 4) 2).run [.read 1, .read 9, .seek 0 .set]).1 = [.data [1], .data [2, 3, 4], .refused] ∧
    ((Wrap.open ⟨[1, 2, 3, 4, 5, 6], [0]⟩ (some 4) 2).run [.read 2, .seek (-1) .cur, .read 9]).1 = [.data [1, 2], .moved, .data [2, 3, 4]] := by
  decide +kernel

/-- **C56**, a seek beyond the buffer can go wrong: with a short read the reader stands at position 4 and reads the byte at 3. -/
theorem C56_far_violation : ((Wrap.open ⟨[0, 1, 2, 3, 4, 5, 6], [1, 0]⟩ (some 7) 2).run [.seek 4 .set, .read 1]).1 = [.moved, .data [3]] := by
  decide +kernel

/-- **C56**, and the read can pass the end of the body: position 6 of a body of 5 bytes; 7 is a byte of the next request. -/
theorem C56_past_violation : (body [1, 2, 3, 4, 5, 6, 7] (some 5)) = [1, 2, 3, 4, 5] ∧
    ((Wrap.open ⟨[1, 2, 3, 4, 5, 6, 7], [0, 0, 0]⟩ (some 5) 1).run [.seek 6 .set, .read 1]).1 = [.moved, .data [4, 5, 6, 7]] := by
  decide +kernel

end Verif.Http

import Verif.Http.Send
/-!
# C55: the input of a WSGI application sent in chunks, `pyslet/http/messages.py:143-184`
-/
namespace Verif.Http

/-! ## ChunkedReader -/

/-- `readline()` of a stream: the line with its end, and the rest. -/
def readLine (s : Bytes) : Bytes × Bytes :=
  let l := s.takeWhile (· != 10)
  if l.length < s.length then (l ++ [10], s.drop (l.length + 1)) else (l, [])

/-- `ChunkedReader`, messages.py:143-148: the data of the source that has not been read; reads of the source are short only at its
end, as those of a `BufferedReader` are. -/
structure Chunked where
  src : Bytes
  left : Int
  eof : Bool
  deriving DecidableEq, Repr

/-- The loop over the trailer, messages.py:159-162. -/
def skipTrailer : Nat → Bytes → Bytes
  | 0, s => s
  | n + 1, s => if strip (readLine s).1 = [] then (readLine s).2 else skipTrailer n (readLine s).2

/-- `_read_chunksize`, messages.py:150-162; `int` is modelled for hexadecimal digits, everything else is an error. -/
def Chunked.readSize (c : Chunked) : Except Fail Chunked := do
  let src := if c.left = 0 then (readLine c.src).2 else c.src
  let ws ← lift (openWords true (strip (readLine src).1))
  match (wpToken ws).1 with
  | none => .error .type
  | some t =>
    if isHexDigits t then
      if hexVal t = 0 then return ⟨skipTrailer ((readLine src).2.length + 1) (readLine src).2, 0, true⟩
      else return ⟨(readLine src).2, hexVal t, false⟩
    else .error .value

/-- `readinto` of a buffer of `n` bytes, messages.py:173-184: the bytes that are read. -/
def Chunked.read (c : Chunked) (n : Nat) : Except Fail (Bytes × Chunked) := do
  let c ← if c.left ≤ 0 ∧ c.eof = false then c.readSize else .ok c
  if c.left ≤ 0 ∧ c.eof then return ([], c)
  else
    let k := min (n : Int) c.left
    return (c.src.take k.toNat, ⟨c.src.drop k.toNat, c.left - k, c.eof⟩)

/-- Reads of the given sizes. -/
def Chunked.reads (c : Chunked) : List Nat → Except Fail (List Bytes × Chunked)
  | [] => .ok ([], c)
  | n :: ns => do
    let (d, c) ← c.read n
    let (ds, c) ← c.reads ns
    return (d :: ds, c)

/-! ### Specification -/

/-- A line of the chunked coding that a line reader can read: no line feed, no white space around. -/
structure TextLine (l : Bytes) : Prop where
  noLF : 10 ∉ l
  stripped : strip l = l
  ne : l ≠ []

/-- A line that begins with the hexadecimal number `n`; extensions may follow. -/
def SizeLine (l : Bytes) (n : Nat) : Prop := ∃ t r, l = t ++ r ∧ isHexDigits t = true ∧ hexVal t = n ∧ TokEnd r ∧ (words true r).isSome

/-- Chunks on the wire, for a line reader. -/
structure GoodChunks (cs : List ChunkPart) (last : Bytes) (trailer : List Bytes) : Prop where
  chunk : ∀ c ∈ cs, c.2 ≠ [] ∧ TextLine c.1 ∧ SizeLine c.1 c.2.length
  last : TextLine last ∧ SizeLine last 0
  trailer : ∀ l ∈ trailer, 10 ∉ l ∧ strip (l ++ CRLF) ≠ []

/-! ### Proofs -/

theorem readLine_crlf {l r : Bytes} (h : 10 ∉ l) : readLine (l ++ CRLF ++ r) = (l ++ CRLF, r) := by
  have hw : (l ++ CRLF ++ r).takeWhile (· != 10) = l ++ [13] := by
    rw [show l ++ CRLF ++ r = (l ++ [13]) ++ (10 :: r) by simp [CRLF]]
    rw [List.takeWhile_append_of_pos]
    · simp
    · intro x hx
      rcases List.mem_append.mp hx with hx | hx
      · have : x ≠ 10 := fun e => h (e ▸ hx)
        simpa using this
      · simp only [List.mem_singleton] at hx; subst hx; rfl
  unfold readLine
  rw [hw]
  dsimp only
  rw [if_pos (by simp [CRLF])]
  simp only [Prod.mk.injEq]
  refine ⟨by simp [CRLF], ?_⟩
  rw [show l ++ CRLF ++ r = (l ++ [13, 10]) ++ r by simp [CRLF]]
  have hl : (l ++ [13]).length + 1 = (l ++ [13, 10]).length := by simp
  exact (congrArg (fun k => List.drop k (l ++ [13, 10] ++ r)) hl).trans List.drop_left

theorem strip_crlf {l : Bytes} (h : strip l = l) : strip (l ++ CRLF) = l := by
  unfold strip at h ⊢
  by_cases hl : l = []
  · subst hl; decide
  · have hd : l.dropWhile isStrip = l := by
      have h1 : (l.dropWhile isStrip).length ≤ l.length := by
        exact (List.dropWhile_suffix _).length_le
      have h2 : ((l.dropWhile isStrip).reverse.dropWhile isStrip).length ≤ (l.dropWhile isStrip).length := by
        have := (List.dropWhile_suffix isStrip (l := (l.dropWhile isStrip).reverse)).length_le; rwa [List.length_reverse] at this
      have h3 := congrArg List.length h
      rw [List.length_reverse] at h3
      have hs : l.dropWhile isStrip <:+ l := List.dropWhile_suffix _
      exact hs.eq_of_length (by omega)
    obtain ⟨b, r, rfl⟩ := List.exists_cons_of_ne_nil hl
    have hb : isStrip b = false := by
      cases hb : isStrip b with
      | false => rfl
      | true =>
        rw [List.dropWhile_cons_of_pos hb] at hd
        have := congrArg List.length hd
        have h4 : (r.dropWhile isStrip).length ≤ r.length := (List.dropWhile_suffix _).length_le
        simp only [List.length_cons] at this
        omega
    rw [List.cons_append, List.dropWhile_cons_of_neg (by simp [hb]), ← List.cons_append, List.reverse_append]
    rw [hd] at h
    rw [show CRLF.reverse = [10, 13] from rfl, List.cons_append, List.dropWhile_cons_of_pos (by decide), List.cons_append, List.dropWhile_cons_of_pos (by decide), List.nil_append]
    exact h

theorem sizeLine_token {l : Bytes} {n : Nat} (h : SizeLine l n) : ∃ t ws, lift (openWords true l) = .ok (.text t :: ws) ∧
    (wpToken (.text t :: ws)).1 = some t ∧ isHexDigits t = true ∧ hexVal t = n := by
  obtain ⟨t, r, rfl, h1, h2, h3, h4⟩ := h
  obtain ⟨ws, hws⟩ := Option.isSome_iff_exists.mp h4
  have hd : t ≠ [] ∧ ∀ b ∈ t, isHex b = true := by
    simp only [isHexDigits, Bool.and_eq_true, List.all_eq_true] at h1
    exact ⟨by simpa using h1.1, h1.2⟩
  have ht : ∀ b ∈ t, TokByte b := by
    intro b hb
    have := hd.2 b hb
    have hlt : b < 128 := by
      simp only [isHex, Bool.or_eq_true, Bool.and_eq_true, decide_eq_true_eq, Text.isDigit] at this
      omega
    have key : ∀ b < 128, isHex b = true → TokByte b := by decide +kernel
    exact key b hlt this
  refine ⟨t, ws, ?_, ?_, h1, h2⟩
  · rw [openWords_ok (show words true (t ++ r) = some (.text t :: ws) by rw [words_token true t r hd.1 ht h3, hws]; rfl)]; rfl
  · obtain ⟨b, t', rfl⟩ := List.exists_cons_of_ne_nil hd.1
    have := (ht b (by simp)).2
    simp [wpToken, this]

theorem skipTrailer_block : ∀ (tr : List Bytes) (rest : Bytes) (n : Nat), (∀ l ∈ tr, 10 ∉ l ∧ strip (l ++ CRLF) ≠ []) → tr.length < n →
    skipTrailer n (block tr ++ rest) = rest := by
  intro tr
  induction tr with
  | nil =>
    intro rest n _ hn
    obtain ⟨n, rfl⟩ : ∃ k, n = k + 1 := ⟨n - 1, by omega⟩
    have := readLine_crlf (l := []) (r := rest) (by simp)
    rw [skipTrailer, show block [] ++ rest = [] ++ CRLF ++ rest by simp [block], this]
    rw [if_pos (show strip ([] ++ CRLF) = [] by decide)]
  | cons l tr ih =>
    intro rest n h hn
    obtain ⟨n, rfl⟩ : ∃ k, n = k + 1 := ⟨n - 1, by omega⟩
    obtain ⟨h1, h2⟩ := h l (by simp)
    have := readLine_crlf (l := l) (r := block tr ++ rest) h1
    rw [skipTrailer, show block (l :: tr) ++ rest = l ++ CRLF ++ (block tr ++ rest) by simp [block], this, if_neg h2]
    exact ih rest n (fun x hx => h x (by simp [hx])) (by simpa using hn)

/-- The reader has delivered everything but `d`, the rest of the current chunk, and the data of `cs`. -/
inductive Chunked.At (rest : Bytes) : Chunked → Bytes → List ChunkPart → Bytes → List Bytes → Prop where
  | first (c : Chunked) (cs : List ChunkPart) (last : Bytes) (tr : List Bytes) : c.left = -1 → c.eof = false →
      c.src = chunksWire cs ++ last ++ CRLF ++ block tr ++ rest → At rest c [] cs last tr
  | mid (c : Chunked) (d : Bytes) (cs : List ChunkPart) (last : Bytes) (tr : List Bytes) : c.left = (d.length : Int) → c.eof = false →
      c.src = d ++ CRLF ++ chunksWire cs ++ last ++ CRLF ++ block tr ++ rest → At rest c d cs last tr
  | eof (c : Chunked) (last : Bytes) (tr : List Bytes) : c.left = 0 → c.eof = true → c.src = rest → At rest c [] [] last tr

theorem block_length (tr : List Bytes) : tr.length < (block tr).length := by
  unfold block
  have : ∀ tr : List Bytes, tr.length ≤ ((tr.map (· ++ CRLF)).flatten).length := by
    intro tr
    induction tr with
    | nil => simp
    | cons l tr ih =>
      have h2 : CRLF.length = 2 := rfl
      simp only [List.map_cons, List.flatten_cons, List.length_append, List.length_cons]; omega
  have := this tr
  have h2 : CRLF.length = 2 := rfl
  rw [List.length_append]; omega

/-- The size of the next chunk is read. -/
theorem readSize_spec {rest : Bytes} {c : Chunked} {cs : List ChunkPart} {last : Bytes} {tr : List Bytes} (G : GoodChunks cs last tr)
    (hl : c.left ≤ 0) (A : c.At rest [] cs last tr) (he : c.eof = false) :
    ∃ c', c.readSize = .ok c' ∧ ((cs = [] ∧ c'.At rest [] [] last tr ∧ c'.left = 0 ∧ c'.eof = true) ∨
      (∃ x cs', cs = x :: cs' ∧ c'.At rest x.2 cs' last tr ∧ c'.left = (x.2.length : Int))) := by
  -- where the line with the size starts
  have hsrc : (if c.left = 0 then (readLine c.src).2 else c.src) = chunksWire cs ++ last ++ CRLF ++ block tr ++ rest := by
    cases A with
    | first _ _ _ h1 _ h3 => rw [if_neg (by omega), h3]
    | mid _ _ _ _ h1 _ h3 =>
      rw [if_pos (by simpa using h1), h3]
      have := readLine_crlf (l := []) (r := chunksWire cs ++ last ++ CRLF ++ block tr ++ rest) (by simp)
      simp only [List.nil_append, List.append_assoc] at this ⊢
      rw [this]
    | eof _ _ h1 h2 => rw [he] at h2; cases h2
  unfold Chunked.readSize
  dsimp only
  rw [hsrc]
  cases cs with
  | nil =>
    obtain ⟨TL, SL⟩ := G.last
    have hr := readLine_crlf (l := last) (r := block tr ++ rest) TL.noLF
    rw [show chunksWire [] ++ last ++ CRLF ++ block tr ++ rest = last ++ CRLF ++ (block tr ++ rest) by simp [chunksWire], hr]
    dsimp only
    rw [strip_crlf TL.stripped]
    obtain ⟨t, ws, e1, e2, e3, e4⟩ := sizeLine_token SL
    simp only [e1, bind, Except.bind, e2, e3, if_true, e4]
    refine ⟨_, rfl, .inl ⟨trivial, .eof _ _ _ rfl rfl ?_, rfl, rfl⟩⟩
    dsimp only
    apply skipTrailer_block tr rest _ G.trailer
    have := block_length tr
    rw [List.length_append]; omega
  | cons x cs =>
    obtain ⟨hne, TL, SL⟩ := G.chunk x (by simp)
    have hr := readLine_crlf (l := x.1) (r := x.2 ++ CRLF ++ chunksWire cs ++ last ++ CRLF ++ block tr ++ rest) TL.noLF
    rw [show chunksWire (x :: cs) ++ last ++ CRLF ++ block tr ++ rest = x.1 ++ CRLF ++ (x.2 ++ CRLF ++ chunksWire cs ++ last ++ CRLF ++ block tr ++ rest) by
      simp [chunksWire], hr]
    dsimp only
    rw [strip_crlf TL.stripped]
    obtain ⟨t, ws, e1, e2, e3, e4⟩ := sizeLine_token SL
    have h0 : x.2.length ≠ 0 := fun h => hne (List.length_eq_zero_iff.mp h)
    simp only [e1, bind, Except.bind, e2, e3, if_true, e4, h0, if_false]
    exact ⟨_, rfl, .inr ⟨x, cs, rfl, .mid _ _ _ _ _ rfl rfl rfl, rfl⟩⟩

theorem GoodChunks.tail {x : ChunkPart} {cs : List ChunkPart} {last : Bytes} {tr : List Bytes} (G : GoodChunks (x :: cs) last tr) : GoodChunks cs last tr :=
  ⟨fun c hc => G.chunk c (by simp [hc]), G.last, G.trailer⟩

/-- One read. -/
theorem read_at {rest : Bytes} {c : Chunked} {d : Bytes} {cs : List ChunkPart} {last : Bytes} {tr : List Bytes} (G : GoodChunks cs last tr)
    (A : c.At rest d cs last tr) {n : Nat} (hn : 0 < n) :
    ∃ r c' d' cs', c.read n = .ok (r, c') ∧ c'.At rest d' cs' last tr ∧ GoodChunks cs' last tr ∧ r.length ≤ n ∧
      r ++ (d' ++ (cs'.map (·.2)).flatten) = d ++ (cs.map (·.2)).flatten ∧ (r = [] → d' = [] ∧ cs' = [] ∧ c'.eof = true) := by
  -- in the middle of a chunk
  have mid : ∀ (c : Chunked) (d : Bytes) (cs : List ChunkPart), GoodChunks cs last tr → c.At rest d cs last tr → c.left = (d.length : Int) → d ≠ [] →
      ∃ r c' d' cs', Except.ok (ε := Fail) (c.src.take (min (n : Int) c.left).toNat, (⟨c.src.drop (min (n : Int) c.left).toNat, c.left - min (n : Int) c.left, c.eof⟩ : Chunked)) = .ok (r, c') ∧
        c'.At rest d' cs' last tr ∧ GoodChunks cs' last tr ∧ r.length ≤ n ∧
        r ++ (d' ++ (cs'.map (·.2)).flatten) = d ++ (cs.map (·.2)).flatten ∧ (r = [] → d' = [] ∧ cs' = [] ∧ c'.eof = true) := by
    intro c d cs G A hl hd
    have hdl : d.length ≠ 0 := fun h => hd (List.length_eq_zero_iff.mp h)
    have hk : (min (n : Int) c.left).toNat = min n d.length := by rw [hl]; omega
    cases A with
    | first _ _ _ h1 => exact absurd rfl hd
    | eof _ _ h1 => exact absurd rfl hd
    | mid _ _ _ _ h1 h2 h3 =>
      have ht : c.src.take (min n d.length) = d.take (min n d.length) := by
        rw [h3]; simp only [List.append_assoc]; rw [List.take_append_of_le_length (by omega)]
      have hdr : c.src.drop (min n d.length) = d.drop (min n d.length) ++ CRLF ++ chunksWire cs ++ last ++ CRLF ++ block tr ++ rest := by
        rw [h3]; simp only [List.append_assoc]; rw [List.drop_append_of_le_length (by omega)]
      rw [hk, ht, hdr]
      refine ⟨_, _, d.drop (min n d.length), cs, rfl, .mid _ _ _ _ _ ?_ h2 rfl, G, ?_, ?_, ?_⟩
      · dsimp only; rw [List.length_drop]; omega
      · rw [List.length_take]; omega
      · rw [← List.append_assoc, List.take_append_drop]
      · intro h
        have := congrArg List.length h
        rw [List.length_take, List.length_nil] at this
        omega
  unfold Chunked.read
  by_cases hc : c.left ≤ 0 ∧ c.eof = false
  · rw [if_pos hc]
    have hd : d = [] := by
      cases A with
      | first => rfl
      | eof => rfl
      | mid _ _ _ _ h1 => exact List.length_eq_zero_iff.mp (by have := hc.1; omega)
    subst hd
    obtain ⟨c', e1, e2⟩ := readSize_spec G hc.1 A hc.2
    simp only [e1, bind, Except.bind]
    rcases e2 with ⟨rfl, A', h1, h2⟩ | ⟨x, cs', rfl, A', h1⟩
    · rw [if_pos ⟨by omega, h2⟩]
      exact ⟨[], c', [], [], rfl, A', G, by simp, by simp, fun _ => ⟨rfl, rfl, h2⟩⟩
    · have hx := (G.chunk x (by simp)).1
      have hxl : x.2.length ≠ 0 := fun h => hx (List.length_eq_zero_iff.mp h)
      rw [if_neg (by rintro ⟨h, _⟩; omega)]
      have := mid c' x.2 cs' G.tail A' h1 hx
      simpa [pure, Except.pure] using this
  · rw [if_neg hc]
    simp only [bind, Except.bind]
    by_cases hl : c.left ≤ 0
    · have he : c.eof = true := by
        cases h : c.eof with
        | true => rfl
        | false => exact absurd ⟨hl, h⟩ hc
      rw [if_pos ⟨hl, he⟩]
      cases A with
      | first _ _ _ h1 h2 => rw [he] at h2; cases h2
      | mid _ _ _ _ h1 h2 => rw [he] at h2; cases h2
      | eof _ _ h1 h2 h3 => exact ⟨[], c, [], [], rfl, .eof _ _ _ h1 h2 h3, G, by simp, by simp, fun _ => ⟨rfl, rfl, he⟩⟩
    · rw [if_neg (fun h => hl h.1)]
      have hll : c.left = (d.length : Int) := by
        cases A with
        | first _ _ _ h1 => omega
        | mid _ _ _ _ h1 => exact h1
        | eof _ _ h1 => omega
      exact mid c d cs G A hll (by rintro rfl; simp at hll; omega)

/-- **C55**: whatever sizes are read, the reader returns the data of the chunks in order; it returns nothing only when all data has been
returned, and then exactly the chunked body has been read from the source. -/
theorem C55_chunked {cs : List ChunkPart} {last : Bytes} {tr : List Bytes} (G : GoodChunks cs last tr) (rest : Bytes) (ns : List Nat) (hn : ∀ n ∈ ns, 0 < n) :
    ∃ rs c, (Chunked.reads ⟨chunksWire cs ++ last ++ CRLF ++ block tr ++ rest, -1, false⟩ ns) = .ok (rs, c) ∧
      rs.flatten <+: (cs.map (·.2)).flatten ∧ (∀ r ∈ rs, r = [] → rs.flatten = (cs.map (·.2)).flatten ∧ c.src = rest) := by
  suffices H : ∀ (ns : List Nat) (c : Chunked) (d : Bytes) (cs : List ChunkPart), (∀ n ∈ ns, 0 < n) → GoodChunks cs last tr → c.At rest d cs last tr →
      ∃ rs c', c.reads ns = .ok (rs, c') ∧ rs.flatten <+: d ++ (cs.map (·.2)).flatten ∧
        (∀ r ∈ rs, r = [] → rs.flatten = d ++ (cs.map (·.2)).flatten ∧ c'.src = rest) ∧
        (d = [] → cs = [] → c.eof = true → (∀ r ∈ rs, r = []) ∧ c'.src = rest) by
    obtain ⟨rs, c, e1, e2, e3, _⟩ := H ns ⟨_, -1, false⟩ [] cs hn G (.first _ _ _ _ rfl rfl rfl)
    exact ⟨rs, c, e1, by simpa using e2, by simpa using e3⟩
  intro ns
  induction ns with
  | nil =>
    intro c d cs _ _ A
    refine ⟨[], c, rfl, List.nil_prefix, by simp, ?_⟩
    rintro rfl rfl he
    refine ⟨by simp, ?_⟩
    cases A with
    | first _ _ _ h1 h2 => rw [he] at h2; cases h2
    | mid _ _ _ _ h1 h2 => rw [he] at h2; cases h2
    | eof _ _ _ _ h => exact h
  | cons n ns ih =>
    intro c d cs hn G A
    obtain ⟨r, c1, d', cs', e1, A', G', _, e3, e4⟩ := read_at G A (hn n (by simp))
    obtain ⟨rs, c2, f1, f2, f3, f4⟩ := ih c1 d' cs' (fun m hm => hn m (by simp [hm])) G' A'
    refine ⟨r :: rs, c2, ?_, ?_, ?_, ?_⟩
    · rw [Chunked.reads, e1]; simp only [bind, Except.bind, f1]; rfl
    · rw [List.flatten_cons, ← e3]
      exact (List.prefix_append_right_inj r).mpr f2
    · intro x hx hx0
      rcases List.mem_cons.mp hx with rfl | hx
      · obtain ⟨rfl, rfl, he⟩ := e4 hx0
        obtain ⟨g1, g2⟩ := f4 rfl rfl he
        refine ⟨?_, g2⟩
        rw [← e3, List.flatten_cons, hx0]
        simp only [List.nil_append, List.map_nil, List.flatten_nil]
        exact List.flatten_eq_nil_iff.mpr g1
      · obtain ⟨g1, g2⟩ := f3 x hx hx0
        exact ⟨by rw [List.flatten_cons, g1, e3], g2⟩
    · rintro rfl rfl he
      rw [List.map_nil, List.flatten_nil, List.append_nil] at e3
      have hr : r = [] := (List.append_eq_nil_iff.mp e3).1
      obtain ⟨rfl, rfl, he'⟩ := e4 hr
      obtain ⟨g1, g2⟩ := f4 rfl rfl he'
      exact ⟨by intro x hx; rcases List.mem_cons.mp hx with rfl | hx; exact hr; exact g1 x hx, g2⟩

/-- Two chunks, one with an extension, and a trailer. -/
example : GoodChunks [([50, 59, 97, 61, 98], [13, 10]), ([49], [7])] [48] [[120, 58, 121]] := by
  refine ⟨?_, ⟨⟨by decide, by decide, by decide⟩, [48], [], rfl, by decide, by decide, tokEnd_nil, by decide⟩, by decide⟩
  intro c hc
  simp only [List.mem_cons, List.not_mem_nil, or_false] at hc
  rcases hc with rfl | rfl
  · exact ⟨by decide, ⟨by decide, by decide, by decide⟩, [50], [59, 97, 61, 98], rfl, by decide, by decide, tokEnd_cons (by decide), by decide +kernel⟩
  · exact ⟨by decide, ⟨by decide, by decide, by decide⟩, [49], [], rfl, by decide, by decide, tokEnd_nil, by decide⟩

end Verif.Http

/-
C173: what a WSGIContext tells a page about its request (pyslet/wsgi.py:145-373).
-/
namespace Verif.Web.Context

abbrev Str := List Nat

/-! ## Model -/

/-- The upper case hexadecimal digit. -/
def hexDigit (n : Nat) : Nat := if n < 10 then 48 + n else 55 + n

/-- UTF-8 of a character below 256; strings in a WSGI environ have no others (they are bytes read as
Latin 1, PEP 3333). -/
def utf8 (c : Nat) : Str := if c < 128 then [c] else [192 + c / 64, 128 + c % 64]

/-- The characters that `urllib.parse.quote` keeps: letters, digits, `_.-~` and the slash. -/
def safe (c : Nat) : Bool :=
  (decide (65 ≤ c) && decide (c ≤ 90)) || (decide (97 ≤ c) && decide (c ≤ 122)) || (decide (48 ≤ c) && decide (c ≤ 57)) ||
    c == 95 || c == 46 || c == 45 || c == 126 || c == 47

/-- One byte in `quote`. -/
def quoteByte (b : Nat) : Str := if safe b then [b] else [37, hexDigit (b / 16), hexDigit (b % 16)]

/-- `urlquote`: Python 3's `urllib.parse.quote` of a str, which is encoded in UTF-8 first. -/
def quote (s : Str) : Str := (s.flatMap utf8).flatMap quoteByte

/-- The parts of the environ that are used. -/
structure Environ where
  scheme : Str
  serverName : Str
  serverPort : Str
  scriptName : Str := []
  pathInfo : Str := []
  queryString : Str := []
  contentLength : Str := []
deriving DecidableEq, Repr

/-- "https" -/
def sHttps : Str := [104, 116, 116, 112, 115]

/-- wsgi.py:303-317 `_get_canonical_root` -/
def canonicalRoot (e : Environ) : Str :=
  e.scheme ++ [58, 47, 47] ++
  (if e.scheme = sHttps then
    if e.serverPort ≠ [52, 52, 51] then e.serverName ++ [58] ++ e.serverPort else e.serverName
  else if e.serverPort ≠ [56, 48] then e.serverName ++ [58] ++ e.serverPort
  else e.serverName)

/-- wsgi.py:270-301 `get_url`: the text. -/
def getUrl (root : Str) (e : Environ) : Str :=
  root ++ quote e.scriptName ++ quote e.pathInfo ++ (if e.queryString ≠ [] then 63 :: e.queryString else [])

/-- wsgi.py:233-268 `get_app_root`: the text. -/
def getAppRoot (root : Str) (e : Environ) : Str :=
  root ++ (if quote e.scriptName = [] then [47]
    else quote e.scriptName ++ (if (quote e.scriptName).getLast? ≠ some 47 then [47] else []))

/-- What is known of the body so far: `_form` and `_content` (wsgi.py:184-187). -/
structure Body where
  formRead : Bool := false
  content : Option Str := none
deriving DecidableEq, Repr

/-- What a call does. -/
inductive Out (α : Type) where
  | ok (a : α)
  | badRequest
  | valueError
deriving DecidableEq, Repr

/-- wsgi.py:364-369: the loop.  The stream gives for a call of `read(n)` any number of bytes from 1 to
`n`, `pick i` of them in the `i`-th call, and none only at its end. -/
def readLoop (pick : Nat → Nat) (i length : Nat) (stream : Str) : Str :=
  if length = 0 then []
  else if h : stream = [] then []
  else
    stream.take (min length (max 1 (pick i))) ++
      readLoop pick (i + 1) (length - (stream.take (min length (max 1 (pick i)))).length)
        (stream.drop (min length (max 1 (pick i))))
termination_by stream.length
decreasing_by
  have : 0 < stream.length := by cases stream <;> simp_all
  simp only [List.length_drop]
  omega

/-- wsgi.py:341-373 `get_content`.  `isDigit` and `toInt` are `str.isdigit` and `int` (`none` for
ValueError); `maxContent` is MAX_CONTENT. -/
def getContent (isDigit : Str → Bool) (toInt : Str → Option Nat) (maxContent : Nat) (pick : Nat → Nat)
    (e : Environ) (stream : Str) (b : Body) : Out (Option Str) × Body :=
  if b.formRead = false ∧ b.content = none then
    match (if isDigit e.contentLength then toInt e.contentLength else some 0) with
    | none => (.valueError, b)
    | some n =>
      if n ≤ maxContent then
        (.ok (some (readLoop pick 0 n stream)), { b with content := some (readLoop pick 0 n stream) })
      else (.badRequest, b)
  else (.ok b.content, b)

/-! ## Specification -/

/-- The value of a hexadecimal digit. -/
def hexVal (c : Nat) : Option Nat :=
  if 48 ≤ c ∧ c ≤ 57 then some (c - 48) else if 65 ≤ c ∧ c ≤ 70 then some (c - 55)
  else if 97 ≤ c ∧ c ≤ 102 then some (c - 87) else none

/-- The bytes that a path with percent escapes stands for. -/
inductive Stands : Str → Str → Prop
  | nil : Stands [] []
  | plain (c : Nat) (s t : Str) : c ≠ 37 → Stands s t → Stands (c :: s) (c :: t)
  | escape (x y a b : Nat) (s t : Str) : hexVal x = some a → hexVal y = some b → Stands s t →
      Stands (37 :: x :: y :: s) ((16 * a + b) :: t)

/-- Characters of ASCII only. -/
def Ascii (s : Str) : Prop := ∀ c ∈ s, c < 128

/-! ## Proofs -/

theorem hexVal_digit (n : Nat) (h : n < 16) : hexVal (hexDigit n) = some n := by
  unfold hexVal hexDigit
  by_cases h1 : n < 10
  · rw [if_pos h1, if_pos (by omega)]; congr 1; omega
  · rw [if_neg h1, if_neg (by omega), if_pos (by omega)]; congr 1; omega

theorem stands_quoteByte (b : Nat) (hb : b < 256) (s t : Str) (h : Stands s t) : Stands (quoteByte b ++ s) (b :: t) := by
  unfold quoteByte
  split
  · next hs =>
    refine .plain b s t ?_ h
    rintro rfl
    exact absurd hs (by decide)
  · have e : b = 16 * (b / 16) + b % 16 := by omega
    have := Stands.escape (hexDigit (b / 16)) (hexDigit (b % 16)) (b / 16) (b % 16) s t
      (hexVal_digit _ (by omega)) (hexVal_digit _ (by omega)) h
    rw [← e] at this
    exact this

theorem stands_bytes (bs : Str) (h : ∀ b ∈ bs, b < 256) : ∀ s t, Stands s t → Stands (bs.flatMap quoteByte ++ s) (bs ++ t) := by
  induction bs with
  | nil => intro s t hs; exact hs
  | cons b bs ih =>
    intro s t hs
    rw [List.flatMap_cons, List.append_assoc, List.cons_append]
    exact stands_quoteByte b (h b (by simp)) _ _ (ih (fun c hc => h c (by simp [hc])) s t hs)

theorem Stands.append {a b s t : Str} (h : Stands a b) (h' : Stands s t) : Stands (a ++ s) (b ++ t) := by
  induction h with
  | nil => exact h'
  | plain c s t hc _ ih => exact .plain c _ _ hc ih
  | escape x y a b s t hx hy _ ih => exact .escape x y a b _ _ hx hy ih

theorem Stands.unique {s a b : Str} (h : Stands s a) : Stands s b → a = b := by
  intro h'
  induction h generalizing b with
  | nil => cases h'; rfl
  | plain c s t hc _ ih =>
    cases h' with
    | plain _ _ _ _ h2 => rw [ih h2]
    | escape => exact absurd rfl hc
  | escape x y a b s t hx hy _ ih =>
    cases h' with
    | plain _ _ _ hc _ => exact absurd rfl hc
    | escape _ _ a' b' _ _ hx' hy' h2 =>
      rw [hx] at hx'; cases hx'
      rw [hy] at hy'; cases hy'
      rw [ih h2]

theorem utf8_lt (c : Nat) (h : c < 256) : ∀ b ∈ utf8 c, b < 256 := by
  unfold utf8
  intro b hb
  split at hb
  · simp at hb; omega
  · simp at hb; omega

theorem utf8_ascii (s : Str) (h : Ascii s) : s.flatMap utf8 = s := by
  induction s with
  | nil => rfl
  | cons c s ih =>
    rw [List.flatMap_cons, ih fun d hd => h d (by simp [hd]), utf8, if_pos (h c (by simp))]
    rfl

theorem stands_quote (s : Str) (h : ∀ c ∈ s, c < 256) : Stands (quote s) (s.flatMap utf8) := by
  have := stands_bytes (s.flatMap utf8) ?_ [] [] .nil
  · simpa [quote] using this
  · intro b hb
    obtain ⟨c, hc, hb⟩ := List.mem_flatMap.mp hb
    exact utf8_lt c (h c hc) b hb

/-- Nothing that ends a path. -/
theorem quote_chars (s : Str) (h : ∀ c ∈ s, c < 256) : 63 ∉ quote s ∧ 35 ∉ quote s := by
  have key : ∀ b, b < 256 → ∀ x ∈ quoteByte b, x ≠ 63 ∧ x ≠ 35 := by decide +kernel
  have : ∀ x ∈ quote s, x ≠ 63 ∧ x ≠ 35 := by
    intro x hx
    obtain ⟨b, hb, hx⟩ := List.mem_flatMap.mp hx
    obtain ⟨c, hc, hb⟩ := List.mem_flatMap.mp hb
    exact key b (utf8_lt c (h c hc) b hb) x hx
  exact ⟨fun h => (this 63 h).1 rfl, fun h => (this 35 h).2 rfl⟩

/-- **C173** (address): the address of the request is the root, a path that stands for the script name
and the path info, and the query as it was sent.  For paths in ASCII. -/
theorem C173_url_partial (root : Str) (e : Environ) (hs : Ascii e.scriptName) (hp : Ascii e.pathInfo) :
    ∃ p, getUrl root e = root ++ p ++ (if e.queryString = [] then [] else 63 :: e.queryString) ∧
      Stands p (e.scriptName ++ e.pathInfo) ∧ 63 ∉ p ∧ 35 ∉ p := by
  have l : ∀ s, Ascii s → ∀ c ∈ s, c < 256 := fun s h c hc => by have := h c hc; omega
  have h1 := stands_quote e.scriptName (l _ hs)
  have h2 := stands_quote e.pathInfo (l _ hp)
  rw [utf8_ascii _ hs] at h1
  rw [utf8_ascii _ hp] at h2
  obtain ⟨a1, a2⟩ := quote_chars e.scriptName (l _ hs)
  obtain ⟨b1, b2⟩ := quote_chars e.pathInfo (l _ hp)
  refine ⟨quote e.scriptName ++ quote e.pathInfo, ?_, h1.append h2, ?_, ?_⟩
  · unfold getUrl
    by_cases hq : e.queryString = [] <;> simp [hq]
  · simp [a1, b1]
  · simp [a2, b2]

/-- **C173** (violation): a byte outside ASCII in the path is not the byte that was sent: the address
stands for two others, so `/%E9` is told as `/%C3%A9`. -/
theorem C173_url_violation (c : Nat) (h1 : 128 ≤ c) (h2 : c < 256) (root : Str) (e : Environ)
    (hs : e.scriptName = []) (hp : e.pathInfo = [47, c]) (hq : e.queryString = []) :
    ∃ p, getUrl root e = root ++ p ∧ Stands p [47, 192 + c / 64, 128 + c % 64] ∧ ¬ Stands p [47, c] := by
  have h := stands_quote [47, c] (by intro x hx; simp at hx; omega)
  have e1 : [47, c].flatMap utf8 = [47, 192 + c / 64, 128 + c % 64] := by
    simp [utf8, show ¬ c < 128 by omega]
  rw [e1] at h
  refine ⟨quote [47, c], by simp [getUrl, hs, hp, hq, quote], h, ?_⟩
  intro h'
  have := h.unique h'
  simp at this

/-- **C173** (root of the application): it ends in a slash, and the address of every request begins
with it, if the path info begins with a slash and the script name does not end in one, or is not there. -/
theorem C173_root (root : Str) (e : Environ) (t : Str) (hp : e.pathInfo = 47 :: t)
    (hs : e.scriptName.getLast? ≠ some 47) :
    (getAppRoot root e).getLast? = some 47 ∧ getAppRoot root e <+: getUrl root e := by
  have hq : quote (47 :: t) = 47 :: quote t := by
    have hs : safe 47 = true := by decide
    simp [quote, utf8, quoteByte, hs]
  have hlast : ∀ s : Str, s ≠ [] → quote s ≠ [] := by
    intro s h
    cases s with
    | nil => exact absurd rfl h
    | cons c s =>
      intro e
      unfold quote at e
      have hu : ∃ b l, utf8 c = b :: l := by unfold utf8; split <;> exact ⟨_, _, rfl⟩
      obtain ⟨b, l, hu⟩ := hu
      rw [List.flatMap_cons, hu, List.cons_append, List.flatMap_cons] at e
      have := (List.append_eq_nil_iff.mp e).1
      unfold quoteByte at this
      split at this <;> cases this
  by_cases hn : e.scriptName = []
  · have hqe : quote e.scriptName = [] := by rw [hn]; rfl
    constructor
    · unfold getAppRoot; rw [if_pos hqe]; simp
    · unfold getAppRoot getUrl
      rw [if_pos hqe, hqe, hp, hq]
      exact ⟨quote t ++ (if e.queryString ≠ [] then 63 :: e.queryString else []), by simp⟩
  · have hqe := hlast _ hn
    -- the last character of the quoted name is not a slash
    have hne : (quote e.scriptName).getLast? ≠ some 47 := by
      obtain ⟨c, init, hc⟩ : ∃ c init, e.scriptName = init ++ [c] := by
        rcases List.eq_nil_or_concat e.scriptName with h | ⟨i, c, h⟩
        · exact absurd h hn
        · exact ⟨c, i, by simpa using h⟩
      have hc47 : c ≠ 47 := by
        rintro rfl
        exact hs (by rw [hc]; simp)
      have hu : ∃ b l, utf8 c = l ++ [b] ∧ b ≠ 47 := by
        unfold utf8
        split
        · exact ⟨c, [], rfl, hc47⟩
        · exact ⟨128 + c % 64, [192 + c / 64], rfl, by omega⟩
      obtain ⟨b, l, hu, hb⟩ := hu
      have : quote e.scriptName = (init.flatMap utf8 ++ l).flatMap quoteByte ++ quoteByte b := by
        unfold quote
        rw [hc]
        simp [hu]
      rw [this]
      unfold quoteByte
      split
      · simpa using hb
      · have : hexDigit (b % 16) ≠ 47 := by unfold hexDigit; split <;> omega
        simpa using this
    constructor
    · unfold getAppRoot; rw [if_neg hqe, if_pos hne]; simp
    · unfold getAppRoot getUrl
      rw [if_neg hqe, if_pos hne, hp, hq]
      exact ⟨quote t ++ (if e.queryString ≠ [] then 63 :: e.queryString else []), by simp⟩

/-- **C173** (port): the root names the port unless it is the default one of the scheme. -/
theorem C173_port (e : Environ) :
    ((e.scheme = [104, 116, 116, 112] ∧ e.serverPort = [56, 48]) ∨
     (e.scheme = [104, 116, 116, 112, 115] ∧ e.serverPort = [52, 52, 51]) →
      canonicalRoot e = e.scheme ++ [58, 47, 47] ++ e.serverName) ∧
    ((e.scheme = [104, 116, 116, 112] ∧ e.serverPort ≠ [56, 48]) ∨
     (e.scheme = [104, 116, 116, 112, 115] ∧ e.serverPort ≠ [52, 52, 51]) →
      canonicalRoot e = e.scheme ++ [58, 47, 47] ++ e.serverName ++ [58] ++ e.serverPort) := by
  constructor
  · rintro (⟨h1, h2⟩ | ⟨h1, h2⟩) <;> simp [canonicalRoot, h1, h2, sHttps]
  · rintro (⟨h1, h2⟩ | ⟨h1, h2⟩) <;> simp [canonicalRoot, h1, h2, sHttps]

theorem readLoop_take (pick : Nat → Nat) : ∀ (n i length : Nat) (stream : Str), stream.length ≤ n →
    readLoop pick i length stream = stream.take length := by
  intro n
  induction n with
  | zero =>
    intro i length stream h
    have : stream = [] := by cases stream <;> simp_all
    subst this
    rw [readLoop]
    split <;> simp
  | succ n ih =>
    intro i length stream h
    rw [readLoop]
    by_cases h0 : length = 0
    · rw [if_pos h0, h0]; rfl
    · rw [if_neg h0]
      by_cases hs : stream = []
      · rw [dif_pos hs, hs]; simp
      · rw [dif_neg hs]
        have hpos : 0 < stream.length := by cases stream <;> simp_all
        generalize hk : min length (max 1 (pick i)) = k
        have hk1 : 1 ≤ k := by omega
        have hk2 : k ≤ length := by omega
        rw [ih _ _ _ (by simp only [List.length_drop]; omega), List.length_take]
        by_cases hc : k ≤ stream.length
        · rw [Nat.min_eq_left hc]
          have : length = k + (length - k) := by omega
          conv => rhs; rw [this, List.take_add]
        · rw [List.drop_eq_nil_of_le (by omega), List.take_of_length_le (by omega), List.take_of_length_le (l := stream) (by omega)]
          simp

/-- **C173** (content): whatever the sizes of the pieces that the stream gives, the content is the
first bytes of the stream, as many as Content-Length says; a second call gives the same without
reading. -/
theorem C173_content (isDigit : Str → Bool) (toInt : Str → Option Nat) (maxContent : Nat) (pick pick' : Nat → Nat)
    (e : Environ) (stream stream' : Str) (n : Nat) (h1 : isDigit e.contentLength = true)
    (h2 : toInt e.contentLength = some n) (h3 : n ≤ maxContent) :
    ∃ b, getContent isDigit toInt maxContent pick e stream {} = (.ok (some (stream.take n)), b) ∧
      getContent isDigit toInt maxContent pick' e stream' b = (.ok (some (stream.take n)), b) := by
  have e1 := readLoop_take pick _ 0 n stream (Nat.le_refl _)
  refine ⟨{ content := some (stream.take n) }, ?_, ?_⟩
  · unfold getContent
    rw [if_pos ⟨rfl, rfl⟩, if_pos h1, h2]
    simp only [if_pos h3, e1]
  · unfold getContent
    rw [if_neg (by simp)]

/-- **C173** (limits): never more than the limit is read, and a body that says it is longer is refused
without reading; a body without a length is empty. -/
theorem C173_limits (isDigit : Str → Bool) (toInt : Str → Option Nat) (maxContent : Nat) (pick : Nat → Nat)
    (e : Environ) (stream : Str) :
    (∀ s b, getContent isDigit toInt maxContent pick e stream {} = (.ok (some s), b) → s.length ≤ maxContent) ∧
    (∀ n, isDigit e.contentLength = true → toInt e.contentLength = some n → maxContent < n →
      getContent isDigit toInt maxContent pick e stream {} = (.badRequest, {})) ∧
    (isDigit e.contentLength = false →
      getContent isDigit toInt maxContent pick e stream {} = (.ok (some []), { content := some [] })) := by
  refine ⟨?_, ?_, ?_⟩
  · intro s b h
    unfold getContent at h
    rw [if_pos ⟨rfl, rfl⟩] at h
    split at h
    · cases h
    · next n _ =>
      split at h
      · cases h
        rw [readLoop_take pick _ 0 n stream (Nat.le_refl _), List.length_take]
        omega
      · cases h
  · intro n h1 h2 h3
    unfold getContent
    rw [if_pos ⟨rfl, rfl⟩, if_pos h1, h2]
    simp only [if_neg (show ¬ n ≤ maxContent by omega)]
  · intro h
    unfold getContent
    rw [if_pos ⟨rfl, rfl⟩]
    simp [h, readLoop]

/-- **C173** (violation): a text that is made of digits for `isdigit` but not for `int`, such as "²",
ends in ValueError instead of being refused. -/
theorem C173_length_violation (isDigit : Str → Bool) (toInt : Str → Option Nat) (maxContent : Nat) (pick : Nat → Nat)
    (e : Environ) (stream : Str) (h1 : isDigit e.contentLength = true) (h2 : toInt e.contentLength = none) :
    getContent isDigit toInt maxContent pick e stream {} = (.valueError, {}) := by
  unfold getContent
  rw [if_pos ⟨rfl, rfl⟩, if_pos h1, h2]

/-- A request for the examples: GET /app/a%20b?x=1 of http://h:8080 with a body of 3 bytes. -/
def sample : Environ where
  scheme := [104, 116, 116, 112]
  serverName := [104]
  serverPort := [56, 48, 56, 48]
  scriptName := [47, 97, 112, 112]
  pathInfo := [47, 97, 32, 98]
  queryString := [120, 61, 49]
  contentLength := [51]

example : getUrl (canonicalRoot sample) sample =
    [104, 116, 116, 112, 58, 47, 47, 104, 58, 56, 48, 56, 48, 47, 97, 112, 112, 47, 97, 37, 50, 48, 98, 63, 120, 61, 49] ∧
    getAppRoot (canonicalRoot sample) sample =
      [104, 116, 116, 112, 58, 47, 47, 104, 58, 56, 48, 56, 48, 47, 97, 112, 112, 47] := by decide +kernel

example : Ascii sample.scriptName ∧ Ascii sample.pathInfo ∧ sample.pathInfo = 47 :: [97, 32, 98] ∧
    sample.scriptName.getLast? ≠ some 47 := by unfold Ascii; decide

example : (getContent (fun s => s == [51]) (fun _ => some 3) 65536 (fun _ => 2) sample [1, 2, 3, 4] {}).1 = .ok (some [1, 2, 3]) := by
  obtain ⟨b, h, -⟩ := C173_content (fun s => s == [51]) (fun _ => some 3) 65536 (fun _ => 2) (fun _ => 2) sample [1, 2, 3, 4] [] 3 rfl rfl (by decide)
  rw [h]; rfl

end Verif.Web.Context

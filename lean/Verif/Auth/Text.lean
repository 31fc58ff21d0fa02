import Verif.Http.ParamProps
import Mathlib.Data.List.Induction
/-!
# Model of `pyslet/http/auth.py`: the text of credentials and challenges (C83)

`base64.b64encode` and `base64.b64decode` are Python's (RFC 4648, and the lenient decoder of `binascii`).
-/
namespace Verif.Auth
open Http (Bytes Word words wpToken isToken wpQuoted parseSp parseSep requireSep requireToken requireEnd ascii lowerBytes
  lowerByte quoteString splitByte TokByte TokEnd)

/-! ### base64 -/

/-- The alphabet of base64. -/
def b64char (n : Nat) : Nat :=
  if n < 26 then 65 + n else if n < 52 then 71 + n else if n < 62 then n - 4 else if n = 62 then 43 else 47

/-- The value of a character; `none` if it is not in the alphabet. -/
def b64value (c : Nat) : Option Nat :=
  if 65 ≤ c ∧ c ≤ 90 then some (c - 65)
  else if 97 ≤ c ∧ c ≤ 122 then some (c - 71)
  else if 48 ≤ c ∧ c ≤ 57 then some (c + 4)
  else if c = 43 then some 62
  else if c = 47 then some 63
  else none

/-- `base64.b64encode`. -/
def b64encode : Bytes → Bytes
  | [] => []
  | [a] => [b64char (a / 4), b64char (a % 4 * 16), 61, 61]
  | [a, b] => [b64char (a / 4), b64char (a % 4 * 16 + b / 16), b64char (b % 16 * 4), 61]
  | a :: b :: c :: r =>
    b64char (a / 4) :: b64char (a % 4 * 16 + b / 16) :: b64char (b % 16 * 4 + c / 64) :: b64char (c % 64) :: b64encode r

/-- `binascii.a2b_base64` (not strict): the position in the group of four, the bits left over and the number of
'=' seen since the last character of the alphabet.  Other characters are skipped.  `none`: binascii.Error, a
ValueError. -/
def b64loop (pos left pads : Nat) : Bytes → Option Bytes
  | [] => if pos = 0 then some [] else none
  | c :: r =>
    if c = 61 then
      if pos ≥ 2 then if pos + (pads + 1) ≥ 4 then some [] else b64loop pos left (pads + 1) r
      else b64loop pos left pads r
    else match b64value c with
      | none => b64loop pos left pads r
      | some v =>
        if pos = 0 then b64loop 1 v 0 r
        else if pos = 1 then (b64loop 2 (v % 16) 0 r).map ((left * 4 + v / 16) :: ·)
        else if pos = 2 then (b64loop 3 (v % 4) 0 r).map ((left * 16 + v / 4) :: ·)
        else (b64loop 0 0 0 r).map ((left * 64 + v) :: ·)

/-- `base64.b64decode`. -/
def b64decode (s : Bytes) : Option Bytes := b64loop 0 0 0 s

/-! ### Credentials -/

/-- "Basic" and "basic". -/
def sBasic : Bytes := [66, 97, 115, 105, 99]
def sbasic : Bytes := [98, 97, 115, 105, 99]

/-- The exceptions: `value` for ValueError and its subclasses (BadSyntax, UnicodeError, binascii.Error). -/
inductive CErr where
  | value | attribute | type | notImplemented
  deriving DecidableEq, Repr

instance {α : Type} [DecidableEq α] : DecidableEq (Except CErr α)
  | .ok a, .ok b => if h : a = b then .isTrue (h ▸ rfl) else .isFalse fun e => h (by cases e; rfl)
  | .error a, .error b => if h : a = b then .isTrue (h ▸ rfl) else .isFalse fun e => h (by cases e; rfl)
  | .ok _, .error _ => .isFalse fun e => by cases e
  | .error _, .ok _ => .isFalse fun e => by cases e

/-- The exceptions of the word parser met here are ValueErrors. -/
def val {α : Type} : Except Http.Err α → Except CErr α
  | .ok a => .ok a
  | .error _ => .error .value

/-- `BasicCredentials.to_bytes`, auth.py:312-318, when userid and password are set.  UnicodeEncodeError outside
ISO-8859-1. -/
def basicToBytes (userid password : Bytes) : Except CErr Bytes :=
  if (userid ++ 58 :: password).all (· < 256) then .ok (sBasic ++ 32 :: b64encode (userid ++ 58 :: password))
  else .error .value

/-- `set_basic_credentials`, auth.py:218-224: userid and password. -/
def setBasic (s : Bytes) : Except CErr (Bytes × Bytes) :=
  match b64decode s with
  | none => .error .value
  | some t => match splitByte 58 t with
    | [u, p] => .ok (u, p)
    | _ => .error .value

/-- `parse_remainder`, grammar.py:914-928 (no word is empty or the byte 0). -/
def remainder (ws : List Word) : Bytes := ws.flatMap fun | .sep b => [b] | .text t => t

/-- `Credentials.from_str`, auth.py:181-202: userid and password. -/
def credsFromStr (s : Bytes) : Except CErr (Bytes × Bytes) := do
  match words true s with
  | none => .error .value
  | some ws =>
    let (scheme, ws) ← val (requireToken ws)
    if lowerBytes scheme = sbasic then setBasic (remainder ws) else .error .notImplemented

/-! ### Challenges -/

/-- A parameter of a challenge: name, value and whether the value must be quoted. -/
abbrev CParam := Bytes × Bytes × Bool

/-- "realm" and "Default". -/
def sRealm : Bytes := [114, 101, 97, 108, 109]
def sDefault : Bytes := [68, 101, 102, 97, 117, 108, 116]

/-- `d[k] = v` for the dictionary `_pdict`. -/
def pSet (d : List (Bytes × Bytes)) (k v : Bytes) : List (Bytes × Bytes) := (k, v) :: d.filter (·.1 ≠ k)

/-- The dictionary of names, auth.py:46-55. -/
def pdict (params : List CParam) : List (Bytes × Bytes) :=
  params.foldl (init := []) fun d p =>
    let d := pSet d p.1 p.2.1
    if (d.lookup (lowerBytes p.1)).isSome then d else pSet d (lowerBytes p.1) p.2.1

/-- `Challenge.__init__`, auth.py:43-58: the parameters.  Names are ASCII. -/
def mkParams (params : List CParam) : List CParam :=
  if ((pdict params).lookup sRealm).isSome then params else params ++ [(sRealm, sDefault, true)]

/-- `__getitem__` with a name, auth.py:107-115; `none`: KeyError.  An empty value counts as found. -/
def getParam (params : List CParam) (name : Bytes) : Option Bytes :=
  match (pdict (mkParams params)).lookup name with
  | some v => some v
  | none => (pdict (mkParams params)).lookup (lowerBytes name)

/-- `b', '.join(params)`. -/
def joinCS : List Bytes → Bytes
  | [] => []
  | [w] => w
  | w :: ws => w ++ 44 :: 32 :: joinCS ws

/-- One parameter, auth.py:91-92. -/
def paramText (p : CParam) : Bytes := p.1 ++ 61 :: quoteString p.2.1 p.2.2

/-- `to_bytes` of a challenge with the scheme "Basic", auth.py:87-96. -/
def challengeToBytes (params : List CParam) : Bytes :=
  if params = [] then sBasic else sBasic ++ 32 :: joinCS (params.map paramText)

/-- What `require_challenge` returns: a `BasicChallenge`, or a `Challenge` made from the parameters alone, whose
`scheme` is the first parameter (auth.py:351: the scheme is not passed). -/
inductive Challenge where
  | basic (params : List CParam)
  | broken (scheme : CParam) (params : List CParam)
  deriving DecidableEq

/-- The loop over parameters of `require_challenge`, auth.py:327-345; every turn takes at least one word. -/
def paramLoop : Nat → List Word → Except CErr (List CParam × List Word)
  | _, [] => .ok ([], [])
  | 0, ws => .ok ([], ws)
  | n + 1, w :: ws =>
    match wpToken (w :: ws) with
    | (none, _) => .error .attribute              -- None.decode
    | (some t, ws1) => do
      let name ← val (ascii t)
      let ws2 ← val (requireSep 61 (parseSp ws1))
      let ws3 := parseSp ws2
      let (v, q, ws4) ← (match wpToken ws3 with
        | (some v, ws4) => Except.ok (v, false, ws4)
        | (none, _) => match wpQuoted ws3 with
          | (some v, ws4) => Except.ok (v, true, ws4)
          | (none, _) => Except.error CErr.value)
      match parseSep 44 (parseSp ws4) with
      | (true, ws5) =>
        let (r, ws6) ← paramLoop n ws5
        return ((name, v, q) :: r, ws6)
      | (false, ws5) => return ([(name, v, q)], ws5)

/-- `require_challenge`, auth.py:323-352. -/
def requireChallenge (ws : List Word) : Except CErr (Challenge × List Word) := do
  let (t, ws1) ← val (requireToken (parseSp ws))
  let scheme ← val (ascii t)
  let ws2 := parseSp ws1
  let (params, ws3) ← paramLoop ws2.length ws2
  if lowerBytes scheme = sbasic then return (.basic (mkParams params), ws3)
  else match params with
    | [] => .error .type                          -- Challenge() lacks an argument
    | p :: r => return (.broken p (mkParams r), ws3)

/-- The loop of `Challenge.list_from_str`, auth.py:77-84. -/
def listLoop : Nat → List Word → Except CErr (List Challenge)
  | 0, _ => .ok []
  | n + 1, ws =>
    match requireChallenge ws with
    | .error .value =>
      match parseSep 44 ws with
      | (true, ws) => listLoop n ws
      | (false, ws) => do val (requireEnd ws); return []
    | .error e => .error e
    | .ok (c, ws) =>
      match parseSep 44 ws with
      | (true, ws) => (listLoop n ws).map (c :: ·)
      | (false, ws) => do val (requireEnd ws); return [c]

/-- `Challenge.list_from_str`, auth.py:73-85. -/
def listFromStr (s : Bytes) : Except CErr (List Challenge) :=
  match words true s with
  | none => .error .value
  | some ws => listLoop (ws.length + 1) ws

/-- `Challenge.from_str`, auth.py:63-71. -/
def fromStr (s : Bytes) : Except CErr Challenge :=
  match words false s with
  | none => .error .value
  | some ws => do
    let (c, ws) ← requireChallenge (parseSp ws)
    val (requireEnd (parseSp ws))
    return c

/-! ### base64: lemmas -/

theorem b64value_char {n : Nat} (h : n < 64) : b64value (b64char n) = some n := by
  have : ∀ k : Fin 64, b64value (b64char k.val) = some k.val := by decide
  exact this ⟨n, h⟩

theorem b64char_ne {n : Nat} (h : n < 64) : b64char n ≠ 61 := by
  have : ∀ k : Fin 64, b64char k.val ≠ 61 := by decide
  exact this ⟨n, h⟩

theorem b64char_tok {n : Nat} (h : n < 64) : TokByte (b64char n) ∨ b64char n = 47 := by
  have : ∀ k : Fin 64, TokByte (b64char k.val) ∨ b64char k.val = 47 := by decide
  exact this ⟨n, h⟩

theorem b64loop_char (pos left pads n : Nat) (h : n < 64) (r : Bytes) : b64loop pos left pads (b64char n :: r) =
    if pos = 0 then b64loop 1 n 0 r
    else if pos = 1 then (b64loop 2 (n % 16) 0 r).map ((left * 4 + n / 16) :: ·)
    else if pos = 2 then (b64loop 3 (n % 4) 0 r).map ((left * 16 + n / 4) :: ·)
    else (b64loop 0 0 0 r).map ((left * 64 + n) :: ·) := by
  rw [b64loop, if_neg (b64char_ne h), b64value_char h]

/-- **C83**: decoding what base64 encoding wrote gives back the bytes. -/
theorem b64_roundtrip : ∀ (s : Bytes), (∀ b ∈ s, b < 256) → b64decode (b64encode s) = some s
  | [], _ => rfl
  | [a], h => by
    have ha := h a (by simp)
    unfold b64decode
    rw [b64encode, b64loop_char _ _ _ _ (by omega), if_pos rfl, b64loop_char _ _ _ _ (by omega), if_neg (by omega), if_pos rfl]
    have : a / 4 * 4 + a % 4 * 16 / 16 = a := by omega
    rw [this]
    rfl
  | [a, b], h => by
    have ha := h a (by simp)
    have hb := h b (by simp)
    unfold b64decode
    rw [b64encode, b64loop_char _ _ _ _ (by omega), if_pos rfl, b64loop_char _ _ _ _ (by omega), if_neg (by omega), if_pos rfl,
      b64loop_char _ _ _ _ (by omega), if_neg (by omega), if_neg (by omega), if_pos rfl]
    have h1 : a / 4 * 4 + (a % 4 * 16 + b / 16) / 16 = a := by omega
    have h2 : (a % 4 * 16 + b / 16) % 16 * 16 + b % 16 * 4 / 4 = b := by omega
    rw [h1, h2]
    rfl
  | a :: b :: c :: r, h => by
    have ha := h a (by simp)
    have hb := h b (by simp)
    have hc := h c (by simp)
    have ih := b64_roundtrip r fun x hx => h x (by simp [hx])
    unfold b64decode at ih ⊢
    rw [b64encode, b64loop_char _ _ _ _ (by omega), if_pos rfl, b64loop_char _ _ _ _ (by omega), if_neg (by omega), if_pos rfl,
      b64loop_char _ _ _ _ (by omega), if_neg (by omega), if_neg (by omega), if_pos rfl,
      b64loop_char _ _ _ _ (by omega), if_neg (by omega), if_neg (by omega), if_neg (by omega), ih]
    have h1 : a / 4 * 4 + (a % 4 * 16 + b / 16) / 16 = a := by omega
    have h2 : (a % 4 * 16 + b / 16) % 16 * 16 + (b % 16 * 4 + c / 64) / 4 = b := by omega
    have h3 : (b % 16 * 4 + c / 64) % 4 * 64 + c % 64 = c := by omega
    rw [h1, h2, h3]
    rfl

theorem b64encode_chars : ∀ (s : Bytes), (∀ b ∈ s, b < 256) → ∀ c ∈ b64encode s, TokByte c ∨ c = 47 ∨ c = 61
  | [], _ => by simp [b64encode]
  | [a], h => by
    have ha := h a (by simp)
    intro c hc
    rw [b64encode] at hc
    simp only [List.mem_cons, List.not_mem_nil, or_false] at hc
    rcases hc with rfl | rfl | rfl | rfl
    · exact (b64char_tok (by omega)).imp id .inl
    · exact (b64char_tok (by omega)).imp id .inl
    · exact .inr (.inr rfl)
    · exact .inr (.inr rfl)
  | [a, b], h => by
    have ha := h a (by simp)
    have hb := h b (by simp)
    intro c hc
    rw [b64encode] at hc
    simp only [List.mem_cons, List.not_mem_nil, or_false] at hc
    rcases hc with rfl | rfl | rfl | rfl
    · exact (b64char_tok (by omega)).imp id .inl
    · exact (b64char_tok (by omega)).imp id .inl
    · exact (b64char_tok (by omega)).imp id .inl
    · exact .inr (.inr rfl)
  | a :: b :: c :: r, h => by
    have ha := h a (by simp)
    have hb := h b (by simp)
    have hc := h c (by simp)
    have ih := b64encode_chars r fun x hx => h x (by simp [hx])
    intro x hx
    rw [b64encode] at hx
    simp only [List.mem_cons] at hx
    rcases hx with rfl | rfl | rfl | rfl | hx
    · exact (b64char_tok (by omega)).imp id .inl
    · exact (b64char_tok (by omega)).imp id .inl
    · exact (b64char_tok (by omega)).imp id .inl
    · exact (b64char_tok (by omega)).imp id .inl
    · exact ih x hx

/-- Text made of token bytes, '/' and '=' is cut into words that make up the text. -/
theorem words_remainder (n : Nat) : ∀ (s : Bytes), s.length ≤ n → (∀ c ∈ s, TokByte c ∨ c = 47 ∨ c = 61) →
    ∃ ws, words true s = some ws ∧ remainder ws = s := by
  induction n with
  | zero =>
    intro s hs _
    have : s = [] := by simpa using hs
    subst this
    exact ⟨[], Http.words_nil _, rfl⟩
  | succ n ih =>
    intro s hs h
    cases s with
    | nil => exact ⟨[], Http.words_nil _, rfl⟩
    | cons c r =>
      have sepcase : ∀ d, d = 47 ∨ d = 61 → ∀ r : Bytes, r.length ≤ n → (∀ c ∈ r, TokByte c ∨ c = 47 ∨ c = 61) →
          ∃ ws, words true (d :: r) = some ws ∧ remainder ws = d :: r := by
        intro d hd r hr h
        obtain ⟨ws, h1, h2⟩ := ih r hr h
        refine ⟨.sep d :: ws, ?_, ?_⟩
        · rw [Http.words_sep true d r (by rcases hd with rfl | rfl <;> decide) (by omega) (by omega) (by omega) (by omega), h1]
          rfl
        · show d :: remainder ws = d :: r
          rw [h2]
      by_cases hc : TokByte c
      · -- the run of token bytes
        have hsplit : ∃ t r', c :: r = t ++ r' ∧ t ≠ [] ∧ (∀ b ∈ t, TokByte b) ∧ TokEnd r' := by
          refine ⟨(c :: r).takeWhile (fun b => decide (TokByte b)), (c :: r).dropWhile (fun b => decide (TokByte b)),
            (List.takeWhile_append_dropWhile).symm, ?_, ?_, ?_⟩
          · rw [List.takeWhile_cons_of_pos (by simpa using hc)]; simp
          · intro b hb; simpa using List.all_eq_true.mp (List.all_takeWhile (p := fun b => decide (TokByte b)) (l := c :: r)) b hb
          · intro b r' hb hh
            have := List.head?_dropWhile_not (fun b => decide (TokByte b)) (c :: r)
            rw [hb] at this
            simp [hh] at this
        obtain ⟨t, r', he, h0, ht, hr'⟩ := hsplit
        rw [he] at hs h ⊢
        have hlen : 0 < t.length := List.length_pos_iff.mpr h0
        obtain ⟨ws, h1, h2⟩ := ih r' (by simp at hs; omega) fun x hx => h x (by simp [hx])
        refine ⟨.text t :: ws, ?_, ?_⟩
        · rw [Http.words_token true t r' h0 ht hr', h1]; rfl
        · show t ++ remainder ws = t ++ r'
          rw [h2]
      · have hd := (h c (by simp)).resolve_left hc
        exact sepcase c hd r (by simpa using hs) fun x hx => h x (by simp [hx])

theorem words_basic (s : Bytes) (h : ∀ c ∈ s, TokByte c ∨ c = 47 ∨ c = 61) (h0 : s ≠ []) :
    ∃ ws, words true (sBasic ++ 32 :: s) = some (.text sBasic :: ws) ∧ remainder ws = s := by
  obtain ⟨ws, h1, h2⟩ := words_remainder s.length s (Nat.le_refl _) h
  refine ⟨ws, ?_, h2⟩
  rw [Http.words_token true sBasic (32 :: s) (by decide) (by decide) (Http.tokEnd_cons (by decide))]
  cases s with
  | nil => exact absurd rfl h0
  | cons c r =>
    rw [Http.words_sp true c r, if_pos rfl, h1]
    · rfl
    · rcases h c (by simp) with hc | rfl | rfl
      · exact Http.tokByte_lws hc
      · rintro (h | h | h) <;> cases h
      · rintro (h | h | h) <;> cases h

theorem credsFromStr_basic (t : Bytes) (h : ∀ b ∈ t, b < 256) (h0 : t ≠ []) :
    credsFromStr (sBasic ++ 32 :: b64encode t) = match splitByte 58 t with
      | [u, p] => .ok (u, p)
      | _ => .error .value := by
  have hne : b64encode t ≠ [] := by
    match t, h0 with
    | [_], _ => simp [b64encode]
    | [_, _], _ => simp [b64encode]
    | _ :: _ :: _ :: _, _ => simp [b64encode]
  obtain ⟨ws, h1, h2⟩ := words_basic _ (b64encode_chars t h) hne
  unfold credsFromStr
  rw [h1]
  show (if lowerBytes sBasic = sbasic then setBasic (remainder ws) else .error .notImplemented) = _
  rw [if_pos (by decide), h2, setBasic, b64_roundtrip t h]

/-! ### C83 -/

/-- **C83**: credentials written in the header are read back, if neither the userid nor the password contains a
colon. -/
theorem C83_credentials_partial (userid password : Bytes) (hu : ∀ b ∈ userid, b < 256 ∧ b ≠ 58)
    (hp : ∀ b ∈ password, b < 256 ∧ b ≠ 58) :
    ∃ s, basicToBytes userid password = .ok s ∧ credsFromStr s = .ok (userid, password) := by
  have hall : ∀ b ∈ userid ++ 58 :: password, b < 256 := by
    intro b hb
    simp only [List.mem_append, List.mem_cons] at hb
    rcases hb with hb | rfl | hb
    · exact (hu b hb).1
    · omega
    · exact (hp b hb).1
  refine ⟨_, by unfold basicToBytes; rw [if_pos (List.all_eq_true.mpr fun b hb => by simpa using hall b hb)], ?_⟩
  rw [credsFromStr_basic _ hall (by simp), Http.splitByte_append 58 userid password (fun h => (hu _ h).2 rfl),
    Http.splitByte_none 58 password (fun h => (hp _ h).2 rfl)]

/-- **C83** fails for passwords that contain a colon, which RFC 2617 allows: the text this library writes is not
read, ValueError. -/
theorem C83_colon_violation (userid password : Bytes) (hu : ∀ b ∈ userid, b < 256)
    (hp : ∀ b ∈ password, b < 256) (hc : 58 ∈ userid ∨ 58 ∈ password) :
    ∃ s, basicToBytes userid password = .ok s ∧ credsFromStr s = .error .value := by
  have hall : ∀ b ∈ userid ++ 58 :: password, b < 256 := by
    intro b hb
    simp only [List.mem_append, List.mem_cons] at hb
    rcases hb with hb | rfl | hb
    · exact hu b hb
    · omega
    · exact hp b hb
  refine ⟨_, by unfold basicToBytes; rw [if_pos (List.all_eq_true.mpr fun b hb => by simpa using hall b hb)], ?_⟩
  rw [credsFromStr_basic _ hall (by simp)]
  have hcount : ∀ s : Bytes, (splitByte 58 s).length = s.count 58 + 1 := by
    intro s
    induction s with
    | nil => rfl
    | cons b s ih =>
      rw [splitByte]
      by_cases hb : b = 58
      · rw [if_pos hb, List.length_cons, ih, hb, List.count_cons_self]
      · rw [if_neg hb, List.count_cons_of_ne hb, ← ih]
        cases hsp : splitByte 58 s with
        | nil => rw [hsp] at ih; cases ih
        | cons w ws => rfl
  have hlen := hcount (userid ++ 58 :: password)
  have h3 : 2 ≤ (userid ++ 58 :: password).count 58 := by
    rw [List.count_append, List.count_cons_self]
    rcases hc with h | h
    · have := List.count_pos_iff.mpr h; omega
    · have := List.count_pos_iff.mpr h; omega
  split
  · rename_i u p he
    rw [he] at hlen
    simp only [List.length_cons, List.length_nil] at hlen
    omega
  · rfl

/-- The hypotheses hold in non-trivial cases. -/
example : ∃ s, basicToBytes [65, 108, 97] [255, 47, 0, 32] = .ok s ∧ credsFromStr s = .ok ([65, 108, 97], [255, 47, 0, 32]) :=
  C83_credentials_partial _ _ (by decide) (by decide)
example : (basicToBytes [65] [98, 58]).toOption = some [66, 97, 115, 105, 99, 32, 81, 84, 112, 105, 79, 103, 61, 61] := by
  decide +kernel

/-! ### C83: challenges -/

theorem lookup_pSet (d : List (Bytes × Bytes)) (k v k' : Bytes) :
    (pSet d k v).lookup k' = if k' = k then some v else d.lookup k' := by
  unfold pSet
  rw [List.lookup_cons]
  by_cases h : k' = k
  · simp [h]
  · rw [if_neg h]
    have : (k' == k) = false := by simpa using h
    rw [this]
    simp only
    induction d with
    | nil => rfl
    | cons e d ih =>
      rw [List.filter_cons]
      by_cases he : e.1 = k
      · rw [if_neg (by simp [he]), ih, List.lookup_cons]
        have : (k' == e.1) = false := by rw [he]; simpa using h
        rw [this]
      · rw [if_pos (by simp [he]), List.lookup_cons, List.lookup_cons, ih]

theorem pdict_append (l : List CParam) (p : CParam) : pdict (l ++ [p]) =
    if ((pSet (pdict l) p.1 p.2.1).lookup (lowerBytes p.1)).isSome then pSet (pdict l) p.1 p.2.1
    else pSet (pSet (pdict l) p.1 p.2.1) (lowerBytes p.1) p.2.1 := by
  unfold pdict
  rw [List.foldl_append]
  rfl

/-- What the dictionary answers after one more parameter. -/
theorem pdict_lookup_append (l : List CParam) (p : CParam) (k : Bytes) : (pdict (l ++ [p])).lookup k =
    if k = p.1 then some p.2.1
    else if k = lowerBytes p.1 ∧ (pdict l).lookup k = none then some p.2.1
    else (pdict l).lookup k := by
  rw [pdict_append]
  by_cases hk : k = p.1
  · rw [if_pos hk]
    split
    · rw [lookup_pSet, if_pos hk]
    · rw [lookup_pSet, lookup_pSet, if_pos hk]
      split <;> rfl
  · rw [if_neg hk]
    split
    · rename_i hs
      rw [lookup_pSet, if_neg hk]
      by_cases hl : k = lowerBytes p.1
      · rw [lookup_pSet, if_neg (by rw [← hl]; exact hk), ← hl] at hs
        rw [if_neg]
        rintro ⟨-, hn⟩
        rw [hn] at hs
        cases hs
      · rw [if_neg (by rintro ⟨h, -⟩; exact hl h)]
    · rename_i hs
      rw [lookup_pSet, lookup_pSet, if_neg hk]
      by_cases hl : k = lowerBytes p.1
      · rw [if_pos hl, if_pos]
        refine ⟨hl, ?_⟩
        rw [lookup_pSet, if_neg (by rw [← hl]; exact hk), ← hl] at hs
        exact Option.not_isSome_iff_eq_none.mp hs
      · rw [if_neg hl, if_neg (by rintro ⟨h, -⟩; exact hl h)]

theorem lowerBytes_idem (s : Bytes) : lowerBytes (lowerBytes s) = lowerBytes s := by
  unfold lowerBytes
  rw [List.map_map]
  apply List.map_congr_left
  intro b _
  simp only [Function.comp, lowerByte]
  split
  · rw [if_neg (by omega)]
  · rfl

theorem pdict_sound (l : List CParam) : ∀ k v, (pdict l).lookup k = some v →
    ∃ p ∈ l, lowerBytes p.1 = lowerBytes k ∧ p.2.1 = v := by
  induction l using List.reverseRecOn with
  | nil => intro k v h; cases h
  | append_singleton l p ih =>
    intro k v h
    rw [pdict_lookup_append] at h
    split at h
    · rename_i hk
      exact ⟨p, by simp, by rw [hk], Option.some.inj h⟩
    · split at h
      · rename_i hk
        exact ⟨p, by simp, by rw [hk.1, lowerBytes_idem], Option.some.inj h⟩
      · obtain ⟨q, hq, h1, h2⟩ := ih k v h
        exact ⟨q, by simp [hq], h1, h2⟩

theorem pdict_complete (l : List CParam) : ∀ p ∈ l, ((pdict l).lookup (lowerBytes p.1)).isSome = true := by
  induction l using List.reverseRecOn with
  | nil => intro p h; cases h
  | append_singleton l q ih =>
    intro p hp
    rw [pdict_lookup_append]
    split
    · rfl
    · split
      · rfl
      · rename_i h1 h2
        rcases List.mem_append.mp hp with hp | hp
        · exact ih p hp
        · rw [List.mem_singleton] at hp
          subst hp
          cases hl : (pdict l).lookup (lowerBytes p.1) with
          | none => exact absurd ⟨rfl, hl⟩ h2
          | some v => rfl

theorem mkParams_realm (l : List CParam) : ((pdict (mkParams l)).lookup sRealm).isSome = true := by
  unfold mkParams
  split
  · assumption
  · rw [pdict_lookup_append, if_pos rfl]; rfl

theorem mkParams_done (l : List CParam) (h : ((pdict l).lookup sRealm).isSome = true) : mkParams l = l := by
  unfold mkParams
  rw [if_pos h]

/-- **C83**: a parameter can be looked up by its name in any case, and what is found is the value of a parameter of
that name; a name no parameter has is not found. -/
theorem C83_lookup (l : List CParam) (name : Bytes) :
    ((∃ p ∈ mkParams l, lowerBytes p.1 = lowerBytes name) ↔ (getParam l name).isSome = true) ∧
    (∀ v, getParam l name = some v → ∃ p ∈ mkParams l, lowerBytes p.1 = lowerBytes name ∧ p.2.1 = v) := by
  have sound : ∀ v, getParam l name = some v → ∃ p ∈ mkParams l, lowerBytes p.1 = lowerBytes name ∧ p.2.1 = v := by
    intro v h
    unfold getParam at h
    split at h
    · rename_i hl
      cases h
      exact pdict_sound _ _ _ hl
    · obtain ⟨p, h1, h2, h3⟩ := pdict_sound _ _ _ h
      exact ⟨p, h1, by rw [h2, lowerBytes_idem], h3⟩
  refine ⟨⟨?_, ?_⟩, sound⟩
  · rintro ⟨p, hp, he⟩
    have := pdict_complete _ p hp
    rw [he] at this
    unfold getParam
    split
    · rfl
    · exact this
  · intro h
    obtain ⟨v, hv⟩ := Option.isSome_iff_exists.mp h
    obtain ⟨p, h1, h2, -⟩ := sound v hv
    exact ⟨p, h1, h2⟩

/-- **C83**: a name written as in the challenge finds the last parameter so written. -/
theorem C83_lookup_exact (a b : List CParam) (name v : Bytes) (q : Bool) (h : ∀ p ∈ b, p.1 ≠ name)
    (hm : mkParams (a ++ (name, v, q) :: b) = a ++ (name, v, q) :: b) :
    getParam (a ++ (name, v, q) :: b) name = some v := by
  have : (pdict (a ++ (name, v, q) :: b)).lookup name = some v := by
    clear hm
    induction b using List.reverseRecOn with
    | nil => rw [pdict_lookup_append, if_pos rfl]
    | append_singleton b p ih =>
      have hp : p.1 ≠ name := h p (by simp)
      have e : a ++ (name, v, q) :: (b ++ [p]) = (a ++ (name, v, q) :: b) ++ [p] := by simp
      rw [e, pdict_lookup_append, if_neg (Ne.symm hp), ih (fun x hx => h x (by simp [hx])), if_neg (by simp)]
  unfold getParam
  rw [hm, this]

/-- **C83**: every challenge has a realm, "Default" if none was given. -/
theorem C83_realm (l : List CParam) : (getParam l sRealm).isSome = true ∧
    ((∀ p ∈ l, lowerBytes p.1 ≠ sRealm) → getParam l sRealm = some sDefault) := by
  have h := mkParams_realm l
  refine ⟨?_, ?_⟩
  · unfold getParam
    split
    · rfl
    · exact h
  · intro hn
    have : (pdict l).lookup sRealm = none := by
      cases hl : (pdict l).lookup sRealm with
      | none => rfl
      | some v =>
        obtain ⟨p, h1, h2, -⟩ := pdict_sound _ _ _ hl
        exact absurd (h2.trans (by decide)) (hn p h1)
    unfold getParam
    have e : mkParams l = l ++ [(sRealm, sDefault, true)] := by unfold mkParams; rw [this]; rfl
    rw [e, pdict_lookup_append, if_pos rfl]

/-- A parameter that can be written: the name is an ASCII token, the value is bytes, and not empty unless quoted. -/
structure GoodParam (p : CParam) : Prop where
  name : p.1 ≠ [] ∧ ∀ b ∈ p.1, TokByte b ∧ b < 128
  bytes : ∀ b ∈ p.2.1, b < 256
  value : p.2.1 ≠ [] ∨ p.2.2 = true

/-- How a parameter is read: values that are not tokens are always quoted. -/
def asRead (p : CParam) : CParam := (p.1, p.2.1, p.2.2 || !decide (∀ b ∈ p.2.1, TokByte b))

theorem words_param (p : CParam) (h : GoodParam p) (rest : Bytes) (hr : TokEnd rest) : ∃ w,
    words true (paramText p ++ rest) = (words true rest).map ([.text p.1, .sep 61, .text w] ++ ·) ∧
    ((w = p.2.1 ∧ w ≠ [] ∧ (∀ b ∈ w, TokByte b) ∧ (asRead p).2.2 = false) ∨
      (w.head? = some 34 ∧ Http.decodeQuotedString w = p.2.1 ∧ (asRead p).2.2 = true)) := by
  have key : ∃ w, words true (quoteString p.2.1 p.2.2 ++ rest) = (words true rest).map (.text w :: ·) ∧
    ((w = p.2.1 ∧ w ≠ [] ∧ (∀ b ∈ w, TokByte b) ∧ (asRead p).2.2 = false) ∨
      (w.head? = some 34 ∧ Http.decodeQuotedString w = p.2.1 ∧ (asRead p).2.2 = true)) := by
    by_cases hq : p.2.2 = true
    · rw [hq]
      obtain ⟨w, h1, h2, h3⟩ := Http.C25_one_word p.2.1 h.bytes true rest
      exact ⟨w, h1, .inr ⟨h2, h3, by simp [asRead, hq]⟩⟩
    · have hq' : p.2.2 = false := by simpa using hq
      have h0 := h.value.resolve_right hq
      rw [hq', Http.quoteString_noforce]
      by_cases ht : ∀ b ∈ p.2.1, TokByte b
      · rw [if_pos ht]
        exact ⟨p.2.1, Http.words_token true p.2.1 rest h0 ht hr, .inl ⟨rfl, h0, ht, by simp [asRead, hq']; exact ht⟩⟩
      · rw [if_neg ht]
        obtain ⟨w, h1, h2, h3⟩ := Http.C25_one_word p.2.1 h.bytes true rest
        refine ⟨w, h1, .inr ⟨h2, h3, ?_⟩⟩
        simp only [asRead, hq', Bool.false_or, Bool.not_eq_true', decide_eq_false_iff_not]
        exact ht
  obtain ⟨w, h1, h2⟩ := key
  refine ⟨w, ?_, h2⟩
  unfold paramText
  rw [List.append_assoc, List.cons_append,
    Http.words_token true p.1 _ h.name.1 (fun b hb => (h.name.2 b hb).1) (Http.tokEnd_cons (by decide)),
    Http.words_sep true 61 _ (by decide) (by decide) (by decide) (by decide) (by decide), h1]
  simp only [Option.map_map]
  rfl

theorem ok_bind {α β : Type} (a : α) (f : α → Except CErr β) : (Except.ok a >>= f) = f a := rfl

theorem val_ok {α : Type} (a : α) : val (.ok a : Except Http.Err α) = .ok a := rfl

/-- One turn of the loop over parameters. -/
theorem paramLoop_turn (n : Nat) (p : CParam) (h : GoodParam p) (w : Bytes)
    (hw : (w = p.2.1 ∧ w ≠ [] ∧ (∀ b ∈ w, TokByte b) ∧ (asRead p).2.2 = false) ∨
      (w.head? = some 34 ∧ Http.decodeQuotedString w = p.2.1 ∧ (asRead p).2.2 = true)) (ws : List Word) :
    paramLoop (n + 1) (.text p.1 :: .sep 61 :: .text w :: ws) =
      match parseSep 44 (parseSp ws) with
      | (true, ws5) => (paramLoop n ws5).map fun r => (asRead p :: r.1, r.2)
      | (false, ws5) => .ok ([asRead p], ws5) := by
  have h1 := (Http.isToken_tok (ws := .sep 61 :: .text w :: ws) h.name.1 (fun b hb => (h.name.2 b hb).1)).2
  have h2 : ascii p.1 = .ok p.1 := Http.ascii_ok fun b hb => (h.name.2 b hb).2
  have h3 : requireSep 61 (parseSp (.sep 61 :: .text w :: ws)) = .ok (.text w :: ws) := by
    rw [Http.parseSp_sep (by decide), Http.requireSep_eq]
  have h4 : (match wpToken (.text w :: ws) with
        | (some v, ws4) => Except.ok (v, false, ws4)
        | (none, _) => match wpQuoted (.text w :: ws) with
          | (some v, ws4) => Except.ok (v, true, ws4)
          | (none, _) => Except.error CErr.value) = Except.ok (p.2.1, (asRead p).2.2, ws) := by
    rcases hw with ⟨e1, e2, e3, e4⟩ | ⟨e1, e2, e3⟩
    · rw [(Http.isToken_tok e2 e3).2, e1, e4]
    · obtain ⟨q1, -, q3⟩ := Http.isQuoted_quoted (ws := ws) e1
      have : wpToken (.text w :: ws) = (none, .text w :: ws) := by
        cases w with
        | nil => rfl
        | cons b w =>
          unfold wpToken
          unfold isToken at q1
          simp only [Bool.not_eq_false'] at q1
          simp [q1]
      rw [this, q3, e2, e3]
  rw [paramLoop, h1]
  dsimp only
  rw [h2, val_ok, ok_bind, h3, val_ok, ok_bind]
  rw [Http.parseSp_text]
  rw [h4, ok_bind]
  dsimp only
  split
  · rename_i ws5 he
    cases paramLoop n ws5 with
    | error e => rfl
    | ok r => rfl
  · rfl

theorem joinCS_cons (p : CParam) (ps : List CParam) : joinCS ((p :: ps).map paramText) =
    paramText p ++ (if ps = [] then [] else 44 :: 32 :: joinCS (ps.map paramText)) := by
  cases ps with
  | nil => simp [joinCS]
  | cons q ps => simp [joinCS]

/-- The words of the parameters, and what the loop makes of them. -/
theorem paramLoop_join (ps : List CParam) : (∀ p ∈ ps, GoodParam p) → ps ≠ [] →
    ∃ ws, words true (joinCS (ps.map paramText)) = some ws ∧ ps.length < ws.length ∧ parseSp ws = ws ∧
      ∀ n, ps.length ≤ n → paramLoop n ws = .ok (ps.map asRead, []) := by
  induction ps with
  | nil => intro _ h; exact absurd rfl h
  | cons p ps ih =>
    intro h _
    rw [joinCS_cons]
    by_cases hps : ps = []
    · subst hps
      obtain ⟨w, h1, h2⟩ := words_param p (h p (by simp)) [] Http.tokEnd_nil
      rw [Http.words_nil] at h1
      refine ⟨_, by rw [if_pos rfl]; exact h1, by simp, rfl, ?_⟩
      intro n hn
      obtain ⟨m, rfl⟩ : ∃ m, n = m + 1 := ⟨n - 1, by simp at hn; omega⟩
      show paramLoop (m + 1) (.text p.1 :: .sep 61 :: .text w :: []) = _
      rw [paramLoop_turn m p (h p (by simp)) w h2 []]
      rfl
    · obtain ⟨ws, i1, i2, i3, i4⟩ := ih (fun q hq => h q (by simp [hq])) hps
      rw [if_neg hps]
      obtain ⟨w, h1, h2⟩ := words_param p (h p (by simp)) (44 :: 32 :: joinCS (ps.map paramText)) (Http.tokEnd_cons (by decide))
      obtain ⟨c, r, hcr, hcl⟩ : ∃ c r, joinCS (ps.map paramText) = c :: r ∧ ¬ Http.LwsStart c := by
        cases ps with
        | nil => exact absurd rfl hps
        | cons q ps =>
          rw [joinCS_cons]
          obtain ⟨hq1, hq2⟩ := (h q (by simp)).name
          unfold paramText
          cases hq : q.1 with
          | nil => exact absurd hq hq1
          | cons c t => exact ⟨c, _, rfl, Http.tokByte_lws (hq2 c (by rw [hq]; simp)).1⟩
      rw [Http.words_sep true 44 _ (by decide) (by decide) (by decide) (by decide) (by decide), hcr,
        Http.words_sp true c r hcl, if_pos rfl, ← hcr, i1] at h1
      refine ⟨_, h1, by simp; omega, rfl, ?_⟩
      intro n hn
      obtain ⟨m, rfl⟩ : ∃ m, n = m + 1 := ⟨n - 1, by simp at hn; omega⟩
      show paramLoop (m + 1) (.text p.1 :: .sep 61 :: .text w :: (.sep 44 :: ws)) = _
      rw [paramLoop_turn m p (h p (by simp)) w h2 (.sep 44 :: ws), Http.parseSp_sep (by decide)]
      have : parseSep 44 (.sep 44 :: ws) = (true, ws) := by simp [parseSep]
      rw [this]
      dsimp only
      rw [i4 m (by simp at hn; omega)]
      rfl

theorem pdict_asRead (l : List CParam) : pdict (l.map asRead) = pdict l := by
  induction l using List.reverseRecOn with
  | nil => rfl
  | append_singleton l p ih =>
    rw [List.map_append, List.map_singleton, pdict_append, pdict_append, ih]
    rfl

/-- **C83**: a Basic challenge written in a header is read back: one challenge, with the same names and values in
the same order (values that are not tokens are marked as quoted).  The parameters `l` are those given to the
constructor.  Partial: see the violations for lists of challenges, other schemes and `from_str`. -/
theorem C83_challenge_partial (l : List CParam) (h : ∀ p ∈ l, GoodParam p) :
    listFromStr (challengeToBytes (mkParams l)) = .ok [.basic ((mkParams l).map asRead)] := by
  have hg : ∀ p ∈ mkParams l, GoodParam p := by
    unfold mkParams
    split
    · exact h
    · intro p hp
      rcases List.mem_append.mp hp with hp | hp
      · exact h p hp
      · rw [List.mem_singleton] at hp
        subst hp
        exact ⟨by decide, by decide, by decide⟩
  have hne : mkParams l ≠ [] := by
    intro he
    have := mkParams_realm l
    rw [he] at this
    cases this
  obtain ⟨ws, w1, w2, w3, w4⟩ := paramLoop_join (mkParams l) hg hne
  obtain ⟨c, r, hcr, hcl⟩ : ∃ c r, joinCS ((mkParams l).map paramText) = c :: r ∧ ¬ Http.LwsStart c := by
    cases hm : mkParams l with
    | nil => exact absurd hm hne
    | cons q ps =>
      rw [joinCS_cons]
      obtain ⟨hq1, hq2⟩ := (hg q (by rw [hm]; simp)).name
      unfold paramText
      cases hq : q.1 with
      | nil => exact absurd hq hq1
      | cons c t => exact ⟨c, _, rfl, Http.tokByte_lws (hq2 c (by rw [hq]; simp)).1⟩
  have hw : words true (challengeToBytes (mkParams l)) = some (.text sBasic :: ws) := by
    unfold challengeToBytes
    rw [if_neg hne, Http.words_token true sBasic _ (by decide) (by decide) (Http.tokEnd_cons (by decide)), hcr,
      Http.words_sp true c r hcl, if_pos rfl, ← hcr, w1]
    rfl
  have hc : requireChallenge (.text sBasic :: ws) = .ok (.basic ((mkParams l).map asRead), []) := by
    unfold requireChallenge
    rw [Http.parseSp_text, Http.requireToken_tok (by decide) (by decide), val_ok, ok_bind]
    dsimp only
    have : ascii sBasic = .ok sBasic := by decide
    rw [this, val_ok, ok_bind, w3, w4 ws.length (by omega), ok_bind]
    dsimp only
    rw [if_pos (by decide), mkParams_done]
    · rfl
    · rw [pdict_asRead]; exact mkParams_realm l
  unfold listFromStr
  rw [hw]
  dsimp only
  rw [listLoop, hc]
  rfl

/-! ### C83: at most one challenge -/

theorem parseSep_false {c : Nat} {ws ws' : List Word} (h : parseSep c ws = (false, ws')) : parseSep c ws' = (false, ws') := by
  have : ws' = ws := by
    unfold parseSep at h
    split at h
    · split at h
      · cases h
      · cases h; rfl
    · cases h; rfl
  rw [this]
  rw [this] at h
  exact h

theorem paramLoop_end (n : Nat) : ∀ (ws : List Word) (r : List CParam) (ws' : List Word), ws.length ≤ n →
    paramLoop n ws = .ok (r, ws') → (parseSep 44 ws').1 = false := by
  induction n with
  | zero =>
    intro ws r ws' hl h
    have : ws = [] := by simpa using hl
    subst this
    cases h
    rfl
  | succ n ih =>
    intro ws r ws' hl h
    cases ws with
    | nil => cases h; rfl
    | cons w ws =>
      rw [paramLoop] at h
      split at h
      · cases h
      · rename_i t ws1 ht
        have l1 := Http.wpToken_length (w :: ws)
        rw [ht] at l1
        cases hn : val (ascii t) with
        | error e => rw [hn] at h; cases h
        | ok name =>
          rw [hn, ok_bind] at h
          cases hs : requireSep 61 (parseSp ws1) with
          | error e => rw [hs] at h; cases h
          | ok ws2 =>
            have l2 := Http.requireSep_length hs
            have l2' := Http.parseSp_length ws1
            rw [hs, val_ok, ok_bind] at h
            dsimp only at h
            have l3 := Http.parseSp_length ws2
            have l4 := Http.wpToken_length (parseSp ws2)
            have l5 := Http.wpQuoted_length (parseSp ws2)
            have fin : ∀ (v : Bytes) (q : Bool) (ws4 : List Word), ws4.length ≤ (parseSp ws2).length →
                (match parseSep 44 (parseSp ws4) with
                  | (true, ws5) => do
                    let (r, ws6) ← paramLoop n ws5
                    return ((name, v, q) :: r, ws6)
                  | (false, ws5) => (return ([(name, v, q)], ws5) : Except CErr (List CParam × List Word))) = .ok (r, ws') →
                (parseSep 44 ws').1 = false := by
              intro v q ws4 l6 hh
              have l7 := Http.parseSp_length ws4
              have l8 := Http.parseSep_length 44 (parseSp ws4)
              cases hp : parseSep 44 (parseSp ws4) with
              | mk b ws5 =>
                rw [hp] at hh l8
                cases b with
                | true =>
                  dsimp only at hh l8
                  cases hq : paramLoop n ws5 with
                  | error e => rw [hq] at hh; cases hh
                  | ok x =>
                    rw [hq, ok_bind] at hh
                    cases hh
                    refine ih ws5 x.1 x.2 ?_ hq
                    simp only [List.length_cons] at l1 hl
                    omega
                | false =>
                  dsimp only at hh
                  cases hh
                  rw [parseSep_false hp]
            split at h
            · rename_i v ws4 hv
              rw [hv] at l4
              exact fin _ _ _ l4 h
            · split at h
              · rename_i v ws4 hv
                rw [hv] at l5
                exact fin _ _ _ l5 h
              · cases h

theorem requireChallenge_end {ws ws' : List Word} {c : Challenge} (h : requireChallenge ws = .ok (c, ws')) :
    (parseSep 44 ws').1 = false := by
  unfold requireChallenge at h
  cases ht : val (requireToken (parseSp ws)) with
  | error e => rw [ht] at h; cases h
  | ok t =>
    rw [ht, ok_bind] at h
    dsimp only at h
    cases ha : val (ascii t.1) with
    | error e => rw [ha] at h; cases h
    | ok scheme =>
      rw [ha, ok_bind] at h
      cases hp : paramLoop (parseSp t.2).length (parseSp t.2) with
      | error e => rw [hp] at h; cases h
      | ok x =>
        rw [hp, ok_bind] at h
        have := paramLoop_end _ _ x.1 x.2 (Nat.le_refl _) hp
        split at h
        · cases h; exact this
        · split at h
          · cases h
          · cases h; exact this

theorem listLoop_one (n : Nat) : ∀ (ws : List Word) (cs : List Challenge), listLoop n ws = .ok cs → cs.length ≤ 1 := by
  induction n with
  | zero => intro ws cs h; cases h; simp
  | succ n ih =>
    intro ws cs h
    rw [listLoop] at h
    split at h
    · split at h
      · exact ih _ _ h
      · rename_i ws' _
        cases hr : val (requireEnd ws') with
        | error e => rw [hr] at h; cases h
        | ok u => rw [hr] at h; cases h; simp
    · cases h
    · rename_i c ws' hc
      have := requireChallenge_end hc
      split at h
      · rename_i he
        rw [he] at this
        cases this
      · rename_i ws'' _
        cases hr : val (requireEnd ws'') with
        | error e => rw [hr] at h; cases h
        | ok u => rw [hr] at h; cases h; simp

/-- **C83** (a limit): no header, whatever it says, is read as more than one challenge. -/
theorem C83_one_challenge (s : Bytes) (cs : List Challenge) (h : listFromStr s = .ok cs) : cs.length ≤ 1 := by
  unfold listFromStr at h
  split at h
  · cases h
  · exact listLoop_one _ _ _ h

/-! ### C83: violations -/

/-- **C83** fails for lists: the header this library writes for two challenges is not read. -/
theorem C83_list_violation :
    listFromStr (challengeToBytes [(sRealm, [97], true)] ++ [44, 32] ++ challengeToBytes [(sRealm, [98], true)]) =
      .error .value := by decide +kernel

/-- **C83** fails for schemes other than Basic: 'Digest realm="a"' gives an object whose scheme is its first
parameter, and 'Negotiate' raises TypeError. -/
theorem C83_scheme_violation :
    listFromStr ([68, 105, 103, 101, 115, 116, 32] ++ sRealm ++ [61, 34, 97, 34]) =
      .ok [.broken (sRealm, [97], true) [(sRealm, sDefault, true)]] ∧
    listFromStr [78, 101, 103, 111, 116, 105, 97, 116, 101] = .error .type := by decide +kernel

/-- **C83** fails for `from_str`: it cannot read a challenge with two parameters, AttributeError. -/
theorem C83_from_str_violation :
    fromStr (challengeToBytes [(sRealm, [97], true)]) = .ok (.basic [(sRealm, [97], true)]) ∧
    fromStr (challengeToBytes [(sRealm, [97], true), ([120], [98], false)]) = .error .attribute := by decide +kernel

/-- The hypotheses of `C83_challenge_partial` hold in a non-trivial case. -/
example : GoodParam ([88], [34, 92, 0, 255], false) ∧ asRead ([88], [34, 92, 0, 255], false) = ([88], [34, 92, 0, 255], true) ∧
    mkParams [([88], [34, 92, 0, 255], false)] = [([88], [34, 92, 0, 255], false), (sRealm, sDefault, true)] :=
  ⟨⟨by decide, by decide, by decide⟩, by decide, by decide⟩

end Verif.Auth

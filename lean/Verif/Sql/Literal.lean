import Verif.OData.LitProps
/-!
# C103: SQL literals, quoted names and parameters (pyslet/odata2/sqlds.py:90-216, 4282-4332, 4961-4967, 5222-5255)
-/
namespace Verif.Sql
open Verif.OData Verif.Text

/-! ### Model -/

/-- The values that can be the default of a column: NULL, binary, boolean, the integer types, guid (16 bytes) and
string.  `stamp` is a DateTime or DateTimeOffset given by its ISO text, `time` a Time with a whole number of seconds
and its ISO text.  Decimal, Single and Double values are not modelled. -/
inductive DefVal
  | null
  | bin (b : List Nat)
  | bool (b : Bool)
  | int (n : Int)
  | stamp (iso : Str)
  | time (seconds : Nat) (iso : Str)
  | guid (b : List Nat)
  | str (s : Str)
  deriving DecidableEq, Repr

/-- `binascii.hexlify` of a byte. -/
def hexlify2 (b : Nat) : Str := [hexLow (b / 16), hexLow (b % 16)]

/-- `SQLEntityContainer.prepare_sql_literal`, sqlds.py:5222-5255; `str(value)` of a BinaryValue is csdl.py:1120-1131. -/
def sqlLiteral : DefVal → Str
  | .null => chars "NULL"
  | .bin b => chars "X'" ++ b.flatMap hex2 ++ chars "'"
  | .bool b => if b then chars "TRUE" else chars "FALSE"
  | .int n => intStr n
  | .stamp t => chars "'" ++ t ++ chars "'"
  | .time _ t => chars "'" ++ t ++ chars "'"
  | .guid b => chars "X'" ++ b.flatMap hexlify2 ++ chars "'"
  | .str s => chars "'" ++ quoteText s ++ chars "'"

/-- `SQLiteEntityContainer.prepare_sql_literal`, sqlds.py:5536-5548 (`get_total_seconds` of a whole number of
seconds). -/
def sqliteLiteral : DefVal → Str
  | .null => chars "NULL"
  | .bool b => if b then chars "1" else chars "0"
  | .time n _ => intStr n
  | v => sqlLiteral v

/-- `quote_identifier`, sqlds.py:4961-4967. -/
def quoteIdent (name : Str) : Str := 34 :: name.filter (· ≠ 34) ++ [34]

/-- `sep.join(parts)`. -/
def joinWith (sep : Str) : List Str → Str
  | [] => []
  | [a] => a
  | a :: b :: r => a ++ sep ++ joinWith sep (b :: r)

/-- `mangle_name`, sqlds.py:4282-4332 (`joiner` is `field_name_joiner`, by default "_"). -/
def mangle (joiner : Str) (path : List Str) : Str :=
  quoteIdent (joinWith joiner (if path.length > 1 then path.drop 1 else path))

/-- The kinds of parameters whose queries are formatted with `%`, sqlds.py:151-166 and 200-216. -/
inductive ParamStyle
  | format
  | pyformat
  deriving DecidableEq, Repr

/-- `escape_literal`, sqlds.py:163-166 and 213-216: `literal.replace("%", "%%")`. -/
def escapeLit (s : Str) : Str := s.flatMap fun c => if c = 37 then [37, 37] else [c]

/-- The name of the parameter that `add_param` adds to `n` others, sqlds.py:209. -/
def paramName (n : Nat) : Str := chars "p" ++ decStr n

/-- What `add_param` returns when there are `n` parameters, sqlds.py:158-160 and 208-211. -/
def placeholder : ParamStyle → Nat → Str
  | .format, _ => chars "%s"
  | .pyformat, n => chars "%(" ++ paramName n ++ chars ")s"

/-- A part of a query: text written into it, or a value passed as a parameter. -/
inductive Piece (V : Type)
  | text (s : Str)
  | param (v : V)

/-- The query and the parameters made of the parts from left to right: `escape_literal` for text
(sqlds.py:1530-1532), `add_param` for values (1533-1536).  A dictionary of parameters is a list of pairs in the order
in which they were added; with `format` the names are ignored. -/
def build {V : Type} (st : ParamStyle) : List (Piece V) → Nat → Str × List (Str × V)
  | [], _ => ([], [])
  | .text s :: r, n => let q := build st r n; (escapeLit s ++ q.1, q.2)
  | .param v :: r, n => let q := build st r (n + 1); (placeholder st n ++ q.1, (paramName n, v) :: q.2)

/-! ### Specification -/

/-- The value of an SQL literal. -/
inductive SqlConst
  | null
  | bool (b : Bool)
  | int (n : Int)
  | text (s : Str)
  | blob (b : List Nat)
  deriving DecidableEq, Repr

/-- The rest of a character string literal of SQL after its opening quote: two quotes stand for one, a single quote
ends it. -/
def readText : Str → Option (Str × Str)
  | [] => none
  | [c] => if c = 39 then some ([], []) else none
  | c :: d :: r =>
    if c = 39 then
      if d = 39 then (readText r).map fun p => (39 :: p.1, p.2) else some ([], d :: r)
    else (readText (d :: r)).map fun p => (c :: p.1, p.2)

/-- The rest of a binary literal after `X'`. -/
def readBlob (s : Str) : Option (List Nat × Str) :=
  let h := s.takeWhile Uri.isHex
  match s.dropWhile Uri.isHex with
  | 39 :: r => if h.length % 2 = 0 then some (hexBytes h, r) else none
  | _ => none

/-- A character of a keyword. -/
def isWord (c : Nat) : Bool := (65 ≤ c && c ≤ 90) || (97 ≤ c && c ≤ 122) || isDigit c || c == 95

/-- The value of a keyword. -/
def keyword (w : Str) : Option SqlConst :=
  if w = chars "NULL" then some .null
  else if w = chars "TRUE" then some (.bool true)
  else if w = chars "FALSE" then some (.bool false)
  else none

/-- A literal at the start of a text: its value, and the text after it. -/
def readLit (s : Str) : Option (SqlConst × Str) :=
  match s with
  | [] => none
  | c :: r =>
    if c = 39 then (readText r).map fun p => (.text p.1, p.2)
    else if c = 45 then
      if (r.takeWhile isDigit).isEmpty then none
      else some (.int (-(decVal (r.takeWhile isDigit) : Int)), r.dropWhile isDigit)
    else if isDigit c then some (.int (decVal (s.takeWhile isDigit)), s.dropWhile isDigit)
    else if c = 88 ∧ r.head? = some 39 then (readBlob (r.drop 1)).map fun p => (.blob p.1, p.2)
    else (keyword (s.takeWhile isWord)).map fun v => (v, s.dropWhile isWord)

/-- What can follow the default value of a column in CREATE TABLE: nothing, a space, a comma or a bracket. -/
def LitEnd (r : Str) : Prop := r = [] ∨ ∃ c t, r = c :: t ∧ (c = 32 ∨ c = 44 ∨ c = 41)

/-- The value a database reads for a default. -/
def meaning : DefVal → SqlConst
  | .null => .null
  | .bin b => .blob b
  | .bool b => .bool b
  | .int n => .int n
  | .stamp t => .text t
  | .time _ t => .text t
  | .guid b => .blob b
  | .str s => .text s

/-- The value SQLite reads: it has no booleans, and times are numbers of seconds. -/
def meaningLite : DefVal → SqlConst
  | .bool b => .int (if b then 1 else 0)
  | .time n _ => .int n
  | v => meaning v

/-- Bytes are less than 256 and the text of a date holds no quote. -/
def DefVal.Ok : DefVal → Prop
  | .bin b => ∀ x ∈ b, x < 256
  | .guid b => ∀ x ∈ b, x < 256
  | .stamp t => 39 ∉ t
  | .time _ t => 39 ∉ t
  | _ => True

/-- A delimited identifier of SQL after its opening quote. -/
def readIdent : Str → Option (Str × Str)
  | [] => none
  | [c] => if c = 34 then some ([], []) else none
  | c :: d :: r =>
    if c = 34 then
      if d = 34 then (readIdent r).map fun p => (34 :: p.1, p.2) else some ([], d :: r)
    else (readIdent (d :: r)).map fun p => (c :: p.1, p.2)

/-- A part of the text after formatting. -/
inductive Out (V : Type)
  | char (c : Nat)
  | value (v : V)
  deriving DecidableEq, Repr

/-- Python's `query % tuple(params)` restricted to `%%` and `%s`: every parameter is used. -/
def fmtTuple {V : Type} : Str → List (Str × V) → Option (List (Out V))
  | [], ps => if ps.isEmpty then some [] else none
  | [c], ps => if c = 37 then none else if ps.isEmpty then some [.char c] else none
  | c :: d :: r, ps =>
    if c = 37 then
      if d = 37 then (fmtTuple r ps).map (.char 37 :: ·)
      else if d = 115 then
        match ps with
        | [] => none
        | p :: ps => (fmtTuple r ps).map (.value p.2 :: ·)
      else none
    else (fmtTuple (d :: r) ps).map (.char c :: ·)

/-- The value of a key. -/
def lookupName {V : Type} (k : Str) : List (Str × V) → Option V
  | [] => none
  | p :: r => if p.1 = k then some p.2 else lookupName k r

/-- Python's `query % params` for a dictionary, restricted to `%%` and `%(name)s`. -/
def fmtDict {V : Type} (d : List (Str × V)) : Nat → Str → Option (List (Out V))
  | _, [] => some []
  | 0, _ :: _ => none
  | n + 1, c :: r =>
    if c = 37 then
      match r with
      | [] => none
      | e :: r =>
        if e = 37 then (fmtDict d n r).map (.char 37 :: ·)
        else if e = 40 then
          match r.dropWhile (· ≠ 41) with
          | _ :: f :: q =>
            if f = 115 then (lookupName (r.takeWhile (· ≠ 41)) d).bind fun v => (fmtDict d n q).map (.value v :: ·)
            else none
          | _ => none
        else none
    else (fmtDict d n r).map (.char c :: ·)

/-- The text meant: the characters of the texts and the values in their places. -/
def wanted {V : Type} : List (Piece V) → List (Out V)
  | [] => []
  | .text s :: r => s.map .char ++ wanted r
  | .param v :: r => .value v :: wanted r

/-! ### Literals -/

theorem readText_other {c : Nat} (hc : c ≠ 39) {r : Str} (hr : r ≠ []) :
    readText (c :: r) = (readText r).map fun p => (c :: p.1, p.2) := by
  cases r with
  | nil => exact absurd rfl hr
  | cons d r => rw [readText, if_neg hc]

theorem readText_plain (t : Str) (ht : 39 ∉ t) (r : Str) (hr : r.head? ≠ some 39) :
    readText (t ++ 39 :: r) = some (t, r) := by
  induction t with
  | nil =>
    cases r with
    | nil => rfl
    | cons c r =>
      have : c ≠ 39 := by intro h; exact hr (by simp [h])
      show readText (39 :: c :: r) = _
      rw [readText, if_pos rfl, if_neg this]
  | cons c t ih =>
    have hc : c ≠ 39 := by intro h; exact ht (by simp [h])
    have := ih (by intro h; exact ht (List.mem_cons_of_mem _ h))
    rw [List.cons_append, readText_other hc (by simp), this]; rfl

theorem readText_quote (s : Str) (r : Str) (hr : r.head? ≠ some 39) :
    readText (quoteText s ++ 39 :: r) = some (s, r) := by
  induction s with
  | nil => exact readText_plain [] (by simp) r hr
  | cons c s ih =>
    by_cases hc : c = 39
    · subst hc
      show readText (39 :: 39 :: (quoteText s ++ 39 :: r)) = _
      rw [readText, if_pos rfl, if_pos rfl, ih]; rfl
    · have e : quoteText (c :: s) = c :: quoteText s := by simp [quoteText, hc]
      rw [e, List.cons_append, readText_other hc (by simp), ih]; rfl

theorem hexlify_isHex (b : List Nat) (h : ∀ x ∈ b, x < 256) : ∀ c ∈ b.flatMap hexlify2, Uri.isHex c = true := by
  intro c hc
  rw [List.mem_flatMap] at hc
  obtain ⟨x, hx, hc⟩ := hc
  have := h x hx
  simp only [hexlify2, List.mem_cons, List.not_mem_nil, or_false] at hc
  rcases hc with rfl | rfl
  · exact isHex_hexLow (by omega)
  · exact isHex_hexLow (by omega)

theorem hexlify_length (b : List Nat) : (b.flatMap hexlify2).length = 2 * b.length := by
  induction b with
  | nil => rfl
  | cons x b ih => simp [hexlify2, List.flatMap_cons] at *; omega

theorem hexBytes_hexlify (b : List Nat) (h : ∀ x ∈ b, x < 256) : hexBytes (b.flatMap hexlify2) = b := by
  induction b with
  | nil => rfl
  | cons x b ih =>
    have hx := h x (List.mem_cons_self ..)
    show hexBytes (hexLow (x / 16) :: hexLow (x % 16) :: b.flatMap hexlify2) = _
    rw [hexBytes, ih (fun y hy => h y (List.mem_cons_of_mem _ hy)), hexVal_hexLow (by omega), hexVal_hexLow (by omega)]
    congr 1; omega

theorem readBlob_hex (h : Str) (hh : ∀ c ∈ h, Uri.isHex c = true) (he : h.length % 2 = 0) (r : Str) :
    readBlob (h ++ 39 :: r) = some (hexBytes h, r) := by
  have key := takeWhile_stop (r := 39 :: r) hh (fun c hc => by cases hc; rfl)
  unfold readBlob
  rw [key.1, key.2]
  simp only [he, if_true]

theorem litEnd_head {r : Str} (h : LitEnd r) : r.head? ≠ some 39 := by
  rcases h with rfl | ⟨c, t, rfl, h⟩
  · simp
  · intro e; simp at e; omega

theorem litEnd_digit {r : Str} (h : LitEnd r) : ∀ c, r.head? = some c → isDigit c = false := by
  rcases h with rfl | ⟨c, t, rfl, h⟩
  · simp
  · intro d hd; simp at hd; subst hd; rcases h with rfl | rfl | rfl <;> rfl

theorem litEnd_word {r : Str} (h : LitEnd r) : ∀ c, r.head? = some c → isWord c = false := by
  rcases h with rfl | ⟨c, t, rfl, h⟩
  · simp
  · intro d hd; simp at hd; subst hd; rcases h with rfl | rfl | rfl <;> rfl

theorem readLit_word (w : Str) (v : SqlConst) (r : Str) (hr : LitEnd r)
    (hw : (w = chars "NULL" ∧ v = .null) ∨ (w = chars "TRUE" ∧ v = .bool true) ∨ (w = chars "FALSE" ∧ v = .bool false)) :
    readLit (w ++ r) = some (v, r) := by
  have hwd : ∀ c ∈ w, isWord c = true := by
    rcases hw with ⟨rfl, -⟩ | ⟨rfl, -⟩ | ⟨rfl, -⟩ <;> decide
  have key := takeWhile_stop (r := r) hwd (litEnd_word hr)
  rcases hw with ⟨rfl, rfl⟩ | ⟨rfl, rfl⟩ | ⟨rfl, rfl⟩
  · have e : readLit (78 :: ([85, 76, 76] ++ r)) = (keyword ((78 :: ([85, 76, 76] ++ r)).takeWhile isWord)).map
        fun v => (v, (78 :: ([85, 76, 76] ++ r)).dropWhile isWord) := by
      unfold readLit
      dsimp only
      rw [if_neg (by decide), if_neg (by decide), if_neg (by decide), if_neg (by intro h; exact absurd h.1 (by decide))]
    refine e.trans ?_
    have k1 : List.takeWhile isWord (78 :: ([85, 76, 76] ++ r)) = 78 :: [85, 76, 76] := key.1
    have k2 : List.dropWhile isWord (78 :: ([85, 76, 76] ++ r)) = r := key.2
    rw [k1, k2]; rfl
  · have e : readLit (84 :: ([82, 85, 69] ++ r)) = (keyword ((84 :: ([82, 85, 69] ++ r)).takeWhile isWord)).map
        fun v => (v, (84 :: ([82, 85, 69] ++ r)).dropWhile isWord) := by
      unfold readLit
      dsimp only
      rw [if_neg (by decide), if_neg (by decide), if_neg (by decide), if_neg (by intro h; exact absurd h.1 (by decide))]
    refine e.trans ?_
    have k1 : List.takeWhile isWord (84 :: ([82, 85, 69] ++ r)) = 84 :: [82, 85, 69] := key.1
    have k2 : List.dropWhile isWord (84 :: ([82, 85, 69] ++ r)) = r := key.2
    rw [k1, k2]; rfl
  · have e : readLit (70 :: ([65, 76, 83, 69] ++ r)) = (keyword ((70 :: ([65, 76, 83, 69] ++ r)).takeWhile isWord)).map
        fun v => (v, (70 :: ([65, 76, 83, 69] ++ r)).dropWhile isWord) := by
      unfold readLit
      dsimp only
      rw [if_neg (by decide), if_neg (by decide), if_neg (by decide), if_neg (by intro h; exact absurd h.1 (by decide))]
    refine e.trans ?_
    have k1 : List.takeWhile isWord (70 :: ([65, 76, 83, 69] ++ r)) = 70 :: [65, 76, 83, 69] := key.1
    have k2 : List.dropWhile isWord (70 :: ([65, 76, 83, 69] ++ r)) = r := key.2
    rw [k1, k2]; rfl

theorem readLit_nat (n : Nat) (r : Str) (hr : LitEnd r) : readLit (decStr n ++ r) = some (.int n, r) := by
  have hd : ∀ c ∈ decStr n, isDigit c = true := decStr_isDigit n
  have key := takeWhile_stop (r := r) hd (litEnd_digit hr)
  cases e : decStr n with
  | nil => exact absurd e (decStr_ne_nil n)
  | cons c t =>
    have hc : isDigit c = true := hd c (by rw [e]; exact List.mem_cons_self ..)
    rw [e] at key
    rw [List.cons_append] at key ⊢
    unfold readLit
    dsimp only
    rw [if_neg (by intro h; rw [h] at hc; exact absurd hc (by decide)),
      if_neg (by intro h; rw [h] at hc; exact absurd hc (by decide)), if_pos hc, key.1, key.2, ← e, decVal_decStr]

theorem readLit_int (n : Int) (r : Str) (hr : LitEnd r) : readLit (intStr n ++ r) = some (.int n, r) := by
  unfold intStr
  split
  · rename_i hn
    have hd : ∀ c ∈ decStr n.natAbs, isDigit c = true := decStr_isDigit _
    have key := takeWhile_stop (r := r) hd (litEnd_digit hr)
    rw [List.cons_append]
    unfold readLit
    dsimp only
    rw [if_neg (by decide), if_pos rfl, key.1, key.2, decVal_decStr, if_neg]
    · congr 3; omega
    · cases e : decStr n.natAbs with
      | nil => exact absurd e (decStr_ne_nil _)
      | cons => simp
  · rename_i hn
    rw [readLit_nat _ _ hr]
    congr 3; omega

theorem readLit_text (t s r : Str) (h : readText t = some (s, r)) : readLit (39 :: t) = some (.text s, r) := by
  unfold readLit
  dsimp only
  rw [if_pos rfl, h]; rfl

theorem readLit_blob (t : Str) (b : List Nat) (r : Str) (h : readBlob t = some (b, r)) :
    readLit (88 :: 39 :: t) = some (.blob b, r) := by
  unfold readLit
  dsimp only
  rw [if_neg (by decide), if_neg (by decide), if_neg (by decide), if_pos (by exact ⟨rfl, rfl⟩)]
  show Option.map _ (readBlob t) = _
  rw [h]; rfl

/-- A database reads the default of a column back exactly, whatever its characters: the literal neither loses a
character nor ends early. -/
theorem C103_literal (v : DefVal) (hv : v.Ok) (r : Str) (hr : LitEnd r) :
    readLit (sqlLiteral v ++ r) = some (meaning v, r) := by
  have hq := litEnd_head hr
  cases v with
  | null => exact readLit_word _ _ _ hr (Or.inl ⟨rfl, rfl⟩)
  | bin b =>
    have := readBlob_hex (b.flatMap hex2) (hex2_isHex b hv) (by rw [hex2_length]; omega) r
    rw [hexBytes_hex2 b hv] at this
    show readLit (88 :: 39 :: (b.flatMap hex2 ++ [39]) ++ r) = _
    simp only [List.cons_append, List.append_assoc, List.nil_append]
    exact readLit_blob _ _ _ this
  | guid b =>
    have := readBlob_hex (b.flatMap hexlify2) (hexlify_isHex b hv) (by rw [hexlify_length]; omega) r
    rw [hexBytes_hexlify b hv] at this
    show readLit (88 :: 39 :: (b.flatMap hexlify2 ++ [39]) ++ r) = _
    simp only [List.cons_append, List.append_assoc, List.nil_append]
    exact readLit_blob _ _ _ this
  | bool b =>
    cases b
    · exact readLit_word _ _ _ hr (Or.inr (Or.inr ⟨rfl, rfl⟩))
    · exact readLit_word _ _ _ hr (Or.inr (Or.inl ⟨rfl, rfl⟩))
  | int n => exact readLit_int n r hr
  | stamp t =>
    show readLit (39 :: (t ++ [39]) ++ r) = _
    simp only [List.cons_append, List.append_assoc, List.nil_append]
    exact readLit_text _ _ _ (readText_plain t hv r hq)
  | time n t =>
    show readLit (39 :: (t ++ [39]) ++ r) = _
    simp only [List.cons_append, List.append_assoc, List.nil_append]
    exact readLit_text _ _ _ (readText_plain t hv r hq)
  | str s =>
    show readLit (39 :: (quoteText s ++ [39]) ++ r) = _
    simp only [List.cons_append, List.append_assoc, List.nil_append]
    exact readLit_text _ _ _ (readText_quote s r hq)

theorem C103_literal_sqlite (v : DefVal) (hv : v.Ok) (r : Str) (hr : LitEnd r) :
    readLit (sqliteLiteral v ++ r) = some (meaningLite v, r) := by
  cases v with
  | bool b =>
    cases b
    · have := readLit_int 0 r hr
      rw [show intStr 0 = chars "0" from by decide +kernel] at this
      exact this
    · have := readLit_int 1 r hr
      rw [show intStr 1 = chars "1" from by decide +kernel] at this
      exact this
  | time n t => exact readLit_int n r hr
  | null => exact C103_literal .null hv r hr
  | bin b => exact C103_literal (.bin b) hv r hr
  | guid b => exact C103_literal (.guid b) hv r hr
  | int n => exact C103_literal (.int n) hv r hr
  | stamp t => exact C103_literal (.stamp t) hv r hr
  | str s => exact C103_literal (.str s) hv r hr

example : (DefVal.str (chars "x'); DROP TABLE t; --")).Ok ∧ LitEnd (chars ", b INTEGER)") ∧
    sqlLiteral (.str (chars "x'); --")) = chars "'x''); --'" := by
  refine ⟨trivial, Or.inr ⟨44, chars " b INTEGER)", rfl, by simp⟩, by decide +kernel⟩

/-! ### Names -/

theorem readIdent_other {c : Nat} (hc : c ≠ 34) {r : Str} (hr : r ≠ []) :
    readIdent (c :: r) = (readIdent r).map fun p => (c :: p.1, p.2) := by
  cases r with
  | nil => exact absurd rfl hr
  | cons d r => rw [readIdent, if_neg hc]

theorem readIdent_plain (t : Str) (ht : 34 ∉ t) (r : Str) (hr : r.head? ≠ some 34) :
    readIdent (t ++ 34 :: r) = some (t, r) := by
  induction t with
  | nil =>
    cases r with
    | nil => rfl
    | cons c r =>
      have : c ≠ 34 := by intro h; exact hr (by simp [h])
      show readIdent (34 :: c :: r) = _
      rw [readIdent, if_pos rfl, if_neg this]
  | cons c t ih =>
    have hc : c ≠ 34 := by intro h; exact ht (by simp [h])
    have := ih (by intro h; exact ht (List.mem_cons_of_mem _ h))
    rw [List.cons_append, readIdent_other hc (by simp), this]; rfl

/-- A quoted name is one delimited identifier whatever the characters of the name; double quotes are left out of
it. -/
theorem C103_name_safe (name r : Str) (hr : r.head? ≠ some 34) :
    ∃ q, quoteIdent name ++ r = 34 :: q ∧ readIdent q = some (name.filter (· ≠ 34), r) := by
  refine ⟨name.filter (· ≠ 34) ++ 34 :: r, by simp [quoteIdent], ?_⟩
  exact readIdent_plain _ (by simp) r hr

theorem append_sep_inj {α : Type} {s : α} : ∀ {a b x y : List α}, s ∉ a → s ∉ b →
    a ++ s :: x = b ++ s :: y → a = b ∧ x = y
  | [], [], x, y, _, _, h => by simpa using h
  | [], b :: bs, x, y, _, hb, h => by
    simp only [List.nil_append, List.cons_append, List.cons.injEq] at h
    exact absurd (h.1 ▸ List.mem_cons_self ..) hb
  | a :: as, [], x, y, ha, _, h => by
    simp only [List.nil_append, List.cons_append, List.cons.injEq] at h
    exact absurd (h.1 ▸ List.mem_cons_self ..) ha
  | a :: as, b :: bs, x, y, ha, hb, h => by
    simp only [List.cons_append, List.cons.injEq] at h
    have := append_sep_inj (fun e => ha (List.mem_cons_of_mem _ e)) (fun e => hb (List.mem_cons_of_mem _ e)) h.2
    exact ⟨by rw [h.1, this.1], this.2⟩

theorem joinWith_inj (s : Nat) : ∀ (p q : List Str), p ≠ [] → q ≠ [] → (∀ a ∈ p, s ∉ a) → (∀ a ∈ q, s ∉ a) →
    joinWith [s] p = joinWith [s] q → p = q
  | [a], [b], _, _, _, _, h => by simpa [joinWith] using h
  | [a], b :: c :: r, _, _, hp, _, h => by
    simp only [joinWith] at h
    exact absurd (by rw [h]; simp) (hp a (by simp))
  | a :: c :: r, [b], _, _, _, hq, h => by
    simp only [joinWith] at h
    exact absurd (by rw [← h]; simp) (hq b (by simp))
  | a :: c :: p, b :: d :: q, _, _, hp, hq, h => by
    simp only [joinWith, List.append_assoc, List.singleton_append] at h
    have h2 := append_sep_inj (hp a (by simp)) (hq b (by simp)) h
    have := joinWith_inj s (c :: p) (d :: q) (by simp) (by simp) (fun x hx => hp x (List.mem_cons_of_mem _ hx))
      (fun x hx => hq x (List.mem_cons_of_mem _ hx)) h2.2
    rw [h2.1, this]
  | [], _, h, _, _, _, _ => absurd rfl h
  | _ :: _, [], _, h, _, _, _ => absurd rfl h

theorem joinWith_noquote (s : Nat) (hs : s ≠ 34) : ∀ p : List Str, (∀ a ∈ p, 34 ∉ a) → 34 ∉ joinWith [s] p
  | [], _ => by simp [joinWith]
  | [a], h => by simpa [joinWith] using h
  | a :: b :: r, h => by
    have := joinWith_noquote s hs (b :: r) (fun x hx => h x (List.mem_cons_of_mem _ hx))
    simp only [joinWith, List.mem_append, List.mem_singleton, not_or]
    exact ⟨⟨h a (by simp), fun e => hs e.symm⟩, this⟩

theorem quoteIdent_inj {a b : Str} (ha : 34 ∉ a) (hb : 34 ∉ b) (h : quoteIdent a = quoteIdent b) : a = b := by
  have fa : ∀ l : Str, 34 ∉ l → l.filter (· ≠ 34) = l := by
    intro l hl
    rw [List.filter_eq_self]
    intro x hx
    simp only [decide_eq_true_eq]
    intro e; exact hl (e ▸ hx)
  unfold quoteIdent at h
  rw [fa a ha, fa b hb] at h
  simpa using h

/-- Two properties of an entity set have the same column only when they are the same property, provided that no
name in their paths holds the joining character or a double quote. -/
theorem C103_columns_partial (s : Nat) (hs : s ≠ 34) (set : Str) (p q : List Str) (hp : p ≠ []) (hq : q ≠ [])
    (hpn : ∀ a ∈ p, s ∉ a ∧ 34 ∉ a) (hqn : ∀ a ∈ q, s ∉ a ∧ 34 ∉ a)
    (h : mangle [s] (set :: p) = mangle [s] (set :: q)) : p = q := by
  have e : ∀ l : List Str, l ≠ [] → mangle [s] (set :: l) = quoteIdent (joinWith [s] l) := by
    intro l hl
    unfold mangle
    rw [if_pos (by cases l with | nil => exact absurd rfl hl | cons => simp)]
    rfl
  rw [e p hp, e q hq] at h
  have := quoteIdent_inj (joinWith_noquote s hs p fun a ha => (hpn a ha).2)
    (joinWith_noquote s hs q fun a ha => (hqn a ha).2) h
  exact joinWith_inj s p q hp hq (fun a ha => (hpn a ha).1) (fun a ha => (hqn a ha).1) this

/-- Two entity sets have the same table only when they have the same name. -/
theorem C103_tables (j a b : Str) (ha : 34 ∉ a) (hb : 34 ∉ b) (h : mangle j [a] = mangle j [b]) : a = b := by
  exact quoteIdent_inj ha hb (by simpa [mangle, joinWith] using h)

/-- The property Address_City and the property City of the complex property Address share a column. -/
theorem C103_violation_columns :
    mangle (chars "_") [chars "Customers", chars "Address_City"] =
      mangle (chars "_") [chars "Customers", chars "Address", chars "City"] := by decide +kernel

example : mangle (chars "_") [chars "Customers", chars "Address", chars "City"] = chars "\"Address_City\"" := by
  decide +kernel

/-! ### Parameters -/

theorem fmtTuple_other {V : Type} {c : Nat} (hc : c ≠ 37) (r : Str) (ps : List (Str × V)) :
    fmtTuple (c :: r) ps = (fmtTuple r ps).map (.char c :: ·) := by
  cases r with
  | nil =>
    cases ps <;> simp [fmtTuple, hc]
  | cons d r => cases ps <;> simp [fmtTuple, hc]

theorem fmtTuple_percent {V : Type} (r : Str) (ps : List (Str × V)) :
    fmtTuple (37 :: 37 :: r) ps = (fmtTuple r ps).map (.char 37 :: ·) := by
  cases ps <;> simp [fmtTuple]

theorem fmtTuple_value {V : Type} (r : Str) (p : Str × V) (ps : List (Str × V)) :
    fmtTuple (37 :: 115 :: r) (p :: ps) = (fmtTuple r ps).map (.value p.2 :: ·) := by
  simp [fmtTuple]

theorem fmtDict_other {V : Type} (d : List (Str × V)) (n : Nat) {c : Nat} (hc : c ≠ 37) (r : Str) :
    fmtDict d (n + 1) (c :: r) = (fmtDict d n r).map (.char c :: ·) := by
  cases r <;> simp [fmtDict, hc]

theorem fmtDict_percent {V : Type} (d : List (Str × V)) (n : Nat) (r : Str) :
    fmtDict d (n + 1) (37 :: 37 :: r) = (fmtDict d n r).map (.char 37 :: ·) := by
  simp [fmtDict]

theorem fmtDict_value {V : Type} (d : List (Str × V)) (n : Nat) (k q : Str) (v : V)
    (hk : ∀ c ∈ k, (decide (c ≠ 41)) = true) (hv : lookupName k d = some v) :
    fmtDict d (n + 1) (37 :: 40 :: (k ++ 41 :: 115 :: q)) = (fmtDict d n q).map (.value v :: ·) := by
  have key := takeWhile_stop (p := fun c => decide (c ≠ 41)) (r := 41 :: 115 :: q) hk (fun c hc => by cases hc; rfl)
  have e1 : List.takeWhile (fun c => !decide (c = 41)) (k ++ 41 :: 115 :: q) = k := by simpa using key.1
  have e2 : List.dropWhile (fun c => !decide (c = 41)) (k ++ 41 :: 115 :: q) = 41 :: 115 :: q := by simpa using key.2
  simp [fmtDict, e1, e2, hv]

theorem fmtTuple_escape {V : Type} (s : Str) (q : Str) (ps : List (Str × V)) :
    fmtTuple (escapeLit s ++ q) ps = (fmtTuple q ps).map (s.map .char ++ ·) := by
  induction s with
  | nil => simp [escapeLit]
  | cons c s ih =>
    by_cases hc : c = 37
    · subst hc
      show fmtTuple (37 :: 37 :: (escapeLit s ++ q)) ps = _
      rw [fmtTuple_percent, ih]
      cases fmtTuple q ps <;> rfl
    · have e : escapeLit (c :: s) = c :: escapeLit s := by simp [escapeLit, hc]
      rw [e, List.cons_append, fmtTuple_other hc, ih]
      cases fmtTuple q ps <;> rfl

theorem fmtTuple_build {V : Type} : ∀ (ps : List (Piece V)) (n : Nat),
    fmtTuple (build .format ps n).1 (build .format ps n).2 = some (wanted ps)
  | [], n => rfl
  | .text s :: r, n => by
    show fmtTuple (escapeLit s ++ (build .format r n).1) (build .format r n).2 = _
    rw [fmtTuple_escape, fmtTuple_build r n]; rfl
  | .param v :: r, n => by
    show fmtTuple (37 :: 115 :: (build .format r (n + 1)).1) ((paramName n, v) :: (build .format r (n + 1)).2) = _
    rw [fmtTuple_value, fmtTuple_build r (n + 1)]; rfl

theorem fmtDict_escape {V : Type} (d : List (Str × V)) (s : Str) (q : Str) (out : List (Out V)) (k : Nat)
    (h : ∀ m, k ≤ m → fmtDict d m q = some out) :
    ∀ m, s.length + k ≤ m → fmtDict d m (escapeLit s ++ q) = some (s.map .char ++ out) := by
  induction s with
  | nil => intro m hm; exact h m (by simpa using hm)
  | cons c s ih =>
    intro m hm
    cases m with
    | zero => simp at hm
    | succ m =>
      have := ih m (by simp at hm; omega)
      by_cases hc : c = 37
      · subst hc
        show fmtDict d (m + 1) (37 :: 37 :: (escapeLit s ++ q)) = _
        rw [fmtDict_percent, this]; rfl
      · have e : escapeLit (c :: s) = c :: escapeLit s := by simp [escapeLit, hc]
        rw [e, List.cons_append, fmtDict_other d m hc, this]; rfl

theorem paramName_inj {a b : Nat} (h : paramName a = paramName b) : a = b := by
  have h2 : decStr a = decStr b := by
    have : chars "p" ++ decStr a = chars "p" ++ decStr b := h
    exact List.append_cancel_left this
  have := congrArg decVal h2
  rwa [decVal_decStr, decVal_decStr] at this

theorem paramName_noBracket (n : Nat) : ∀ c ∈ paramName n, (decide (c ≠ 41)) = true := by
  intro c hc
  have hc2 : c ∈ chars "p" ∨ c ∈ decStr n := List.mem_append.1 hc
  simp only [decide_eq_true_eq]
  intro e
  subst e
  rcases hc2 with h | h
  · exact absurd h (by decide)
  · exact absurd (decStr_isDigit n 41 h) (by decide)

theorem build_names {V : Type} (st : ParamStyle) : ∀ (ps : List (Piece V)) (n : Nat),
    ∀ x ∈ (build st ps n).2, ∃ m, n ≤ m ∧ x.1 = paramName m
  | [], n, x, h => by cases h
  | .text s :: r, n, x, h => build_names st r n x h
  | .param v :: r, n, x, h => by
    rcases List.mem_cons.1 h with rfl | h
    · exact ⟨n, Nat.le_refl _, rfl⟩
    · obtain ⟨m, hm, e⟩ := build_names st r (n + 1) x h
      exact ⟨m, by omega, e⟩

theorem lookup_skip {V : Type} (k : Str) : ∀ (pre l : List (Str × V)), (∀ x ∈ pre, x.1 ≠ k) →
    lookupName k (pre ++ l) = lookupName k l
  | [], l, _ => rfl
  | p :: pre, l, h => by
    rw [List.cons_append, lookupName, if_neg (h p (by simp)),
      lookup_skip k pre l (fun x hx => h x (List.mem_cons_of_mem _ hx))]

theorem fmtDict_build {V : Type} : ∀ (ps : List (Piece V)) (n : Nat) (pre : List (Str × V)),
    (∀ x ∈ pre, ∃ m, m < n ∧ x.1 = paramName m) →
    ∀ m, (build .pyformat ps n).1.length ≤ m →
      fmtDict (pre ++ (build .pyformat ps n).2) m (build .pyformat ps n).1 = some (wanted ps)
  | [], n, pre, _, m, _ => by cases m <;> rfl
  | .text s :: r, n, pre, hpre, m, hm => by
    show fmtDict (pre ++ (build .pyformat r n).2) m (escapeLit s ++ (build .pyformat r n).1) = _
    have hl : s.length ≤ (escapeLit s).length := by
      clear hm hpre
      induction s with
      | nil => simp
      | cons c s ih =>
        have e : escapeLit (c :: s) = (if c = 37 then [37, 37] else [c]) ++ escapeLit s := rfl
        rw [e, List.length_append, List.length_cons]
        split <;> simp only [List.length_cons, List.length_nil] <;> omega
    refine fmtDict_escape _ s _ _ _ (fun m' hm' => fmtDict_build r n pre hpre m' hm') m ?_
    have : (escapeLit s ++ (build .pyformat r n).1).length ≤ m := hm
    rw [List.length_append] at this
    omega
  | .param v :: r, n, pre, hpre, m, hm => by
    have hq : (build .pyformat (.param v :: r) n).1 =
        37 :: 40 :: (paramName n ++ 41 :: 115 :: (build .pyformat r (n + 1)).1) := by
      show (chars "%(" ++ paramName n ++ chars ")s") ++ _ = _
      simp [chars]
    rw [hq] at hm ⊢
    show fmtDict (pre ++ (paramName n, v) :: (build .pyformat r (n + 1)).2) m _ = _
    cases m with
    | zero => simp at hm
    | succ m =>
      have look : lookupName (paramName n) (pre ++ (paramName n, v) :: (build .pyformat r (n + 1)).2) = some v := by
        rw [lookup_skip]
        · rw [lookupName, if_pos rfl]
        · intro x hx e
          obtain ⟨m', hm', e'⟩ := hpre x hx
          have := paramName_inj (e'.symm.trans e)
          omega
      have ih := fmtDict_build r (n + 1) (pre ++ [(paramName n, v)]) (by
        intro x hx
        rcases List.mem_append.1 hx with hx | hx
        · obtain ⟨m', hm', e'⟩ := hpre x hx; exact ⟨m', by omega, e'⟩
        · rw [List.mem_singleton] at hx; subst hx; exact ⟨n, by omega, rfl⟩) m (by
        simp only [List.length_cons, List.length_append] at hm; omega)
      rw [List.append_assoc, List.singleton_append] at ih
      rw [fmtDict_value _ _ _ _ v (paramName_noBracket n) look, ih]; rfl

/-- A query written for a module with `format` or `pyformat` parameters becomes, when it is formatted, the text that
was written, with each value in the place where it was added. -/
theorem C103_params {V : Type} (ps : List (Piece V)) :
    fmtTuple (build .format ps 0).1 (build .format ps 0).2 = some (wanted ps) ∧
    fmtDict (build .pyformat ps 0).2 (build .pyformat ps 0).1.length (build .pyformat ps 0).1 = some (wanted ps) :=
  ⟨fmtTuple_build ps 0, fmtDict_build ps 0 [] (by simp) _ (Nat.le_refl _)⟩

example : (build .pyformat [.text (chars "a LIKE '%' AND b="), .param (5 : Nat), .text (chars "+"), .param 7] 0) =
    (chars "a LIKE '%%' AND b=%(p0)s+%(p1)s", [(chars "p0", 5), (chars "p1", 7)]) := by decide +kernel

/-- The default of a column is written into CREATE TABLE without `escape_literal` (sqlds.py:5102-5104), so formatting
the query of a table with the default 5% fails. -/
theorem C103_violation_percent :
    fmtTuple (V := Nat) (chars "CREATE TABLE t (a TEXT DEFAULT " ++ sqlLiteral (.str (chars "5%")) ++ chars ")") [] = none := by
  decide +kernel

end Verif.Sql

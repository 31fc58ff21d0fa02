import Verif.OData.LitProps
/-!
# Model of JSON text as `json.dumps` writes it and `json.loads` reads it

The json module of Python's library is not part of pyslet; `pyslet/odata2/core.py` writes JSON by joining text with the results of
`json.dumps` for strings and reads it with `json.loads`.  Text is a list of character codes.
-/
namespace Verif.Json
open Verif.Text Verif.OData

/-- What `json.loads` returns.  Numbers are ints only; an object is the list of its members. -/
inductive J where
  | null
  | bool (b : Bool)
  | num (n : Int)
  | str (s : Str)
  | arr (l : List J)
  | obj (m : List (Str × J))
  deriving Repr

/-! ## Writing -/

/-- `\uXXXX` -/
def uEsc (n : Nat) : Str := 92 :: 117 :: hexPad 4 n

/-- One character, as `json.dumps` escapes it (`ensure_ascii`). -/
def escChar (c : Nat) : Str :=
  if c = 34 then [92, 34]
  else if c = 92 then [92, 92]
  else if c = 10 then [92, 110]
  else if c = 13 then [92, 114]
  else if c = 9 then [92, 116]
  else if c = 12 then [92, 102]
  else if c = 8 then [92, 98]
  else if 32 ≤ c ∧ c ≤ 126 then [c]
  else if c < 65536 then uEsc c
  else uEsc (55296 + (c - 65536) / 1024) ++ uEsc (56320 + (c - 65536) % 1024)

/-- `json.dumps(s)` for a string. -/
def dumps (s : Str) : Str := 34 :: s.flatMap escChar ++ [34]

/-! ## Reading -/

def isWs (c : Nat) : Bool := c == 32 || c == 9 || c == 10 || c == 13

def skipWs (s : Str) : Str := s.dropWhile isWs

/-- Four hexadecimal digits. -/
def hex4 : Str → Option (Nat × Str)
  | a :: b :: c :: d :: r =>
    if [a, b, c, d].all Uri.isHex then some (hexNum [a, b, c, d], r) else none
  | _ => none

/-- A second `\uXXXX` after a high surrogate: `some none` if there is none that fits. -/
def lowHalf (u : Nat) (r : Str) : Option (Nat × Str) :=
  match r with
  | 92 :: 117 :: r' => match hex4 r' with
    | none => none
    | some (w, r'') => if 56320 ≤ w ∧ w ≤ 57343 then some (65536 + (u - 55296) * 1024 + (w - 56320), r'') else some (u, r)
  | _ => some (u, r)

/-- One character of a string. -/
def unit : Str → Option (Nat × Str)
  | 92 :: e :: r =>
    if e = 34 then some (34, r)
    else if e = 92 then some (92, r)
    else if e = 47 then some (47, r)
    else if e = 98 then some (8, r)
    else if e = 102 then some (12, r)
    else if e = 110 then some (10, r)
    else if e = 114 then some (13, r)
    else if e = 116 then some (9, r)
    else if e = 117 then match hex4 r with
      | none => none
      | some (u, r) => if 55296 ≤ u ∧ u ≤ 56319 then lowHalf u r else some (u, r)
    else none
  | c :: r => if c < 32 ∨ c = 92 then none else some (c, r)
  | [] => none

/-- The rest of a string; the fuel only has to exceed the length of the text. -/
def strLoop : Nat → Str → Option (Str × Str)
  | 0, _ => none
  | f + 1, s =>
    if s.head? = some 34 then some ([], s.tail)
    else match unit s with
      | none => none
      | some (c, r) => match strLoop f r with
        | none => none
        | some (t, r) => some (c :: t, r)

/-- A string after its first quote. -/
def parseStr (s : Str) : Option (Str × Str) := strLoop (s.length + 1) s

/-- An integer without leading zeros; numbers with a fraction or an exponent are not modelled. -/
def parseInt (s : Str) : Option (J × Str) :=
  let neg := s.head? == some 45
  let t := if neg then s.tail else s
  let ds := if t.head? = some 48 then [48] else t.takeWhile isDigit
  let r := t.drop ds.length
  if ds.isEmpty then none
  else if r.head? = some 46 ∨ r.head? = some 69 ∨ r.head? = some 101 then none
  else some (.num (if neg then -(decVal ds : Int) else decVal ds), r)

/-- A keyword or a number. -/
def parseAtom (s : Str) : Option (J × Str) :=
  if s.take 4 = [110, 117, 108, 108] then some (.null, s.drop 4)
  else if s.take 4 = [116, 114, 117, 101] then some (.bool true, s.drop 4)
  else if s.take 5 = [102, 97, 108, 115, 101] then some (.bool false, s.drop 5)
  else parseInt s

mutual
/-- A value; the fuel only has to exceed the length of the text. -/
def parseVal : Nat → Str → Option (J × Str)
  | 0, _ => none
  | f + 1, s =>
    let s := skipWs s
    if s.head? = some 34 then (parseStr s.tail).map fun x => (.str x.1, x.2)
    else if s.head? = some 123 then
      let r := skipWs s.tail
      if r.head? = some 125 then some (.obj [], r.tail)
      else (parseMembers f r).map fun x => (.obj x.1, x.2)
    else if s.head? = some 91 then
      let r := skipWs s.tail
      if r.head? = some 93 then some (.arr [], r.tail)
      else (parseElems f r).map fun x => (.arr x.1, x.2)
    else parseAtom s
/-- The members of an object, to the closing brace. -/
def parseMembers : Nat → Str → Option (List (Str × J) × Str)
  | 0, _ => none
  | f + 1, s =>
    let s := skipWs s
    if s.head? = some 34 then
      match parseStr s.tail with
      | none => none
      | some (k, r) =>
        let r := skipWs r
        if r.head? = some 58 then
          match parseVal f r.tail with
          | none => none
          | some (v, r) =>
            let r := skipWs r
            if r.head? = some 125 then some ([(k, v)], r.tail)
            else if r.head? = some 44 then (parseMembers f r.tail).map fun x => ((k, v) :: x.1, x.2)
            else none
        else none
    else none
/-- The elements of an array, to the closing bracket. -/
def parseElems : Nat → Str → Option (List J × Str)
  | 0, _ => none
  | f + 1, s =>
    match parseVal f s with
    | none => none
    | some (v, r) =>
      let r := skipWs r
      if r.head? = some 93 then some ([v], r.tail)
      else if r.head? = some 44 then (parseElems f r.tail).map fun x => (v :: x.1, x.2)
      else none
end

/-- `json.loads`. -/
def loads (s : Str) : Option J :=
  match parseVal (s.length + 1) s with
  | some (j, r) => if (skipWs r).isEmpty then some j else none
  | none => none

/-- `k in obj` and `obj[k]`: of members with the same name the last one counts. -/
def J.get? (m : List (Str × J)) (k : Str) : Option J := (m.reverse.find? (·.1 == k)).map (·.2)

/-! ## Reading what has been written -/

/-- What may follow a value. -/
def Follow (r : Str) : Prop := ∀ c, r.head? = some c → c = 44 ∨ c = 93 ∨ c = 125

/-- The text is read as this value, wherever it stands. -/
def Reads (t : Str) (j : J) : Prop := ∀ f r, t.length < f → Follow r → parseVal f (t ++ r) = some (j, r)

/-- A character that Unicode text can contain. -/
def Scalar (c : Nat) : Prop := c < 1114112 ∧ ¬ (55296 ≤ c ∧ c ≤ 57343)

theorem hex4_pad {n : Nat} (h : n < 65536) (r : Str) : hex4 (hexPad 4 n ++ r) = some (n, r) := by
  have h1 := hexPad_length 4 n
  have h2 := hexPad_isHex 4 n
  have h3 := hexNum_hexPad 4 n
  match hp : hexPad 4 n, h1 with
  | [a, b, c, d], _ =>
    rw [hp] at h2 h3
    simp only [List.cons_append, List.nil_append, hex4]
    rw [if_pos (List.all_eq_true.mpr h2), h3, Nat.mod_eq_of_lt (by omega)]

theorem unit_uEsc {n : Nat} (h : n < 65536) (hs : ¬ (55296 ≤ n ∧ n ≤ 56319)) (r : Str) : unit (uEsc n ++ r) = some (n, r) := by
  simp only [uEsc, List.cons_append, unit, Nat.reduceEqDiff, if_false, if_true, hex4_pad h]
  rw [if_neg hs]

theorem unit_pair {u w : Nat} (hu : 55296 ≤ u ∧ u ≤ 56319) (hw : 56320 ≤ w ∧ w ≤ 57343) (r : Str) :
    unit (uEsc u ++ (uEsc w ++ r)) = some (65536 + (u - 55296) * 1024 + (w - 56320), r) := by
  simp only [uEsc, List.cons_append, unit, Nat.reduceEqDiff, if_false, if_true, hex4_pad (show u < 65536 by omega)]
  rw [if_pos hu]
  simp only [lowHalf, hex4_pad (show w < 65536 by omega)]
  rw [if_pos hw]

theorem escChar_ne {c : Nat} : ∃ x t, escChar c = x :: t ∧ x ≠ 34 := by
  unfold escChar
  repeat' split
  all_goals first
    | exact ⟨_, _, rfl, by omega⟩
    | exact ⟨_, _, rfl, by decide⟩

theorem unit_escChar {c : Nat} (h : Scalar c) (r : Str) : unit (escChar c ++ r) = some (c, r) := by
  obtain ⟨h1, h2⟩ := h
  unfold escChar
  split
  · next h => subst h; rfl
  split
  · next h => subst h; rfl
  split
  · next h => subst h; rfl
  split
  · next h => subst h; rfl
  split
  · next h => subst h; rfl
  split
  · next h => subst h; rfl
  split
  · next h => subst h; rfl
  split
  · next h3 h4 h5 h6 h7 h8 h9 h10 =>
    have : unit ([c] ++ r) = if c < 32 ∨ c = 92 then none else some (c, r) := by
      rw [List.singleton_append]
      unfold unit
      split
      · next e => injection e with e1 e2; exact absurd e1 h4
      · next e => injection e with e1 e2; subst e1; subst e2; rfl
      · next e => cases e
    rw [this, if_neg (by omega)]
  split
  · next h => exact unit_uEsc h (by omega) r
  · next h =>
    rw [List.append_assoc, unit_pair (by omega) (by omega)]
    rw [show 65536 + (55296 + (c - 65536) / 1024 - 55296) * 1024 + (56320 + (c - 65536) % 1024 - 56320) = c by omega]

theorem strLoop_esc (s : Str) (h : ∀ c ∈ s, Scalar c) (r : Str) : ∀ f, s.length < f → strLoop f (s.flatMap escChar ++ 34 :: r) = some (s, r) := by
  induction s with
  | nil =>
    intro f hf
    obtain ⟨f, rfl⟩ : ∃ g, f = g + 1 := ⟨f - 1, by simp at hf; omega⟩
    simp [strLoop]
  | cons c s ih =>
    intro f hf
    obtain ⟨f, rfl⟩ : ∃ g, f = g + 1 := ⟨f - 1, by simp at hf; omega⟩
    rw [List.flatMap_cons, List.append_assoc]
    obtain ⟨x, t, hx, hne⟩ := escChar_ne (c := c)
    have hh : (escChar c ++ (s.flatMap escChar ++ 34 :: r)).head? ≠ some 34 := by rw [hx]; simpa using hne
    unfold strLoop
    rw [if_neg hh, unit_escChar (h c (by simp))]
    simp only [ih (fun d hd => h d (by simp [hd])) f (by simp at hf; omega)]

theorem flatMap_esc_length (s : Str) : s.length ≤ (s.flatMap escChar).length := by
  induction s with
  | nil => simp
  | cons c s ih =>
    obtain ⟨x, t, hx, -⟩ := escChar_ne (c := c)
    simp only [List.flatMap_cons, List.length_append, List.length_cons, hx]
    omega

theorem parseStr_dumps (s : Str) (h : ∀ c ∈ s, Scalar c) (r : Str) : parseStr ((dumps s).tail ++ r) = some (s, r) := by
  have : (dumps s).tail ++ r = s.flatMap escChar ++ 34 :: r := by simp [dumps]
  rw [this]
  unfold parseStr
  refine strLoop_esc s h r _ ?_
  have := flatMap_esc_length s
  simp only [List.length_append, List.length_cons]
  omega

theorem skipWs_of {s : Str} (h : ∀ c, s.head? = some c → isWs c = false) : skipWs s = s := by
  unfold skipWs
  cases s with
  | nil => rfl
  | cons c s => rw [List.dropWhile_cons_of_neg (by simpa using h c rfl)]

theorem dumps_cons (s : Str) : dumps s = 34 :: (dumps s).tail := by simp [dumps]

theorem reads_str (s : Str) (h : ∀ c ∈ s, Scalar c) : Reads (dumps s) (.str s) := by
  intro f r hf _
  obtain ⟨f, rfl⟩ : ∃ g, f = g + 1 := ⟨f - 1, by omega⟩
  have h1 : skipWs (dumps s ++ r) = dumps s ++ r := skipWs_of (by intro c hc; simp [dumps] at hc; subst hc; rfl)
  unfold parseVal
  simp only [h1]
  have h2 : (dumps s ++ r).head? = some 34 := by simp [dumps]
  have h3 : (dumps s ++ r).tail = (dumps s).tail ++ r := by simp [dumps]
  rw [if_pos h2, h3, parseStr_dumps s h]
  rfl

theorem follow_ws {r : Str} (h : Follow r) : skipWs r = r := skipWs_of fun c hc => by
  rcases h c hc with rfl | rfl | rfl <;> rfl

theorem reads_word {t : Str} {j : J} (hh : ∃ c w, t = c :: w ∧ isWs c = false ∧ c ≠ 34 ∧ c ≠ 123 ∧ c ≠ 91)
    (h : ∀ r, Follow r → parseAtom (t ++ r) = some (j, r)) : Reads t j := by
  intro f r hf hr
  obtain ⟨f, rfl⟩ : ∃ g, f = g + 1 := ⟨f - 1, by omega⟩
  obtain ⟨c, w, rfl, h1, h2, h3, h4⟩ := hh
  have hs : skipWs (c :: w ++ r) = c :: w ++ r := skipWs_of (by intro d hd; simp at hd; subst hd; exact h1)
  unfold parseVal
  simp only [hs]
  rw [if_neg (by simpa using h2), if_neg (by simpa using h3), if_neg (by simpa using h4), h r hr]

theorem reads_null : Reads [110, 117, 108, 108] .null := reads_word ⟨_, _, rfl, rfl, by decide, by decide, by decide⟩ fun r _ => rfl
theorem reads_true : Reads [116, 114, 117, 101] (.bool true) := reads_word ⟨_, _, rfl, rfl, by decide, by decide, by decide⟩ fun r _ => rfl
theorem reads_false : Reads [102, 97, 108, 115, 101] (.bool false) := reads_word ⟨_, _, rfl, rfl, by decide, by decide, by decide⟩ fun r _ => rfl

theorem decStr_head {n : Nat} (h : 0 < n) : (decStr n).head? ≠ some 48 := by
  induction n using Nat.strongRecOn with
  | ind n ih =>
    by_cases h10 : n < 10
    · rw [decStr, if_pos h10]
      simp only [List.head?_cons]
      intro e
      have := Option.some.inj e
      omega
    · rw [decStr, if_neg h10]
      have hne := decStr_ne_nil (n / 10)
      have := ih (n / 10) (by omega) (by omega)
      match hd : decStr (n / 10), hne with
      | c :: w, _ =>
        rw [hd] at this
        simpa using this

theorem follow_digit {r : Str} (h : Follow r) : ∀ c, r.head? = some c → isDigit c = false := by
  intro c hc
  rcases h c hc with rfl | rfl | rfl <;> rfl

theorem parseInt_intStr (n : Int) {r : Str} (hr : Follow r) : parseInt (intStr n ++ r) = some (.num n, r) := by
  have hf : ¬ (r.head? = some 46 ∨ r.head? = some 69 ∨ r.head? = some 101) := by
    rintro (h | h | h) <;> · rcases hr _ h with h' | h' | h' <;> cases h'
  have key : ∀ k : Nat, (if (decStr k ++ r).head? = some 48 then [48] else (decStr k ++ r).takeWhile isDigit) = decStr k := by
    intro k
    have hne := decStr_ne_nil k
    by_cases h0 : k = 0
    · subst h0
      have : decStr 0 = [48] := by rw [decStr, if_pos (by decide)]
      rw [this]
      rfl
    · have hd := decStr_head (Nat.pos_of_ne_zero h0)
      rw [if_neg]
      · exact (takeWhile_stop (decStr_isDigit k) (follow_digit hr)).1
      · match hk : decStr k, hne with
        | c :: w, _ => rw [hk] at hd; simpa using hd
  have hnil : ∀ k : Nat, (decStr k).isEmpty = false := by
    intro k
    have := decStr_ne_nil k
    cases h : decStr k with
    | nil => exact absurd h this
    | cons _ _ => rfl
  unfold intStr
  by_cases hn : n < 0
  · rw [if_pos hn]
    unfold parseInt
    simp only [List.cons_append, List.head?_cons, beq_self_eq_true, if_true, List.tail_cons, key, hnil, List.drop_left, Bool.false_eq_true, if_false]
    rw [if_neg hf, decVal_decStr]
    congr 2
    congr 1
    omega
  · rw [if_neg hn]
    have hh : ((decStr n.natAbs ++ r).head? == some 45) = false := by
      match hk : decStr n.natAbs, decStr_ne_nil n.natAbs with
      | c :: w, _ =>
        have := decStr_isDigit n.natAbs c (by rw [hk]; simp)
        have hc : c ≠ 45 := by rintro rfl; revert this; decide
        simpa using hc
    unfold parseInt
    simp only [hh, Bool.false_eq_true, if_false, key, hnil, List.drop_left]
    rw [if_neg hf, decVal_decStr]
    congr 2
    congr 1
    omega

theorem intStr_first (n : Int) : ∃ c w, intStr n = c :: w ∧ (c = 45 ∨ isDigit c = true) := by
  unfold intStr
  split
  · exact ⟨_, _, rfl, .inl rfl⟩
  · match hk : decStr n.natAbs, decStr_ne_nil n.natAbs with
    | c :: w, _ => exact ⟨c, w, rfl, .inr (decStr_isDigit n.natAbs c (by rw [hk]; simp))⟩

theorem reads_num (n : Int) : Reads (intStr n) (.num n) := by
  obtain ⟨c, w, hw, hc⟩ := intStr_first n
  have hr : c = 45 ∨ (48 ≤ c ∧ c ≤ 57) := by
    rcases hc with h | h
    · exact .inl h
    · exact .inr (by simpa [isDigit] using h)
  refine reads_word ⟨c, w, hw, ?_, by omega, by omega, by omega⟩ fun r hF => ?_
  · simp only [isWs, Bool.or_eq_false_iff, beq_eq_false_iff_ne]
    omega
  · have h4 : ∀ (k x : Nat) (l : Str), x ≠ c → (intStr n ++ r).take (k + 1) ≠ x :: l := by
      intro k x l hx e
      rw [hw, List.cons_append, List.take_succ_cons] at e
      exact hx (List.cons.inj e).1.symm
    unfold parseAtom
    rw [if_neg (h4 3 110 _ (by omega)), if_neg (h4 3 116 _ (by omega)), if_neg (h4 4 102 _ (by omega)), parseInt_intStr n hF]

/-! ## Arrays and objects -/

/-- White space. -/
def AllWs (s : Str) : Prop := ∀ c ∈ s, isWs c = true

theorem skipWs_append {p : Str} (h : AllWs p) (s : Str) : skipWs (p ++ s) = skipWs s := by
  induction p with
  | nil => rfl
  | cons c p ih =>
    unfold skipWs at ih ⊢
    rw [List.cons_append, List.dropWhile_cons_of_pos (h c (by simp)), ih fun d hd => h d (by simp [hd])]

theorem parseVal_ws {p : Str} (h : AllWs p) (f : Nat) (s : Str) : parseVal f (p ++ s) = parseVal f s := by
  cases f with
  | zero => rfl
  | succ f => simp only [parseVal, skipWs_append h]

theorem skipWs_idem (s : Str) : skipWs (skipWs s) = skipWs s := by
  induction s with
  | nil => rfl
  | cons c s ih =>
    by_cases h : isWs c = true
    · have : skipWs (c :: s) = skipWs s := List.dropWhile_cons_of_pos h
      rw [this, ih]
    · have : skipWs (c :: s) = c :: s := List.dropWhile_cons_of_neg h
      rw [this, this]

theorem parseVal_skip (f : Nat) (s : Str) : parseVal f (skipWs s) = parseVal f s := by
  cases f with
  | zero => rfl
  | succ f => simp only [parseVal, skipWs_idem]

theorem Reads.ws {t : Str} {j : J} (h : Reads t j) {p : Str} (hp : AllWs p) : Reads (p ++ t) j := by
  intro f r hf hr
  rw [List.append_assoc, parseVal_ws hp]
  exact h f r (by simp at hf; omega) hr

theorem Reads.not_close {t : Str} {j : J} (h : Reads t j) {r : Str} (hr : Follow r) : (skipWs (t ++ r)).head? ≠ some 93 := by
  intro e
  have h1 := h (t.length + 1) r (by omega) hr
  unfold parseVal at h1
  simp only [e, Option.some.injEq, Nat.reduceEqDiff, if_false] at h1
  match hs : skipWs (t ++ r) with
  | [] => rw [hs] at e; cases e
  | c :: w =>
    rw [hs] at e h1
    simp only [List.head?_cons, Option.some.injEq] at e
    subst e
    simp [parseAtom, parseInt, isDigit] at h1

/-- A list of texts with commas between them. -/
def commas : List Str → Str
  | [] => []
  | [t] => t
  | t :: ts => t ++ 44 :: commas ts

theorem commas_cons (t u : Str) (ts : List Str) : commas (t :: u :: ts) = t ++ 44 :: commas (u :: ts) := rfl

theorem follow_comma (s : Str) : Follow (44 :: s) := by intro c hc; simp at hc; exact .inl hc.symm
theorem follow_bracket (s : Str) : Follow (93 :: s) := by intro c hc; simp at hc; exact .inr (.inl hc.symm)
theorem follow_brace (s : Str) : Follow (125 :: s) := by intro c hc; simp at hc; exact .inr (.inr hc.symm)

theorem parseElems_reads : ∀ (ts : List (Str × J)), ts ≠ [] → (∀ x ∈ ts, Reads x.1 x.2) → ∀ f r, (commas (ts.map (·.1))).length < f →
    parseElems (f + 1) (commas (ts.map (·.1)) ++ 93 :: r) = some (ts.map (·.2), r) := by
  intro ts
  induction ts with
  | nil => intro h; exact absurd rfl h
  | cons x ts ih =>
    intro _ h f r hf
    cases ts with
    | nil =>
      simp only [List.map_cons, List.map_nil, commas] at hf ⊢
      rw [parseElems, h x (by simp) f _ hf (follow_bracket r)]
      simp only [follow_ws (follow_bracket r), List.head?_cons, if_true, List.tail_cons]
    | cons y ts =>
      simp only [List.map_cons, commas_cons, List.length_append, List.length_cons] at hf ⊢
      obtain ⟨f, rfl⟩ : ∃ g, f = g + 1 := ⟨f - 1, by omega⟩
      rw [List.append_assoc, List.cons_append, parseElems, h x (by simp) (f + 1) _ (by omega) (follow_comma _)]
      simp only [follow_ws (follow_comma _), List.head?_cons, Option.some.injEq, Nat.reduceEqDiff, if_false, if_true, List.tail_cons]
      have := ih (by simp) (fun z hz => h z (by simp [hz])) f r (by simp only [List.map_cons]; omega)
      simp only [List.map_cons] at this
      rw [this]
      rfl

theorem reads_arr (ts : List (Str × J)) (h : ∀ x ∈ ts, Reads x.1 x.2) : Reads (91 :: commas (ts.map (·.1)) ++ [93]) (.arr (ts.map (·.2))) := by
  intro f r hf _
  simp only [List.cons_append, List.append_assoc, List.length_cons, List.length_append, List.nil_append, List.length_nil] at hf ⊢
  obtain ⟨f, rfl⟩ : ∃ g, f = g + 2 := ⟨f - 2, by omega⟩
  unfold parseVal
  have hs : skipWs (91 :: (commas (ts.map (·.1)) ++ 93 :: r)) = 91 :: (commas (ts.map (·.1)) ++ 93 :: r) :=
    skipWs_of (by intro c hc; simp at hc; subst hc; rfl)
  simp only [hs, List.head?_cons, Option.some.injEq, Nat.reduceEqDiff, if_false, if_true, List.tail_cons]
  cases ts with
  | nil =>
    simp only [List.map_nil, commas, List.nil_append, follow_ws (follow_bracket r), List.head?_cons, if_true, List.tail_cons]
  | cons x ts =>
    have hc : (skipWs (commas ((x :: ts).map (·.1)) ++ 93 :: r)).head? ≠ some 93 := by
      cases ts with
      | nil => exact (h x (by simp)).not_close (follow_bracket r)
      | cons y ts =>
        simp only [List.map_cons, commas_cons, List.append_assoc]
        exact (h x (by simp)).not_close (follow_comma _)
    rw [if_neg hc]
    have hws : parseElems (f + 1) (skipWs (commas ((x :: ts).map (·.1)) ++ 93 :: r)) = parseElems (f + 1) (commas ((x :: ts).map (·.1)) ++ 93 :: r) := by
      have : ∀ s : Str, parseElems (f + 1) (skipWs s) = parseElems (f + 1) s := by
        intro s
        rw [parseElems, parseElems, parseVal_skip]
      exact this _
    rw [hws, parseElems_reads (x :: ts) (by simp) h f r (by omega)]
    rfl

/-- The text is a member of an object. -/
def Member (t : Str) (k : Str) (j : J) : Prop :=
  ∃ p q body, t = p ++ (dumps k ++ (q ++ 58 :: body)) ∧ AllWs p ∧ AllWs q ∧ (∀ c ∈ k, Scalar c) ∧ Reads body j

theorem parseMember_step {t k : Str} {j : J} (h : Member t k j) (f : Nat) (s : Str) (hf : t.length < f) (hs : Follow s) :
    parseMembers (f + 1) (t ++ s) =
      if s.head? = some 125 then some ([(k, j)], s.tail)
      else if s.head? = some 44 then (parseMembers f s.tail).map fun x => ((k, j) :: x.1, x.2)
      else none := by
  obtain ⟨p, q, body, rfl, hp, hq, hk, hb⟩ := h
  have h1 : skipWs (p ++ (dumps k ++ (q ++ 58 :: body)) ++ s) = 34 :: ((dumps k).tail ++ (q ++ 58 :: (body ++ s))) := by
    rw [List.append_assoc, skipWs_append hp, skipWs_of (by intro c hc; simp [dumps] at hc; subst hc; rfl), dumps_cons]
    simp
  have h2 : skipWs (q ++ 58 :: (body ++ s)) = 58 :: (body ++ s) := by
    rw [skipWs_append hq, skipWs_of (by intro c hc; simp at hc; subst hc; rfl)]
  rw [parseMembers]
  simp only [h1, List.head?_cons, if_true, List.tail_cons, parseStr_dumps k hk, h2]
  rw [hb f s (by simp at hf; omega) hs]
  simp only [follow_ws hs]

theorem parseMembers_reads : ∀ (ts : List (Str × Str × J)), ts ≠ [] → (∀ x ∈ ts, Member x.1 x.2.1 x.2.2) → ∀ f r,
    (commas (ts.map (·.1))).length < f → parseMembers (f + 1) (commas (ts.map (·.1)) ++ 125 :: r) = some (ts.map (·.2), r) := by
  intro ts
  induction ts with
  | nil => intro h; exact absurd rfl h
  | cons x ts ih =>
    intro _ h f r hf
    cases ts with
    | nil =>
      simp only [List.map_cons, List.map_nil, commas] at hf ⊢
      rw [parseMember_step (h x (by simp)) f _ hf (follow_brace r)]
      simp
    | cons y ts =>
      simp only [List.map_cons, commas_cons, List.length_append, List.length_cons] at hf ⊢
      obtain ⟨f, rfl⟩ : ∃ g, f = g + 1 := ⟨f - 1, by omega⟩
      rw [List.append_assoc, List.cons_append, parseMember_step (h x (by simp)) (f + 1) _ (by omega) (follow_comma _)]
      simp only [List.head?_cons, Option.some.injEq, Nat.reduceEqDiff, if_false, if_true, List.tail_cons]
      have := ih (by simp) (fun z hz => h z (by simp [hz])) f r (by simp only [List.map_cons]; omega)
      simp only [List.map_cons] at this
      rw [this]
      rfl

theorem Member.not_close {t k : Str} {j : J} (h : Member t k j) (s : Str) : (skipWs (t ++ s)).head? = some 34 := by
  obtain ⟨p, q, body, rfl, hp, hq, hk, hb⟩ := h
  rw [List.append_assoc, skipWs_append hp, skipWs_of (by intro c hc; simp [dumps] at hc; subst hc; rfl), dumps_cons]
  simp

theorem reads_obj (ts : List (Str × Str × J)) (h : ∀ x ∈ ts, Member x.1 x.2.1 x.2.2) :
    Reads (123 :: commas (ts.map (·.1)) ++ [125]) (.obj (ts.map (·.2))) := by
  intro f r hf _
  simp only [List.cons_append, List.append_assoc, List.length_cons, List.length_append, List.nil_append, List.length_nil] at hf ⊢
  obtain ⟨f, rfl⟩ : ∃ g, f = g + 2 := ⟨f - 2, by omega⟩
  unfold parseVal
  have hs : skipWs (123 :: (commas (ts.map (·.1)) ++ 125 :: r)) = 123 :: (commas (ts.map (·.1)) ++ 125 :: r) :=
    skipWs_of (by intro c hc; simp at hc; subst hc; rfl)
  simp only [hs, List.head?_cons, Option.some.injEq, Nat.reduceEqDiff, if_false, if_true, List.tail_cons]
  cases ts with
  | nil =>
    simp only [List.map_nil, commas, List.nil_append, follow_ws (follow_brace r), List.head?_cons, if_true, List.tail_cons]
  | cons x ts =>
    have hc : (skipWs (commas ((x :: ts).map (·.1)) ++ 125 :: r)).head? ≠ some 125 := by
      have : (skipWs (commas ((x :: ts).map (·.1)) ++ 125 :: r)).head? = some 34 := by
        cases ts with
        | nil => exact (h x (by simp)).not_close _
        | cons y ts =>
          simp only [List.map_cons, commas_cons, List.append_assoc]
          exact (h x (by simp)).not_close _
      rw [this]; simp
    rw [if_neg hc]
    have hws : ∀ s : Str, parseMembers (f + 1) (skipWs s) = parseMembers (f + 1) s := by
      intro s
      rw [parseMembers, parseMembers, skipWs_idem]
    rw [hws, parseMembers_reads (x :: ts) (by simp) h f r (by omega)]
    rfl

/-- A member written without spaces. -/
theorem member_plain {k body : Str} {j : J} (hk : ∀ c ∈ k, Scalar c) (h : Reads body j) : Member (dumps k ++ 58 :: body) k j :=
  ⟨[], [], body, rfl, by simp [AllWs], by simp [AllWs], hk, h⟩

theorem Reads.loads {t : Str} {j : J} (h : Reads t j) : Json.loads t = some j := by
  unfold Json.loads
  have := h (t.length + 1) [] (by omega) (by intro c hc; cases hc)
  rw [List.append_nil] at this
  rw [this]
  rfl

end Verif.Json

import Mathlib.Data.List.Basic
/-!
# Names in PEP-8 style, `pyslet/pep8.py:13-85, 299-356` (C165)

The case of characters is a parameter: every property is proved for any table of characters, so in particular for that of Unicode.
-/
namespace Verif.Compat

/-- The case of characters: `c.isupper()`, `c.islower()`, other cased characters (title case) and `c.lower()`. -/
structure Table where
  upper : Nat → Bool
  lower : Nat → Bool
  title : Nat → Bool
  toLower : Nat → List Nat

/-- `l.isupper()` for `l` a character or the empty string. -/
def Table.up (T : Table) : Option Nat → Bool
  | none => false
  | some c => T.upper c

/-- `l.islower()` for `l` a character or the empty string. -/
def Table.low (T : Table) : Option Nat → Bool
  | none => false
  | some c => T.lower c

/-- `name.islower()`: there is a cased character and all cased characters are lower case. -/
def Table.isLowerStr (T : Table) (s : List Nat) : Bool := s.any T.lower && s.all fun c => !(T.upper c || T.title c)

/-- `result.append(l1)`, `l1` possibly empty. -/
def charOf : Option Nat → List Nat
  | none => []
  | some c => [c]

/-- `result.append(l1.lower())`. -/
def Table.lowOf (T : Table) : Option Nat → List Nat
  | none => []
  | some c => T.toLower c

/-- What is appended for `l1` when the next character is `c` and the character before is `l0`, pep8.py:38-66: `nextLow` is `c.islower()`. -/
def Table.emit (T : Table) (nextLow : Bool) (l0 l1 : Option Nat) : List Nat :=
  if nextLow then
    if T.up l1 then
      if T.up l0 || T.low l0 then 95 :: T.lowOf l1 else T.lowOf l1
    else charOf l1
  else
    if T.up l1 then
      if T.up l0 then T.lowOf l1
      else if T.low l0 then 95 :: T.lowOf l1
      else T.lowOf l1
    else charOf l1

/-- The loop and what follows it, pep8.py:37-83. -/
def Table.loop (T : Table) : Option Nat → Option Nat → List Nat → List Nat
  | l0, l1, [] => T.emit false l0 l1
  | l0, l1, c :: r => T.emit (T.lower c) l0 l1 ++ T.loop l1 (some c) r

/-- `make_attr_name`, pep8.py:13-85. -/
def Table.makeAttrName (T : Table) (name : List Nat) : List Nat := if T.isLowerStr name then name else T.loop none none name

/-! ## `PEP8Compatibility.__getattr__` -/

/-- The attributes that the usual resolution finds, and the cache `_pep8_dict`. -/
structure Obj (V : Type) where
  attrs : List Nat → Option V
  cache : List Nat → Option (List Nat)

inductive Get (V : Type) where
  | value (v : V)
  | attributeError
  | recursion
deriving DecidableEq, Repr

/-- `getattr(self, name)`, with `__getattr__` (pep8.py:327-356) if the usual resolution fails; the first argument bounds the recursion. -/
def getAttr {V : Type} (T : Table) : Nat → Obj V → List Nat → Get V × Obj V
  | 0, o, _ => (.recursion, o)
  | n + 1, o, name => match o.attrs name with
    | some v => (.value v, o)
    | none =>
      let p : List Nat × Obj V := match o.cache name with
        | some m => (m, o)
        | none =>
          let m := T.makeAttrName name
          (m, { o with cache := fun k => if k = name then some (if m = name then [] else m) else o.cache k })
      if p.1 ≠ [] then getAttr T n p.2 p.1 else (.attributeError, p.2)

/-! ### specification -/

/-- What becomes of a character: an upper case letter becomes lower case, after an underscore if a lower case letter is before it, or an upper case letter
is before it and a lower case one after it; all other characters stay. -/
def Table.spec (T : Table) (before : Option Nat) (c : Nat) (after : Option Nat) : List Nat :=
  if T.upper c then
    (if before.any T.lower || (before.any T.upper && after.any T.lower) then [95] else []) ++ T.toLower c
  else [c]

/-- What is asked of the table: no character is in both cases, and the lower case of a character has no upper case or title case letters. -/
structure Table.Ok (T : Table) : Prop where
  disjoint : ∀ c, T.upper c = true → T.lower c = false
  lowered : ∀ c, T.upper c = true → ∀ d ∈ T.toLower c, T.upper d = false
  nonempty : ∀ c, T.toLower c ≠ []
  underscore : T.upper 95 = false

/-! ### proofs -/

theorem emit_none (T : Table) (b : Bool) (l0 : Option Nat) : T.emit b l0 none = [] := by
  cases b <;> simp [Table.emit, Table.up, charOf]

theorem emit_spec (T : Table) (l0 : Option Nat) (c : Nat) (after : Option Nat) (h0 : ∀ b, l0 = some b → T.upper b = true → T.lower b = false) :
    T.emit (T.low after) l0 (some c) = T.spec l0 c after := by
  unfold Table.emit Table.spec
  cases hc : T.upper c
  · simp [Table.up, hc, charOf]
  · cases l0 with
    | none => cases T.low after <;> simp [Table.up, Table.low, hc, Table.lowOf]
    | some b =>
      cases after with
      | none =>
        cases hb : T.upper b <;> cases hl : T.lower b <;> first | (simp [Table.up, Table.low, hc, hb, hl, Table.lowOf]; done) | exact absurd (h0 b rfl hb) (by simp [hl])
      | some a =>
        cases ha : T.lower a <;> cases hb : T.upper b <;> cases hl : T.lower b <;> first | (simp [Table.up, Table.low, hc, hb, hl, ha, Table.lowOf]; done) | exact absurd (h0 b rfl hb) (by simp [hl])

/-- The characters of a list with those before and after them. -/
def windows : Option Nat → List Nat → List (Option Nat × Nat × Option Nat)
  | _, [] => []
  | b, c :: r => (b, c, r.head?) :: windows (some c) r

theorem low_head (T : Table) (r : List Nat) : (match r with | [] => false | a :: _ => T.lower a) = T.low r.head? := by
  cases r <;> rfl

theorem loop_spec (T : Table) (hT : T.Ok) : ∀ (s : List Nat) (l0 : Option Nat) (c : Nat),
    T.loop l0 (some c) s = ((windows l0 (c :: s)).map fun w => T.spec w.1 w.2.1 w.2.2).flatten := by
  intro s
  induction s with
  | nil =>
    intro l0 c
    have := emit_spec T l0 c none (fun b _ => hT.disjoint b)
    rw [Table.loop]
    simp only [windows, List.head?_nil, List.map_cons, List.map_nil, List.flatten_cons, List.flatten_nil, List.append_nil]
    rw [← this]; rfl
  | cons d s ih =>
    intro l0 c
    rw [Table.loop, ih]
    have := emit_spec T l0 c (some d) (fun b _ => hT.disjoint b)
    rw [show windows l0 (c :: d :: s) = (l0, c, some d) :: windows (some c) (d :: s) from rfl, List.map_cons, List.flatten_cons, ← this]
    rfl

theorem windows_get (s : List Nat) : ∀ (b : Option Nat) (i : Nat) (hi : i < s.length),
    (windows b s)[i]? = some (if i = 0 then b else s[i - 1]?, s[i], s[i + 1]?) := by
  induction s with
  | nil => intro b i hi; simp at hi
  | cons c s ih =>
    intro b i hi
    cases i with
    | zero => simp [windows, List.head?_eq_getElem?]
    | succ i =>
      simp only [List.length_cons] at hi
      rw [windows, List.getElem?_cons_succ, ih (some c) i (by omega)]
      cases i with
      | zero => simp
      | succ i => simp

theorem windows_length (s : List Nat) : ∀ b, (windows b s).length = s.length := by
  induction s with
  | nil => intro b; rfl
  | cons c s ih => intro b; simp [windows, ih]

/-- The characters one by one, each with its neighbours. -/
def byChar (T : Table) (s : List Nat) : List (List Nat) :=
  (List.range s.length).map fun i => T.spec (if i = 0 then none else s[i - 1]?) (s.getD i 0) s[i + 1]?

theorem byChar_eq (T : Table) (s : List Nat) : ((windows none s).map fun w => T.spec w.1 w.2.1 w.2.2) = byChar T s := by
  apply List.ext_getElem?
  intro i
  by_cases hi : i < s.length
  · rw [List.getElem?_map, windows_get s none i hi, byChar, List.getElem?_map, List.getElem?_range hi]
    simp [hi]
  · rw [List.getElem?_eq_none (by simp [windows_length]; omega), List.getElem?_eq_none (by simp [byChar]; omega)]

theorem spec_not_upper (T : Table) (b : Option Nat) (c : Nat) (a : Option Nat) (h : T.upper c = false) : T.spec b c a = [c] := by
  simp [Table.spec, h]

theorem windows_id (T : Table) : ∀ (s : List Nat) (b : Option Nat), (∀ c ∈ s, T.upper c = false) → ((windows b s).map fun w => T.spec w.1 w.2.1 w.2.2).flatten = s := by
  intro s
  induction s with
  | nil => intro b _; rfl
  | cons c s ih =>
    intro b h
    rw [windows, List.map_cons, List.flatten_cons, spec_not_upper T _ _ _ (h c (by simp)), ih _ (fun d hd => h d (by simp [hd]))]
    rfl

theorem makeAttrName_eq (T : Table) (hT : T.Ok) (s : List Nat) : T.makeAttrName s = ((windows none s).map fun w => T.spec w.1 w.2.1 w.2.2).flatten := by
  unfold Table.makeAttrName
  by_cases hl : T.isLowerStr s = true
  · rw [if_pos hl]
    symm
    apply windows_id
    intro c hc
    simp only [Table.isLowerStr, Bool.and_eq_true, List.all_eq_true] at hl
    have := hl.2 c hc
    simp at this
    exact this.1
  · rw [if_neg hl]
    cases s with
    | nil => simp [Table.loop, emit_none, windows]
    | cons c s => rw [Table.loop, emit_none, List.nil_append, loop_spec T hT]

/-- **C165**: the name in PEP-8 style: every character becomes what the documentation says, according to the characters before and after it. -/
theorem C165_make_attr_name (T : Table) (hT : T.Ok) (s : List Nat) :
    T.makeAttrName s = ((List.range s.length).map fun i => T.spec (if i = 0 then none else s[i - 1]?) (s.getD i 0) s[i + 1]?).flatten := by
  rw [makeAttrName_eq T hT, byChar_eq]
  rfl

/-- **C165**: the result has no upper case letters. -/
theorem C165_no_upper (T : Table) (hT : T.Ok) (s : List Nat) : ∀ c ∈ T.makeAttrName s, T.upper c = false := by
  intro c hc
  rw [makeAttrName_eq T hT] at hc
  simp only [List.mem_flatten, List.mem_map] at hc
  obtain ⟨l, ⟨w, -, rfl⟩, hc⟩ := hc
  unfold Table.spec at hc
  by_cases hu : T.upper w.2.1 = true
  · rw [if_pos hu, List.mem_append] at hc
    rcases hc with hc | hc
    · split at hc
      · rw [List.mem_singleton] at hc; subst hc; exact hT.underscore
      · simp at hc
    · exact hT.lowered _ hu c hc
  · rw [if_neg hu, List.mem_singleton] at hc
    subst hc
    simpa using hu

theorem makeAttrName_id (T : Table) (hT : T.Ok) (s : List Nat) (h : ∀ c ∈ s, T.upper c = false) : T.makeAttrName s = s := by
  rw [makeAttrName_eq T hT, windows_id T s none h]

/-- **C165**: a name is in the new style already exactly if it has no upper case letters; making a name twice is making it once. -/
theorem C165_fixed (T : Table) (hT : T.Ok) (s : List Nat) :
    (T.makeAttrName s = s ↔ ∀ c ∈ s, T.upper c = false) ∧ T.makeAttrName (T.makeAttrName s) = T.makeAttrName s :=
  ⟨⟨fun h => h ▸ C165_no_upper T hT s, makeAttrName_id T hT s⟩, makeAttrName_id T hT _ (C165_no_upper T hT s)⟩

theorem makeAttrName_ne (T : Table) (hT : T.Ok) (s : List Nat) (h : s ≠ []) : T.makeAttrName s ≠ [] := by
  cases s with
  | nil => exact absurd rfl h
  | cons c s =>
    rw [makeAttrName_eq T hT, windows, List.map_cons, List.flatten_cons]
    intro e
    rw [List.append_eq_nil_iff] at e
    have e1 := e.1
    unfold Table.spec at e1
    split at e1
    · rw [List.append_eq_nil_iff] at e1
      exact hT.nonempty _ e1.2
    · cases e1

/-- The cache holds what the calls of `getattr` put there. -/
def CacheOk (T : Table) (cache : List Nat → Option (List Nat)) : Prop := ∀ k m, cache k = some m → m = if T.makeAttrName k = k then [] else T.makeAttrName k

theorem getAttr_stable {V : Type} (T : Table) (hT : T.Ok) (n : Nat) (o : Obj V) (name : List Nat) (hn : name ≠ []) (hc : CacheOk T o.cache) (h : ∀ c ∈ name, T.upper c = false) :
    ∃ o', getAttr T (n + 2) o name = ((match o.attrs name with | some v => .value v | none => .attributeError), o') ∧ o'.attrs = o.attrs ∧ CacheOk T o'.cache := by
  have hid := makeAttrName_id T hT name h
  rw [getAttr]
  cases ha : o.attrs name with
  | some v => exact ⟨o, rfl, rfl, hc⟩
  | none =>
    dsimp only
    cases hk : o.cache name with
    | some m =>
      have hm := hc name m hk
      rw [if_pos hid] at hm
      subst hm
      dsimp only
      rw [if_neg (by simp)]
      exact ⟨o, rfl, rfl, hc⟩
    | none =>
      dsimp only
      rw [hid, if_pos hn, getAttr]
      dsimp only
      rw [ha]
      dsimp only
      rw [if_pos rfl]
      dsimp only
      rw [if_pos rfl, if_neg (by simp)]
      refine ⟨_, rfl, rfl, ?_⟩
      intro k m hkm
      dsimp only at hkm
      by_cases hkn : k = name
      · subst hkn
        rw [if_pos rfl] at hkm
        cases hkm
        rw [if_pos hid]
      · rw [if_neg hkn] at hkm
        exact hc k m hkm

/-- **C165**: the value of an attribute is the attribute of that name, or else that of the name in PEP-8 style, or AttributeError; the search ends, its
result does not depend on what has been looked up before, and the attributes do not change. -/
theorem C165_getattr {V : Type} (T : Table) (hT : T.Ok) (n : Nat) (o : Obj V) (name : List Nat) (hn : name ≠ []) (hc : CacheOk T o.cache) :
    ∃ o', getAttr T (n + 3) o name = ((match o.attrs name, o.attrs (T.makeAttrName name) with | some v, _ => .value v | none, some v => .value v | none, none => .attributeError), o') ∧
      o'.attrs = o.attrs ∧ CacheOk T o'.cache := by
  by_cases hid : T.makeAttrName name = name
  · obtain ⟨o', h1, h2⟩ := getAttr_stable T hT (n + 1) o name hn hc ((C165_fixed T hT name).1.mp hid)
    refine ⟨o', ?_, h2⟩
    rw [h1, hid]
    cases o.attrs name <;> rfl
  · rw [getAttr]
    cases ha : o.attrs name with
    | some v => exact ⟨o, rfl, rfl, hc⟩
    | none =>
      dsimp only
      cases hk : o.cache name with
      | some m =>
        have hm := hc name m hk
        rw [if_neg hid] at hm
        subst hm
        dsimp only
        rw [if_pos (makeAttrName_ne T hT name hn)]
        obtain ⟨o', h1, h2⟩ := getAttr_stable T hT n o (T.makeAttrName name) (makeAttrName_ne T hT name hn) hc (C165_no_upper T hT name)
        refine ⟨o', ?_, h2⟩
        rw [h1]
        cases o.attrs (T.makeAttrName name) <;> rfl
      | none =>
        dsimp only
        rw [if_pos (makeAttrName_ne T hT name hn), if_neg hid]
        obtain ⟨o', h1, h2⟩ := getAttr_stable T hT n { o with cache := fun k => if k = name then some (T.makeAttrName name) else o.cache k } (T.makeAttrName name) (makeAttrName_ne T hT name hn)
          (by
            intro k m hkm
            dsimp only at hkm
            by_cases hkn : k = name
            · subst hkn
              rw [if_pos rfl] at hkm
              cases hkm
              rw [if_neg hid]
            · rw [if_neg hkn] at hkm
              exact hc k m hkm) (C165_no_upper T hT name)
        refine ⟨o', ?_, h2⟩
        rw [h1]
        cases o.attrs (T.makeAttrName name) <;> rfl

/-! ### the hypotheses are met -/

/-- The letters of ASCII. -/
def ascii : Table where
  upper c := decide (65 ≤ c ∧ c ≤ 90)
  lower c := decide (97 ≤ c ∧ c ≤ 122)
  title _ := false
  toLower c := [if 65 ≤ c ∧ c ≤ 90 then c + 32 else c]

theorem ascii_ok : ascii.Ok where
  disjoint c h := by simp [ascii] at h ⊢; omega
  lowered c h d hd := by
    simp [ascii] at h hd ⊢
    rw [if_pos h] at hd
    omega
  nonempty c := by simp [ascii]
  underscore := by decide

/-- `aName`, `ABCName` and `Name`. -/
example : ascii.makeAttrName [97, 78, 97, 109, 101] = [97, 95, 110, 97, 109, 101] ∧
    ascii.makeAttrName [65, 66, 67, 78, 97, 109, 101] = [97, 98, 99, 95, 110, 97, 109, 101] ∧ ascii.makeAttrName [78, 97, 109, 101] = [110, 97, 109, 101] := by decide +kernel

/-- An object with the attribute `a_b`, found as `aB` and as `AB`? Only as `aB`. -/
example : let o : Obj Nat := ⟨fun k => if k = [97, 95, 98] then some 1 else none, fun _ => none⟩
    (getAttr ascii 3 o [97, 66]).1 = .value 1 ∧ (getAttr ascii 3 o [65, 66]).1 = .attributeError ∧ CacheOk ascii o.cache := by
  refine ⟨by decide +kernel, by decide +kernel, fun k m h => by cases h⟩

end Verif.Compat

import Mathlib.Data.List.Sort
import Mathlib.Data.List.Nodup
/-!
# Enumerations, `pyslet/xml/xsdatatypes.py:530-880` (C159)

A class derived from `Enumeration` is given by its dictionaries `decode` and `aliases`, lists of items with different
keys in the order of insertion.  Strings are lists of codes; which characters are white space (`str.strip`, `str.split`)
and `str.lower` are parameters.
-/
namespace Verif.Xsd.Enum

abbrev Str := List Nat

/-- What Python's `str` provides. -/
structure Py where
  ws : Nat → Bool
  lower : Str → Str

/-- The class body: `decode` and `aliases` (with the key `None` for the default). -/
structure Def where
  decode : List (Str × Int)
  aliases : List (Option Str × Str)

/-- The class after `_init_enum`. -/
structure Enum where
  decode : List (Str × Int)
  encode : List (Int × Str)
  default : Option Int
  deriving DecidableEq

/-- `d[k]`, `none` for KeyError. -/
def get {α β : Type} [BEq α] (d : List (α × β)) (k : α) : Option β := (d.find? fun p => p.1 == k).map (·.2)

/-- `d[k] = v`. -/
def set {α β : Type} [BEq α] : List (α × β) → α → β → List (α × β)
  | [], k, v => [(k, v)]
  | p :: d, k, v => if p.1 == k then (p.1, v) :: d else p :: set d k v

/-- The loop over the aliases, xsdatatypes.py:602-606. -/
def addAliases : List (Option Str × Str) → Enum → Option Enum
  | [], e => some e
  | (k, v) :: r, e => match get e.decode v with
    | none => none
    | some x => match k with
      | none => addAliases r { e with default := some x }
      | some a => addAliases r { e with decode := set e.decode a x }

/-- `Enumeration._init_enum`, xsdatatypes.py:592-612 (without the attributes); `none` when a KeyError stops the definition
of the class. -/
def init (d : Def) : Option Enum :=
  addAliases d.aliases ⟨d.decode, d.decode.foldl (fun m p => set m p.2 p.1) [], none⟩

/-- `EnumerationNoCase._init_enum`, xsdatatypes.py:847-857. -/
def initNoCase (py : Py) (d : Def) : Option Enum :=
  init { d with aliases := (d.decode.map (·.1)).foldl (fun al k =>
    if py.lower k != k && (get al (some (py.lower k))).isNone then set al (some (py.lower k)) k else al) d.aliases }

/-- `str.strip`. -/
def strip (py : Py) (s : Str) : Str := ((s.dropWhile py.ws).reverse.dropWhile py.ws).reverse

/-- `str.split` without arguments; `cur` is the current word. -/
def splitAux (ws : Nat → Bool) : Str → Str → List Str
  | cur, [] => if cur = [] then [] else [cur]
  | cur, c :: r => if ws c then (if cur = [] then splitAux ws [] r else cur :: splitAux ws [] r) else splitAux ws (cur ++ [c]) r

/-- `src.split()`. -/
def split (py : Py) (s : Str) : List Str := splitAux py.ws [] s

/-- `from_str`, xsdatatypes.py:619-628; `none` for ValueError. -/
def Enum.fromStr (py : Py) (e : Enum) (src : Str) : Option Int := get e.decode (strip py src)

/-- `from_str_lower`, xsdatatypes.py:630-641. -/
def Enum.fromStrLower (py : Py) (e : Enum) (src : Str) : Option Int := get e.decode (py.lower (strip py src))

/-- `list_from_str`, xsdatatypes.py:671-690. -/
def listFromStr (py : Py) (decoder : Str → Option Int) (src : Str) : Option (List Int) := (split py src).mapM decoder

/-- `dict_from_str`, xsdatatypes.py:692-719: the test of line 717 is outside the loop; `none` for ValueError and for the
UnboundLocalError when there is no word. -/
def dictFromStr (py : Py) (decoder : Str → Option Int) (src : Str) : Option (List (Int × Str)) :=
  match (split py src).mapM (fun s => (decoder s).map fun v => (v, s)) with
  | none => none
  | some l => l.getLast?.map fun p => [p]

/-- `to_str`, xsdatatypes.py:721-728; `none` is None. -/
def Enum.toStr (e : Enum) (value : Option Int) : Option Str :=
  match value.bind (get e.encode) with
  | some s => some s
  | none => e.default.bind (get e.encode)

/-- `' '.join`. -/
def joinSpace : List Str → Str
  | [] => []
  | [w] => w
  | w :: ws => w ++ 32 :: joinSpace ws

/-- `list_to_str`, xsdatatypes.py:730-741; `none` for the TypeError of joining None. -/
def Enum.listToStr (e : Enum) (vs : List Int) : Option Str := (vs.mapM fun v => e.toStr (some v)).map joinSpace

/-- `dict_to_str`, xsdatatypes.py:743-780, with `sort_keys`; the argument is the list of the keys. -/
def Enum.dictToStr (e : Enum) (keys : List Int) : Option Str := e.listToStr (keys.mergeSort fun a b => decide (a ≤ b))

/-! ### specification -/

/-- A sensible definition: names and values are different, aliases are other names for names of values. -/
structure Def.OK (d : Def) : Prop where
  names : (d.decode.map (·.1)).Nodup
  values : (d.decode.map (·.2)).Nodup
  aliases : (d.aliases.map (·.1)).Nodup
  known : ∀ p ∈ d.aliases, ∃ v, (p.2, v) ∈ d.decode
  other : ∀ a n, (some a, n) ∈ d.aliases → ∀ v, (a, v) ∉ d.decode

/-- `s` is the name or an alias of the value `v`. -/
def Def.Names (d : Def) (s : Str) (v : Int) : Prop := (s, v) ∈ d.decode ∨ ∃ n, (some s, n) ∈ d.aliases ∧ (n, v) ∈ d.decode

/-- A word: not empty and without white space. -/
def Word (py : Py) (s : Str) : Prop := s ≠ [] ∧ ∀ c ∈ s, py.ws c = false

/-! ### proofs -/

theorem get_mem {α β : Type} [BEq α] [LawfulBEq α] {d : List (α × β)} {k : α} {v : β} (h : get d k = some v) : (k, v) ∈ d := by
  unfold get at h
  cases hf : d.find? fun p => p.1 == k with
  | none => rw [hf] at h; cases h
  | some p =>
    rw [hf] at h
    simp only [Option.map_some, Option.some.injEq] at h
    have h1 := List.mem_of_find?_eq_some hf
    have h2 := List.find?_some hf
    simp only [beq_iff_eq] at h2
    rw [← h, ← h2]
    exact h1

theorem get_iff {α β : Type} [BEq α] [LawfulBEq α] {d : List (α × β)} (hn : (d.map (·.1)).Nodup) (k : α) (v : β) :
    get d k = some v ↔ (k, v) ∈ d := by
  refine ⟨get_mem, ?_⟩
  induction d with
  | nil => intro h; cases h
  | cons p d ih =>
    intro h
    simp only [List.map_cons, List.nodup_cons] at hn
    unfold get
    rw [List.find?_cons]
    by_cases hk : p.1 = k
    · have : (p.1 == k) = true := by simpa using hk
      rw [this]
      simp only [Option.map_some, Option.some.injEq]
      rcases List.mem_cons.mp h with h | h
      · rw [← h]
      · exact absurd (List.mem_map_of_mem (f := (·.1)) h) (by simpa [← hk] using hn.1)
    · have : (p.1 == k) = false := by simpa using hk
      rw [this]
      rcases List.mem_cons.mp h with h | h
      · exact absurd (by rw [← h]) hk
      · exact ih hn.2 h

theorem get_set {α β : Type} [BEq α] [LawfulBEq α] [DecidableEq α] (d : List (α × β)) (k : α) (v : β) (x : α) :
    get (set d k v) x = if x = k then some v else get d x := by
  induction d with
  | nil =>
    by_cases h : k = x
    · simp [set, get, h]
    · simp [set, get, h, Ne.symm h]
  | cons p d ih =>
    unfold set
    by_cases hp : p.1 = k
    · have : (p.1 == k) = true := by simpa using hp
      rw [if_pos this]
      by_cases hx : x = k
      · simp [get, hx, hp]
      · have h1 : ¬ p.1 = x := fun e => hx (e.symm.trans hp)
        simp [get, h1, hx]
    · have : ¬ (p.1 == k) = true := by simpa using hp
      rw [if_neg this]
      by_cases hx : p.1 = x
      · have : ¬ x = k := fun e => hp (hx.trans e)
        simp [get, hx, this]
      · have h1 : get (p :: set d k v) x = get (set d k v) x := by simp [get, hx]
        have h2 : get (p :: d) x = get d x := by simp [get, hx]
        rw [h1, h2, ih]

/-- The encoding dictionary. -/
theorem get_encode (l : List (Str × Int)) (hv : (l.map (·.2)).Nodup) : ∀ (m : List (Int × Str)) (x : Int),
    get (l.foldl (fun m p => set m p.2 p.1) m) x = match l.find? (fun p => p.2 == x) with
      | some p => some p.1
      | none => get m x := by
  induction l with
  | nil => intro m x; rfl
  | cons p l ih =>
    intro m x
    simp only [List.map_cons, List.nodup_cons] at hv
    rw [List.foldl_cons, ih hv.2, List.find?_cons]
    by_cases hp : p.2 = x
    · have h1 : (p.2 == x) = true := by simpa using hp
      have h2 : l.find? (fun q => q.2 == x) = none := by
        rw [List.find?_eq_none]
        intro q hq
        have : q.2 ≠ p.2 := fun e => hv.1 (e ▸ List.mem_map_of_mem (f := (·.2)) hq)
        simpa [← hp] using this
      rw [h1, h2]
      simp [get_set, hp]
    · have h1 : (p.2 == x) = false := by simpa using hp
      rw [h1]
      dsimp only
      cases l.find? (fun q => q.2 == x) with
      | some q => rfl
      | none => simp [get_set, Ne.symm hp]

theorem find_value {l : List (Str × Int)} (hv : (l.map (·.2)).Nodup) {n : Str} {v : Int} (h : (n, v) ∈ l) : l.find? (fun p => p.2 == v) = some (n, v) := by
  induction l with
  | nil => cases h
  | cons p l ih =>
    simp only [List.map_cons, List.nodup_cons] at hv
    rw [List.find?_cons]
    rcases List.mem_cons.mp h with h | h
    · subst h; simp
    · have : p.2 ≠ v := fun e => hv.1 (e ▸ List.mem_map_of_mem (f := (·.2)) h)
      have h1 : (p.2 == v) = false := by simpa using this
      rw [h1]
      exact ih hv.2 h

/-- The loop over the aliases. -/
theorem addAliases_spec (D : List (Str × Int)) : ∀ (al : List (Option Str × Str)) (e : Enum),
    (al.map (·.1)).Nodup → (∀ n v, (n, v) ∈ D → get e.decode n = some v) → (∀ p ∈ al, ∃ v, (p.2, v) ∈ D) →
    (∀ a n, (some a, n) ∈ al → ∀ v, (a, v) ∉ D) →
    ∃ e', addAliases al e = some e' ∧ e'.encode = e.encode ∧
      (∀ s v, get e'.decode s = some v ↔ (∃ n, (some s, n) ∈ al ∧ get e.decode n = some v) ∨ ((∀ n, (some s, n) ∉ al) ∧ get e.decode s = some v)) ∧
      (e'.default = match get al none with
        | some n => get e.decode n
        | none => e.default) := by
  intro al
  induction al with
  | nil =>
    intro e _ _ _ _
    exact ⟨e, rfl, rfl, by simp, rfl⟩
  | cons p al ih =>
    intro e hn hD hk ho
    obtain ⟨k, n0⟩ := p
    obtain ⟨x, hx⟩ := hk (k, n0) (by simp)
    have hx : (n0, x) ∈ D := hx
    have hgx := hD n0 x hx
    simp only [List.map_cons, List.nodup_cons] at hn
    rw [addAliases]
    simp only [hgx]
    have hk' : ∀ p ∈ al, ∃ v, (p.2, v) ∈ D := fun p hp => hk p (by simp [hp])
    have ho' : ∀ a n, (some a, n) ∈ al → ∀ v, (a, v) ∉ D := fun a n h => ho a n (by simp [h])
    cases k with
    | none =>
      dsimp only
      obtain ⟨e', h1, h2, h3, h4⟩ := ih { e with default := some x } hn.2 hD hk' ho'
      refine ⟨e', h1, h2, ?_, ?_⟩
      · intro s v; rw [h3]; simp
      · have hnone : get al none = none := by
          cases hg : get al none with
          | none => rfl
          | some y => exact absurd (List.mem_map_of_mem (f := (·.1)) (get_mem hg)) hn.1
        rw [h4, hnone]
        simp [get]
        simpa [get] using hgx.symm
    | some a =>
      dsimp only
      have hDa : ∀ v, (a, v) ∉ D := ho a n0 (by simp)
      have hD' : ∀ n v, (n, v) ∈ D → get (set e.decode a x) n = some v := by
        intro n v h
        rw [get_set, if_neg (fun hq : n = a => hDa v (hq ▸ h))]
        exact hD n v h
      obtain ⟨e', h1, h2, h3, h4⟩ := ih { e with decode := set e.decode a x } hn.2 hD' hk' ho'
      have hne : ∀ p ∈ al, p.2 ≠ a := by
        intro p hp e
        obtain ⟨v, hv⟩ := hk' p hp
        exact hDa v (e ▸ hv)
      refine ⟨e', h1, h2, ?_, ?_⟩
      · intro s v
        rw [h3]
        dsimp only
        have hal : ∀ n, (some a, n) ∉ al := fun n h => hn.1 (List.mem_map_of_mem (f := (·.1)) h)
        by_cases hs : s = a
        · subst hs
          rw [get_set, if_pos rfl]
          constructor
          · rintro (⟨n, hm, _⟩ | ⟨_, h⟩)
            · exact absurd hm (hal n)
            · exact .inl ⟨n0, by simp, by rw [hgx]; exact h⟩
          · rintro (⟨n, hm, hg⟩ | ⟨hno, _⟩)
            · rcases List.mem_cons.mp hm with hm | hm
              · simp only [Prod.mk.injEq] at hm
                rw [hm.2, hgx] at hg
                exact .inr ⟨hal, hg⟩
              · exact absurd hm (hal n)
            · exact absurd (by simp) (hno n0)
        · rw [get_set, if_neg hs]
          constructor
          · rintro (⟨n, hm, hg⟩ | ⟨hno, h⟩)
            · rw [get_set, if_neg (hne _ hm)] at hg
              exact .inl ⟨n, by simp [hm], hg⟩
            · exact .inr ⟨fun n hm => by
                rcases List.mem_cons.mp hm with hm | hm
                · simp only [Prod.mk.injEq, Option.some.injEq] at hm; exact hs hm.1
                · exact hno n hm, h⟩
          · rintro (⟨n, hm, hg⟩ | ⟨hno, h⟩)
            · rcases List.mem_cons.mp hm with hm | hm
              · simp only [Prod.mk.injEq, Option.some.injEq] at hm; exact absurd hm.1 hs
              · refine .inl ⟨n, hm, ?_⟩
                rw [get_set, if_neg (hne _ hm)]
                exact hg
            · exact .inr ⟨fun n hm => hno n (by simp [hm]), h⟩
      · rw [h4]
        have : get ((some a, n0) :: al) none = get al none := by simp [get]
        rw [this]
        cases hg : get al none with
        | none => rfl
        | some n =>
          dsimp only
          rw [get_set, if_neg (hne _ (get_mem hg))]

/-- **C159**: a sensible definition is accepted, and `from_str` decodes exactly the names and aliases, with white space around
them ignored. -/
theorem C159_decode (py : Py) {d : Def} (h : d.OK) : ∃ e, init d = some e ∧ ∀ t v, e.fromStr py t = some v ↔ d.Names (strip py t) v := by
  have hD : ∀ n v, (n, v) ∈ d.decode → get d.decode n = some v := fun n v hm => (get_iff h.names n v).mpr hm
  obtain ⟨e, h1, _, h3, _⟩ := addAliases_spec d.decode d.aliases ⟨d.decode, d.decode.foldl (fun m p => set m p.2 p.1) [], none⟩ h.aliases hD h.known h.other
  refine ⟨e, h1, fun t v => ?_⟩
  unfold Enum.fromStr
  rw [h3]
  unfold Def.Names
  simp only [get_iff h.names]
  constructor
  · rintro (⟨n, h1, h2⟩ | ⟨_, h⟩)
    · exact .inr ⟨n, h1, h2⟩
    · exact .inl h
  · rintro (h | ⟨n, h1, h2⟩)
    · exact .inr ⟨fun n hn => h_other h hn, h⟩
    · exact .inl ⟨n, h1, h2⟩
where
  h_other {s : Str} {v : Int} {n : Str} (h0 : (s, v) ∈ d.decode) (hn : (some s, n) ∈ d.aliases) : False := h.other s n hn v h0

/-- **C159**: `to_str` gives the canonical name of a value, and the name of the default for None and for anything that is not a
value. -/
theorem C159_encode {d : Def} (h : d.OK) {e : Enum} (he : init d = some e) :
    (∀ n v, (n, v) ∈ d.decode → e.toStr (some v) = some n) ∧
    (∀ n, (none, n) ∈ d.aliases → e.toStr none = some n ∧ ∀ v, v ∉ d.decode.map (·.2) → e.toStr (some v) = some n) ∧
    ((∀ n, (none, n) ∉ d.aliases) → e.toStr none = none ∧ ∀ v, v ∉ d.decode.map (·.2) → e.toStr (some v) = none) := by
  have hD : ∀ n v, (n, v) ∈ d.decode → get d.decode n = some v := fun n v hm => (get_iff h.names n v).mpr hm
  obtain ⟨e', h1, h2, h3, h4⟩ := addAliases_spec d.decode d.aliases ⟨d.decode, d.decode.foldl (fun m p => set m p.2 p.1) [], none⟩ h.aliases hD h.known h.other
  have : e' = e := by
    have := h1.symm.trans he
    simpa using this
  subst this
  have henc : ∀ x, get e'.encode x = (d.decode.find? (fun p => p.2 == x)).map (·.1) := by
    intro x
    rw [h2, get_encode _ h.values]
    cases d.decode.find? (fun p => p.2 == x) <;> rfl
  have hname : ∀ n v, (n, v) ∈ d.decode → get e'.encode v = some n := by
    intro n v hm
    rw [henc, find_value h.values hm]
    rfl
  have hno : ∀ v, v ∉ d.decode.map (·.2) → get e'.encode v = none := by
    intro v hv
    rw [henc, List.find?_eq_none.mpr]
    · rfl
    · intro p hp hpv
      exact hv (by simpa [← (beq_iff_eq.mp hpv)] using List.mem_map_of_mem (f := (·.2)) hp)
  refine ⟨fun n v hm => by simp [Enum.toStr, hname n v hm], ?_, ?_⟩
  · intro n hm
    obtain ⟨v, hv⟩ := h.known _ hm
    have hv : (n, v) ∈ d.decode := hv
    have hdef : e'.default = some v := by
      rw [h4, (get_iff h.aliases none n).mpr hm]
      exact hD n v hv
    constructor
    · simp [Enum.toStr, hdef, hname n v hv]
    · intro w hw
      simp [Enum.toStr, hno w hw, hdef, hname n v hv]
  · intro hn
    have hdef : e'.default = none := by
      have : get d.aliases none = none := by
        cases hg : get d.aliases none with
        | none => rfl
        | some n => exact absurd (get_mem hg) (hn n)
      rw [h4, this]
    exact ⟨by simp [Enum.toStr, hdef], fun w hw => by simp [Enum.toStr, hno w hw, hdef]⟩

theorem strip_word {py : Py} {s : Str} (h : Word py s) : strip py s = s := by
  have aux : ∀ l : Str, (∀ c ∈ l, py.ws c = false) → l.dropWhile py.ws = l := by
    intro l hl
    cases l with
    | nil => rfl
    | cons c r => rw [List.dropWhile_cons_of_neg (by simp [hl c (by simp)])]
  unfold strip
  rw [aux s h.2, aux s.reverse (by simpa using h.2), List.reverse_reverse]

/-- **C159**: `strip` takes away the white space at both ends and nothing else. -/
theorem C159_strip (py : Py) (a w b : Str) (ha : ∀ c ∈ a, py.ws c = true) (hb : ∀ c ∈ b, py.ws c = true)
    (h1 : ∀ c, w.head? = some c → py.ws c = false) (h2 : ∀ c, w.getLast? = some c → py.ws c = false) : strip py (a ++ w ++ b) = w := by
  have dw : ∀ (l r : Str), (∀ c ∈ l, py.ws c = true) → (l ++ r).dropWhile py.ws = r.dropWhile py.ws := by
    intro l r hl
    induction l with
    | nil => rfl
    | cons c l ih => rw [List.cons_append, List.dropWhile_cons_of_pos (hl c (by simp)), ih fun x hx => hl x (by simp [hx])]
  have keep : ∀ (r : Str), (∀ c, r.head? = some c → py.ws c = false) → r.dropWhile py.ws = r := by
    intro r hr
    cases r with
    | nil => rfl
    | cons c r => rw [List.dropWhile_cons_of_neg (by simp [hr c rfl])]
  unfold strip
  rw [List.append_assoc, dw a _ ha]
  cases w with
  | nil =>
    have := dw b [] hb
    rw [List.append_nil] at this
    rw [List.nil_append, this]; rfl
  | cons c w =>
    rw [keep ((c :: w) ++ b) (fun x hx => h1 x (by simpa using hx)), List.reverse_append, dw b.reverse _ (by simpa using hb), keep, List.reverse_reverse]
    intro x hx
    rw [List.head?_reverse] at hx
    exact h2 x hx

theorem splitAux_word {py : Py} : ∀ (w cur r : Str), (∀ c ∈ w, py.ws c = false) → splitAux py.ws cur (w ++ r) = splitAux py.ws (cur ++ w) r := by
  intro w
  induction w with
  | nil => intro cur r _; simp
  | cons c w ih =>
    intro cur r h
    rw [List.cons_append, splitAux, if_neg (by simp [h c (by simp)]), ih _ _ (fun x hx => h x (by simp [hx]))]
    simp

theorem split_join {py : Py} (h32 : py.ws 32 = true) : ∀ (l : List Str), (∀ w ∈ l, Word py w) → split py (joinSpace l) = l := by
  intro l
  induction l with
  | nil => intro _; rfl
  | cons w l ih =>
    intro h
    obtain ⟨hw, hc⟩ := h w (by simp)
    cases l with
    | nil =>
      simp only [joinSpace]
      have := splitAux_word (py := py) w [] [] hc
      rw [List.append_nil, List.nil_append] at this
      rw [split, this, splitAux, if_neg hw]
    | cons w' l =>
      have := ih fun x hx => h x (by simp [hx])
      simp only [joinSpace]
      rw [split, splitAux_word w [] _ hc, List.nil_append, splitAux, if_pos h32, if_neg hw]
      exact congrArg _ this

theorem mapM_some {α β : Type} {f : α → Option β} {g : α → β} : ∀ (l : List α), (∀ x ∈ l, f x = some (g x)) → l.mapM f = some (l.map g) := by
  intro l
  induction l with
  | nil => intro _; rfl
  | cons x l ih =>
    intro h
    rw [List.mapM_cons, h x (by simp), ih fun y hy => h y (by simp [hy])]
    rfl

/-- **C159**: a list of values that is written and read again is the same list. -/
theorem C159_list_round_trip (py : Py) (h32 : py.ws 32 = true) {d : Def} (h : d.OK) (hw : ∀ n v, (n, v) ∈ d.decode → Word py n) {e : Enum} (he : init d = some e)
    {vs : List Int} (hv : ∀ v ∈ vs, v ∈ d.decode.map (·.2)) :
    ∃ t, e.listToStr vs = some t ∧ listFromStr py (e.fromStr py) t = some vs := by
  obtain ⟨e', he', hdec⟩ := C159_decode py h
  have : e' = e := by have := he'.symm.trans he; simpa using this
  subst this
  obtain ⟨henc, _, _⟩ := C159_encode h he
  have hname : ∀ v ∈ vs, ∃ n, (n, v) ∈ d.decode := by
    intro v hm
    obtain ⟨p, hp, rfl⟩ := List.mem_map.mp (hv v hm)
    exact ⟨p.1, hp⟩
  let name : Int → Str := fun v => (e'.toStr (some v)).getD []
  have hn : ∀ v ∈ vs, e'.toStr (some v) = some (name v) ∧ (name v, v) ∈ d.decode := by
    intro v hm
    obtain ⟨n, hd⟩ := hname v hm
    have := henc n v hd
    simp only [name, this, Option.getD_some, true_and]
    exact hd
  refine ⟨joinSpace (vs.map name), ?_, ?_⟩
  · unfold Enum.listToStr
    rw [mapM_some (g := name) vs fun v hm => (hn v hm).1]
    rfl
  · unfold listFromStr
    have hws : ∀ w ∈ vs.map name, Word py w := by
      intro w hm
      obtain ⟨v, hm', rfl⟩ := List.mem_map.mp hm
      exact hw _ v (hn v hm').2
    rw [split_join h32 _ hws]
    have : (vs.map name).mapM (e'.fromStr py) = vs.mapM (fun v => e'.fromStr py (name v)) := by
      clear hv hname hn hws
      induction vs with
      | nil => rfl
      | cons v vs ih => simp only [List.map_cons, List.mapM_cons, ih]
    rw [this, mapM_some (g := id) vs]
    · simp
    · intro v hm
      obtain ⟨_, hd⟩ := hn v hm
      rw [hdec, strip_word (hw _ v hd)]
      exact .inl hd

/-- **C159**: dictionaries with the same keys are written as the same string, which lists the keys in increasing order. -/
theorem C159_dict (py : Py) (h32 : py.ws 32 = true) {d : Def} (h : d.OK) (hw : ∀ n v, (n, v) ∈ d.decode → Word py n) {e : Enum} (he : init d = some e)
    {ks : List Int} (hv : ∀ v ∈ ks, v ∈ d.decode.map (·.2)) :
    (∀ ks', ks.Perm ks' → e.dictToStr ks = e.dictToStr ks') ∧
    ∃ t vs, e.dictToStr ks = some t ∧ listFromStr py (e.fromStr py) t = some vs ∧ vs.Pairwise (· ≤ ·) ∧ vs.Perm ks := by
  have hs : ∀ l : List Int, (l.mergeSort fun a b => decide (a ≤ b)).Pairwise (fun a b => a ≤ b) := by
    intro l
    have := List.pairwise_mergeSort (le := fun a b : Int => decide (a ≤ b)) (by intro a b c; simp; omega) (by intro a b; simp; omega) l
    simpa using this
  have hp : ∀ l : List Int, (l.mergeSort fun a b => decide (a ≤ b)).Perm l := fun l => List.mergeSort_perm l _
  constructor
  · intro ks' hk
    unfold Enum.dictToStr
    congr 1
    exact List.Perm.eq_of_pairwise (le := fun a b : Int => a ≤ b) (fun a b _ _ h1 h2 => by omega) (hs ks) (hs ks') ((hp ks).trans (hk.trans (hp ks').symm))
  · obtain ⟨t, h1, h2⟩ := C159_list_round_trip py h32 h hw he (vs := ks.mergeSort fun a b => decide (a ≤ b)) (fun v hm => hv v ((hp ks).mem_iff.mp hm))
    exact ⟨t, _, h1, h2, hs ks, hp ks⟩

/-! ### names without regard to case -/

theorem get_none {α β : Type} [BEq α] [LawfulBEq α] {d : List (α × β)} {k : α} (h : k ∉ d.map (·.1)) : get d k = none := by
  cases hg : get d k with
  | none => rfl
  | some v => exact absurd (List.mem_map_of_mem (f := (·.1)) (get_mem hg)) h

theorem set_new {α β : Type} [BEq α] [LawfulBEq α] : ∀ {d : List (α × β)} {k : α} {v : β}, k ∉ d.map (·.1) → set d k v = d ++ [(k, v)] := by
  intro d
  induction d with
  | nil => intro k v _; rfl
  | cons p d ih =>
    intro k v h
    simp only [List.map_cons, List.mem_cons, not_or] at h
    rw [set, if_neg (by simpa using Ne.symm h.1), ih h.2]
    rfl

/-- The aliases added for the names `ks`. -/
theorem noCase_fold (py : Py) : ∀ (ks : List Str) (al : List (Option Str × Str)), (ks.map py.lower).Nodup → (∀ k ∈ ks, some (py.lower k) ∉ al.map (·.1)) →
    ks.foldl (fun al k => if py.lower k != k && (get al (some (py.lower k))).isNone then set al (some (py.lower k)) k else al) al =
      al ++ (ks.filter fun k => py.lower k != k).map fun k => (some (py.lower k), k) := by
  intro ks
  induction ks with
  | nil => intro al _ _; simp
  | cons k ks ih =>
    intro al hn ha
    simp only [List.map_cons, List.nodup_cons] at hn
    have h0 := ha k (by simp)
    rw [List.foldl_cons]
    by_cases hk : py.lower k = k
    · have h1 : (py.lower k != k) = false := by simpa using hk
      simp only [h1, Bool.false_and, Bool.false_eq_true, if_false]
      rw [ih al hn.2 fun x hx => ha x (by simp [hx])]
      simp [h1]
    · have h1 : (py.lower k != k) = true := by simpa using hk
      have h2 : (get al (some (py.lower k))).isNone = true := by rw [get_none h0]; rfl
      simp only [h1, h2, Bool.and_self, if_true]
      rw [set_new h0, ih _ hn.2]
      · simp [h1]
      · intro x hx
        simp only [List.map_append, List.map_cons, List.map_nil, List.mem_append, List.mem_singleton, Option.some.injEq, not_or]
        exact ⟨ha x (by simp [hx]), fun e => hn.1 (e ▸ List.mem_map_of_mem hx)⟩

/-- **C159**: with `EnumerationNoCase`, `from_str_lower` decodes exactly the strings that differ from a name only in the case of
letters, and the aliases. -/
theorem C159_no_case (py : Py) (hl : ∀ s, py.lower (py.lower s) = py.lower s) {d : Def} (h : d.OK) (hn : (d.decode.map fun p => py.lower p.1).Nodup)
    (ha : ∀ a n, (some a, n) ∈ d.aliases → ∀ p ∈ d.decode, py.lower p.1 ≠ a) :
    ∃ e, initNoCase py d = some e ∧ ∀ t v, e.fromStrLower py t = some v ↔
      (∃ n, (n, v) ∈ d.decode ∧ py.lower n = py.lower (strip py t)) ∨ ∃ n, (some (py.lower (strip py t)), n) ∈ d.aliases ∧ (n, v) ∈ d.decode := by
  have hn' : ((d.decode.map (·.1)).map py.lower).Nodup := by rw [List.map_map]; exact hn
  have hinj : ∀ m n v w, (m, v) ∈ d.decode → (n, w) ∈ d.decode → py.lower m = py.lower n → m = n ∧ v = w := by
    intro m n v w h1 h2 he
    have := List.inj_on_of_nodup_map hn h1 h2 he
    simpa using this
  have hal : ∀ k ∈ d.decode.map (·.1), some (py.lower k) ∉ d.aliases.map (·.1) := by
    intro k hk hm
    obtain ⟨p, hp, rfl⟩ := List.mem_map.mp hk
    obtain ⟨q, hq, hq'⟩ := List.mem_map.mp hm
    exact ha (py.lower p.1) q.2 (by rw [← hq']; exact hq) p hp rfl
  have e0 := noCase_fold py (d.decode.map (·.1)) d.aliases hn' hal
  unfold initNoCase
  rw [e0]
  have hmem : ∀ a n, (a, n) ∈ (((d.decode.map (·.1)).filter fun k => py.lower k != k).map fun k => (some (py.lower k), k)) ↔
      (∃ v, (n, v) ∈ d.decode) ∧ py.lower n ≠ n ∧ a = some (py.lower n) := by
    intro a n
    simp only [List.mem_map, List.mem_filter, bne_iff_ne, Prod.mk.injEq]
    constructor
    · rintro ⟨k, ⟨⟨p, hp, rfl⟩, hne⟩, rfl, rfl⟩
      exact ⟨⟨p.2, hp⟩, hne, rfl⟩
    · rintro ⟨⟨v, hv⟩, hne, rfl⟩
      exact ⟨n, ⟨⟨(n, v), hv, rfl⟩, hne⟩, rfl, rfl⟩
  have hOK : Def.OK { d with aliases := d.aliases ++ ((d.decode.map (·.1)).filter fun k => py.lower k != k).map fun k => (some (py.lower k), k) } := by
    refine ⟨h.names, h.values, ?_, ?_, ?_⟩
    · simp only [List.map_append, List.map_map]
      rw [List.nodup_append]
      refine ⟨h.aliases, ?_, ?_⟩
      · have h1 : (((d.decode.map (·.1)).filter fun k => py.lower k != k).map py.lower).Nodup :=
          hn'.sublist (List.filter_sublist.map py.lower)
        have h2 := h1.map (f := some) (fun a b e => by simpa using e)
        rw [List.map_map] at h2
        exact h2
      · intro a ha' b hb e
        subst e
        obtain ⟨k, hk, rfl⟩ := List.mem_map.mp hb
        exact hal k (List.mem_filter.mp hk).1 ha'
    · intro p hp
      rcases List.mem_append.mp hp with hp | hp
      · exact h.known p hp
      · exact ((hmem p.1 p.2).mp hp).1
    · intro a n hp v hv
      rcases List.mem_append.mp hp with hp | hp
      · exact h.other a n hp v hv
      · obtain ⟨⟨w, hw⟩, hne, e⟩ := (hmem _ _).mp hp
        simp only [Option.some.injEq] at e
        subst e
        exact hne (hinj _ _ v w hv hw (hl n)).1
  obtain ⟨e, h1, h2⟩ := C159_decode py hOK
  refine ⟨e, h1, fun t v => ?_⟩
  have h3 : e.fromStrLower py t = get e.decode (py.lower (strip py t)) := rfl
  have key : ∀ x, get e.decode x = some v ↔ Def.Names { d with aliases := d.aliases ++ ((d.decode.map (·.1)).filter fun k => py.lower k != k).map fun k => (some (py.lower k), k) } x v := by
    intro x
    have hD : ∀ n v, (n, v) ∈ d.decode → get d.decode n = some v := fun n v hm => (get_iff h.names n v).mpr hm
    obtain ⟨e', g1, _, g3, _⟩ := addAliases_spec d.decode _ ⟨d.decode, d.decode.foldl (fun m p => set m p.2 p.1) [], none⟩ hOK.aliases hD hOK.known hOK.other
    have : e' = e := by have := g1.symm.trans h1; simpa using this
    subst this
    rw [g3]
    unfold Def.Names
    simp only [get_iff h.names]
    constructor
    · rintro (⟨n, a1, a2⟩ | ⟨_, a⟩)
      · exact .inr ⟨n, a1, a2⟩
      · exact .inl a
    · rintro (a | ⟨n, a1, a2⟩)
      · exact .inr ⟨fun n hn => hOK.other x n hn v a, a⟩
      · exact .inl ⟨n, a1, a2⟩
  rw [h3, key]
  unfold Def.Names
  simp only [List.mem_append, hmem]
  constructor
  · rintro (a | ⟨n, (a | ⟨_, _, a⟩), b⟩)
    · exact .inl ⟨_, a, by rw [hl]⟩
    · exact .inr ⟨n, a, b⟩
    · simp only [Option.some.injEq] at a
      exact .inl ⟨n, b, a.symm⟩
  · rintro (⟨n, a, b⟩ | ⟨n, a, b⟩)
    · by_cases hne : py.lower n = n
      · exact .inl (by rw [← b, hne]; exact a)
      · exact .inr ⟨n, .inr ⟨⟨v, a⟩, hne, by rw [b]⟩, a⟩
    · exact .inr ⟨n, .inl a, b⟩

/-! ### dictionaries -/

/-- ASCII, for examples. -/
def ascii : Py := ⟨fun c => c == 32 || (9 ≤ c && c ≤ 13), fun s => s.map fun c => if 65 ≤ c ∧ c ≤ 90 then c + 32 else c⟩

/-- The enumeration `{'Ab': 1, 'Cd': 2}` with the default `Cd` and the alias `x` for `Ab`. -/
def exDef : Def := ⟨[([65, 98], 1), ([67, 100], 2)], [(none, [67, 100]), (some [120], [65, 98])]⟩

/-- **C159** (violation): `dict_from_str` keeps only the last of several words. -/
theorem C159_dict_from_str_violation : ∃ e, init exDef = some e ∧
    dictFromStr ascii (e.fromStr ascii) [65, 98, 32, 67, 100] = some [(2, [67, 100])] := by
  refine ⟨⟨[([65, 98], 1), ([67, 100], 2), ([120], 1)], [(1, [65, 98]), (2, [67, 100])], some 2⟩, by decide +kernel, by decide +kernel⟩

/-- **C159** (violation): `dict_from_str` of a string without words raises an exception. -/
theorem C159_dict_from_str_empty_violation (py : Py) (decoder : Str → Option Int) : dictFromStr py decoder [] = none := rfl

/-- **C159**: `dict_from_str` is right for one word. -/
theorem C159_dict_from_str_partial (py : Py) (decoder : Str → Option Int) {w : Str} (h : Word py w) :
    dictFromStr py decoder w = (decoder w).map fun v => [(v, w)] := by
  have hs : split py w = [w] := by
    have := splitAux_word (py := py) w [] [] h.2
    rw [List.append_nil, List.nil_append] at this
    rw [split, this, splitAux, if_neg h.1]
  unfold dictFromStr
  rw [hs]
  cases hd : decoder w with
  | none => simp [hd]
  | some v => simp [hd]

example : exDef.OK := by
  refine ⟨by decide, by decide, by decide, ?_, ?_⟩
  · intro p hp
    simp only [exDef, List.mem_cons, List.not_mem_nil, or_false] at hp ⊢
    rcases hp with rfl | rfl
    · exact ⟨2, .inr rfl⟩
    · exact ⟨1, .inl rfl⟩
  · intro a n hp v hv
    simp [exDef] at hp hv
    obtain ⟨rfl, rfl⟩ := hp
    simp at hv

example : ∃ e, init exDef = some e ∧ e.fromStr ascii [32, 120, 10] = some 1 ∧ e.toStr (some 1) = some [65, 98] ∧
    e.listToStr [2, 1] = some [67, 100, 32, 65, 98] := by
  refine ⟨⟨[([65, 98], 1), ([67, 100], 2), ([120], 1)], [(1, [65, 98]), (2, [67, 100])], some 2⟩, by decide +kernel, by decide +kernel, by decide +kernel, by decide +kernel⟩

end Verif.Xsd.Enum

import Verif.Uri.Escape
/-!
# Escaping: C18, C19 and the longest match of `parse_uric` (C39)

The specification is a grammar: a text is a sequence of items, each a literal character or an escape `%XX`.
-/
namespace Verif.Uri

/-! ### Specification -/

/-- A piece of a URI: a literal character, or an escape of two hexadecimal digits. -/
inductive Item
  | lit (c : Nat)
  | esc (h l : Nat)
deriving DecidableEq, Repr

/-- The text of an item. -/
def Item.text : Item → Str
  | .lit c => [c]
  | .esc h l => [37, h, l]

/-- The octet an item stands for. -/
def Item.octet : Item → Nat
  | .lit c => c
  | .esc h l => 16 * hexVal h + hexVal l

/-- The grammar: literals satisfy `p` and are not '%', escapes have hexadecimal digits. -/
def Item.Ok (p : Nat → Bool) : Item → Prop
  | .lit c => p c = true ∧ c ≠ 37
  | .esc h l => isHex h = true ∧ isHex l = true

instance (p : Nat → Bool) (i : Item) : Decidable (i.Ok p) := by
  cases i <;> simp only [Item.Ok] <;> infer_instance

/-- The text of a sequence of items. -/
def textOf (is : List Item) : Str := is.flatMap Item.text
/-- The octets of a sequence of items. -/
def octetsOf (is : List Item) : List Nat := is.map Item.octet

/-- A run of URI characters: `uric*` for the given set of literal characters. -/
def Uric (p : Nat → Bool) (s : Str) : Prop := ∃ is : List Item, (∀ i ∈ is, i.Ok p) ∧ textOf is = s

/-! ### Lemmas -/

theorem all_ascii (p : Nat → Bool) (h : ∀ c, c < 128 → p c = true) {c : Nat} (hc : c < 128) : p c = true := h c hc

theorem isHex_lt {c : Nat} (h : isHex c = true) : c < 128 := by
  simp [isHex, isDigit] at h; omega

theorem hexDigit_isHex {n : Nat} (h : n < 16) : isHex (hexDigit n) = true := by
  unfold hexDigit isHex isDigit
  split <;> simp <;> omega

theorem hexVal_hexDigit {n : Nat} (h : n < 16) : hexVal (hexDigit n) = n := by
  unfold hexDigit hexVal
  split
  · rw [if_pos (by omega)]; omega
  · rw [if_neg (by omega), if_pos (by omega)]; omega

/-- The digits 0-9A-F in order. -/
def upperDigits : Str := [48, 49, 50, 51, 52, 53, 54, 55, 56, 57, 65, 66, 67, 68, 69, 70]
/-- The digits 0-9a-f in order. -/
def lowerDigits : Str := [48, 49, 50, 51, 52, 53, 54, 55, 56, 57, 97, 98, 99, 100, 101, 102]

/-- C18, C19: the digits of escapes are the 22 hexadecimal digits with their usual values (upper case is written). -/
theorem C18_hex_digits :
    (∀ c, isHex c = true ↔ c ∈ upperDigits ∨ c ∈ lowerDigits) ∧
    (∀ i, i < 16 → upperDigits[i]?.map hexVal = some i ∧ lowerDigits[i]?.map hexVal = some i ∧
      upperDigits[i]? = some (hexDigit i)) := by
  refine ⟨fun c => ?_, by decide⟩
  by_cases h : c < 128
  · revert c; decide
  · constructor
    · intro hc; exact absurd (isHex_lt hc) h
    · intro hc
      exfalso; apply h
      rcases hc with hc | hc
      · exact (by decide : ∀ x ∈ upperDigits, x < 128) c hc
      · exact (by decide : ∀ x ∈ lowerDigits, x < 128) c hc

theorem hexVal_lt {c : Nat} (h : isHex c = true) : hexVal c < 16 := by
  simp [isHex, isDigit] at h
  unfold hexVal
  split
  · omega
  · split <;> omega

theorem percent_eq (n : Nat) : percent n = (Item.esc (hexDigit (n / 16)) (hexDigit (n % 16))).text := rfl

theorem percent_octet {n : Nat} (h : n < 256) : (Item.esc (hexDigit (n / 16)) (hexDigit (n % 16))).octet = n := by
  simp only [Item.octet]
  rw [hexVal_hexDigit (by omega), hexVal_hexDigit (by omega)]; omega

theorem percent_ok (p : Nat → Bool) {n : Nat} (h : n < 256) :
    (Item.esc (hexDigit (n / 16)) (hexDigit (n % 16))).Ok p :=
  ⟨hexDigit_isHex (by omega), hexDigit_isHex (by omega)⟩

/-- Unescaping a well-formed text gives the octets of its items. -/
theorem unescapeLoop_textOf (p : Nat → Bool) (is : List Item) (h : ∀ i ∈ is, i.Ok p) (rest : Str) :
    unescapeLoop .none (textOf is ++ rest) = octetsOf is ++ unescapeLoop .none rest := by
  induction is with
  | nil => rfl
  | cons i is ih =>
    have hi := h i (by simp)
    have ih := ih (fun j hj => h j (by simp [hj]))
    cases i with
    | lit c =>
      obtain ⟨-, hc⟩ := hi
      simp only [textOf, octetsOf, List.flatMap_cons, List.map_cons, Item.text, Item.octet, List.cons_append,
        List.nil_append, unescapeLoop, if_neg hc] at ih ⊢
      rw [ih]
    | esc a b =>
      obtain ⟨ha, hb⟩ := hi
      simp only [textOf, octetsOf, List.flatMap_cons, List.map_cons, Item.text, Item.octet, List.cons_append,
        List.nil_append, unescapeLoop, if_pos ha, if_pos hb, if_true] at ih ⊢
      rw [ih]

theorem uricLoop_textOf (p : Nat → Bool) (hp : p 37 = false) (is : List Item) (h : ∀ i ∈ is, i.Ok p) (n : Nat) (rest : Str) :
    uricLoop p .none n (textOf is ++ rest) = uricLoop p .none (n + (textOf is).length) rest := by
  induction is generalizing n with
  | nil => rfl
  | cons i is ih =>
    have hi := h i (by simp)
    have ih := ih (fun j hj => h j (by simp [hj]))
    cases i with
    | lit c =>
      obtain ⟨hc, -⟩ := hi
      simp only [textOf, List.flatMap_cons, Item.text, List.cons_append, List.nil_append, uricLoop, if_pos hc,
        List.length_cons] at ih ⊢
      rw [ih]; congr 1; omega
    | esc a b =>
      obtain ⟨ha, hb⟩ := hi
      simp only [textOf, List.flatMap_cons, Item.text, List.cons_append, List.nil_append, uricLoop, if_pos ha,
        if_pos hb, hp, Bool.false_eq_true, if_false, if_true, List.length_cons] at ih ⊢
      rw [ih]; congr 1; omega

/-- The loop stops exactly where the text stops being a run of URI characters. -/
theorem uricLoop_spec (p : Nat → Bool) (hp : p 37 = false) (s : Str) (n : Nat) :
    ∃ is : List Item, (∀ i ∈ is, i.Ok p) ∧ ∃ rest, s = textOf is ++ rest ∧
      uricLoop p .none n s = n + (textOf is).length ∧
      (∀ i : Item, i.Ok p → ¬ i.text <+: rest) := by
  induction hs : s.length using Nat.strongRecOn generalizing s n with
  | _ k ih =>
    subst hs
    match s with
    | [] =>
      refine ⟨[], by simp, [], rfl, rfl, ?_⟩
      intro i hi hpre
      cases i <;> simp [Item.text] at hpre
    | c :: r =>
      by_cases hc : p c = true
      · obtain ⟨is, h1, rest, h2, h3, h4⟩ := ih r.length (by simp) r (n + 1) rfl
        refine ⟨.lit c :: is, ?_, rest, ?_, ?_, h4⟩
        · intro i hi
          rcases List.mem_cons.1 hi with rfl | hi
          · exact ⟨hc, by rintro rfl; rw [hp] at hc; cases hc⟩
          · exact h1 i hi
        · rw [h2]; rfl
        · simp only [uricLoop, if_pos hc, h3, textOf, List.flatMap_cons, List.length_append, Item.text,
            List.length_cons, List.length_nil]; omega
      · have hc' : p c = false := by simpa using hc
        by_cases h37 : c = 37
        · subst h37
          match r with
          | [] =>
            refine ⟨[], by simp, [37], rfl, by simp [uricLoop, hp, textOf], ?_⟩
            intro i hi hpre
            cases i with
            | lit d => simp [Item.text] at hpre; exact hi.2 hpre
            | esc a b => simp [Item.text] at hpre
          | a :: r =>
            by_cases ha : isHex a = true
            · match r with
              | [] =>
                refine ⟨[], by simp, [37, a], rfl, by simp [uricLoop, hp, ha, textOf], ?_⟩
                intro i hi hpre
                cases i with
                | lit d => simp [Item.text] at hpre; exact hi.2 hpre
                | esc a' b => simp [Item.text] at hpre
              | b :: r =>
                by_cases hb : isHex b = true
                · obtain ⟨is, h1, rest, h2, h3, h4⟩ := ih r.length (by simp; omega) r (n + 3) rfl
                  refine ⟨.esc a b :: is, ?_, rest, ?_, ?_, h4⟩
                  · intro i hi
                    rcases List.mem_cons.1 hi with rfl | hi
                    · exact ⟨ha, hb⟩
                    · exact h1 i hi
                  · rw [h2]; rfl
                  · simp only [uricLoop, hp, ha, hb, h3, textOf, List.flatMap_cons, List.length_append, Item.text,
                      List.length_cons, List.length_nil, if_true, Bool.false_eq_true, if_false]; omega
                · refine ⟨[], by simp, 37 :: a :: b :: r, rfl, by simp [uricLoop, hp, ha, hb, textOf], ?_⟩
                  intro i hi hpre
                  cases i with
                  | lit d => simp [Item.text] at hpre; exact hi.2 hpre
                  | esc a' b' => simp [Item.text] at hpre; exact hb (hpre.2 ▸ hi.2)
            · refine ⟨[], by simp, 37 :: a :: r, rfl, by simp [uricLoop, hp, ha, textOf], ?_⟩
              intro i hi hpre
              cases i with
              | lit d => simp [Item.text] at hpre; exact hi.2 hpre
              | esc a' b' =>
                simp only [Item.text, List.cons_prefix_cons] at hpre
                exact ha (hpre.2.1 ▸ hi.1)
        · refine ⟨[], by simp, c :: r, rfl, by simp [uricLoop, hc', h37, textOf], ?_⟩
          intro i hi hpre
          cases i with
          | lit d => simp [Item.text] at hpre; subst hpre; exact hc hi.1
          | esc a b => simp [Item.text] at hpre; exact h37 hpre.1.symm

/-- The items of an escaped byte string. -/
def escItem (reserved allowed : Nat → Bool) (c : Nat) : Item :=
  if reserved c || !allowed c then .esc (hexDigit (c / 16)) (hexDigit (c % 16)) else .lit c

theorem escapeData_items (b : List Nat) (r a : Nat → Bool) : escapeData b r a = textOf (b.map (escItem r a)) := by
  unfold escapeData textOf
  rw [List.flatMap_map]
  congr 1
  funext c
  unfold escItem
  split <;> rfl

/-! ### C18 -/

/-- C18: unescaping an escaped byte string gives it back, for every reserved test, when the allowed set
consists of ASCII characters other than '%'. -/
theorem C18_round_trip (b : List Nat) (hb : ∀ x ∈ b, x < 256) (reserved allowed : Nat → Bool)
    (ha : ∀ c, allowed c = true → c < 128 ∧ c ≠ 37) :
    unescapeData (escapeData b reserved allowed) = some b := by
  have hok : ∀ i ∈ b.map (escItem reserved allowed), i.Ok allowed := by
    intro i hi
    obtain ⟨c, hc, rfl⟩ := List.mem_map.1 hi
    unfold escItem
    split
    · exact percent_ok _ (hb c hc)
    · rename_i h
      simp at h
      exact ⟨h.2, (ha c h.2).2⟩
  rw [escapeData_items, unescapeData, if_pos]
  · have := unescapeLoop_textOf allowed _ hok []
    rw [List.append_nil] at this
    rw [this]
    simp only [unescapeLoop, List.append_nil, octetsOf, List.map_map, Option.some.injEq]
    conv => rhs; rw [← List.map_id b]
    apply List.map_congr_left
    intro c hc
    simp only [Function.comp, escItem, id]
    split
    · exact percent_octet (hb c hc)
    · rfl
  · rw [List.all_eq_true]
    intro x hx
    simp only [textOf, List.mem_flatMap] at hx
    obtain ⟨i, hi, hx⟩ := hx
    have := hok i hi
    cases i with
    | lit c => simp [Item.text] at hx; subst hx; simp [(ha _ this.1).1]
    | esc h l =>
      simp [Item.text] at hx
      have h1 := isHex_lt this.1
      have h2 := isHex_lt this.2
      rcases hx with rfl | rfl | rfl <;> simp <;> assumption

/-- C18: what escaping leaves literal is allowed and not reserved; everything else is an escape `%XX`. -/
theorem C18_items (b : List Nat) (hb : ∀ x ∈ b, x < 256) (reserved allowed : Nat → Bool) (ha : allowed 37 = false) :
    Uric (fun c => allowed c && !reserved c) (escapeData b reserved allowed) := by
  refine ⟨b.map (escItem reserved allowed), ?_, (escapeData_items b reserved allowed).symm⟩
  intro i hi
  obtain ⟨c, hc, rfl⟩ := List.mem_map.1 hi
  unfold escItem
  split
  · exact percent_ok _ (hb c hc)
  · rename_i h
    simp at h
    refine ⟨by simp [h], ?_⟩
    rintro rfl
    rw [ha] at h
    simp at h

/-- C18: with the default allowed set and any reserved test the result is wholly accepted by `parse_uric`. -/
theorem C18_parse_uric (b : List Nat) (hb : ∀ x ∈ b, x < 256) (reserved : Nat → Bool) :
    parseUric (escapeData b reserved) = (escapeData b reserved).length := by
  obtain ⟨is, h1, h2⟩ := C18_items b hb reserved isAllowed rfl
  rw [← h2, parseUric, List.drop_zero]
  have := uricLoop_textOf isAllowed rfl is (fun i hi => by
    have := h1 i hi
    cases i with
    | lit c => exact ⟨by have := this.1; simp at this; exact this.1, this.2⟩
    | esc h l => exact this) 0 []
  rw [List.append_nil] at this
  rw [this]; simp [uricLoop]

theorem isAllowed_ascii (c : Nat) (h : isAllowed c = true) : c < 128 ∧ c ≠ 37 := by
  simp [isAllowed, isReserved, isUnreserved, isAlnum, isUpper, isLower, isDigit, isMark] at h
  omega

/-- The default classes meet the conditions: "a b%/é" is escaped and recovered. -/
example : unescapeData (escapeData [97, 32, 98, 37, 47, 195, 169]) = some [97, 32, 98, 37, 47, 195, 169] :=
  C18_round_trip _ (by decide) _ _ isAllowed_ascii
example : escapeData [97, 32, 47, 195] = [97, 37, 50, 48, 37, 50, 70, 37, 67, 51] := by decide

/-! ### C39: `parse_uric` finds the longest run of URI characters -/

/-- C39: the characters counted by `parse_uric` form a run of URI characters, and the run cannot be extended
by a further literal or escape. -/
theorem C39_parse_uric_run (s : Str) (pos : Nat) (allowed : Nat → Bool) (ha : allowed 37 = false) :
    Uric allowed ((s.drop pos).take (parseUric s pos allowed)) ∧
    (∀ i : Item, i.Ok allowed → ¬ i.text <+: s.drop (pos + parseUric s pos allowed)) := by
  obtain ⟨is, h1, rest, h2, h3, h4⟩ := uricLoop_spec allowed ha (s.drop pos) 0
  have hn : parseUric s pos allowed = (textOf is).length := by rw [parseUric, h3]; omega
  rw [hn]
  refine ⟨⟨is, h1, ?_⟩, ?_⟩
  · rw [h2]; simp
  · intro i hi
    have := h4 i hi
    rw [← List.drop_drop, h2]
    simpa using this

/-- C39: no longer prefix is a run of URI characters. -/
theorem C39_parse_uric_longest (s : Str) (pos : Nat) (allowed : Nat → Bool) (ha : allowed 37 = false) (n : Nat)
    (hn : n ≤ (s.drop pos).length) (h : Uric allowed ((s.drop pos).take n)) : n ≤ parseUric s pos allowed := by
  obtain ⟨is, h1, h2⟩ := h
  have e : s.drop pos = textOf is ++ (s.drop pos).drop n := by rw [h2, List.take_append_drop]
  have hl : (textOf is).length = n := by rw [h2, List.length_take]; omega
  rw [parseUric, e, uricLoop_textOf allowed ha is h1, hl]
  have : ∀ (m : Mode) (k : Nat) (t : Str), k ≤ uricLoop allowed m k t := by
    intro m k t
    induction t generalizing m k with
    | nil => cases m <;> simp [uricLoop]
    | cons c t ih =>
      cases m <;> simp only [uricLoop] <;> (repeat' split) <;>
        first
          | exact Nat.le_refl _
          | exact ih _ _
          | (refine Nat.le_trans ?_ (ih _ _); omega)
  have := this .none (0 + n) ((s.drop pos).drop n)
  omega

/-- "a%20b|c" has a run of five characters. -/
example : parseUric [97, 37, 50, 48, 98, 124, 99] = 5 := by decide

/-! ### C19 -/

/-- The canonical form of an item. -/
def canonItem (u a : Nat → Bool) : Item → Item
  | .lit c => if !a c then .esc (hexDigit (c / 16)) (hexDigit (c % 16)) else .lit c
  | .esc h l =>
    if u (16 * hexVal h + hexVal l) then .lit (16 * hexVal h + hexVal l)
    else .esc (hexDigit ((16 * hexVal h + hexVal l) / 16)) (hexDigit ((16 * hexVal h + hexVal l) % 16))

theorem canonicalizeLoop_items (u a : Nat → Bool) (is : List Item) (h : ∀ i ∈ is, i.Ok (fun _ => true)) :
    canonicalizeLoop u a (textOf is) = some (textOf (is.map (canonItem u a))) := by
  induction is with
  | nil => simp [textOf, canonicalizeLoop]
  | cons i is ih =>
    have hi := h i (by simp)
    have ih := ih (fun j hj => h j (by simp [hj]))
    cases i with
    | lit c =>
      have e : textOf (.lit c :: is) = c :: textOf is := rfl
      rw [e, canonicalizeLoop, if_neg hi.2, ih]
      simp only [Option.pure_def, Option.bind_eq_bind, Option.bind_some, List.map_cons, canonItem, textOf,
        List.flatMap_cons, Option.some.injEq]
      split <;> rfl
    | esc x y =>
      have e : textOf (.esc x y :: is) = 37 :: x :: y :: textOf is := rfl
      have hx : isHex x = true ∧ isHex y = true := hi
      rw [e, canonicalizeLoop]
      simp only [List.take_succ_cons, List.take_zero, List.drop_succ_cons, List.drop_zero, ih]
      simp only [List.take_succ_cons, List.take_zero, List.drop_succ_cons, List.drop_zero, ih, pyInt16, hx,
        Option.pure_def, Option.bind_eq_bind, Option.bind_some, List.map_cons, canonItem, textOf,
        List.flatMap_cons, if_true, and_self, Option.some.injEq]
      split <;> rfl

theorem textOf_ascii (is : List Item) (h : ∀ i ∈ is, i.Ok (fun _ => true)) (hl : (textOf is).all (· < 128) = true) :
    ∀ c, Item.lit c ∈ is → c < 128 := by
  intro c hc
  rw [List.all_eq_true] at hl
  have := hl c (by simp only [textOf, List.mem_flatMap]; exact ⟨_, hc, by simp [Item.text]⟩)
  simpa using this

theorem hexPair_lt {x y : Nat} (hx : isHex x = true) (hy : isHex y = true) : 16 * hexVal x + hexVal y < 256 := by
  have := hexVal_lt hx
  have := hexVal_lt hy
  omega

/-- Escapes are well formed: every '%' is followed by two hexadecimal digits. -/
def WellEscaped (s : Str) : Prop := Uric (fun _ => true) s

theorem canonItems_spec (u a : Nat → Bool) (hu : ∀ c, u c = true → a c = true ∧ c < 128 ∧ c ≠ 37)
    (is : List Item) (h : ∀ i ∈ is, i.Ok (fun _ => true)) (hl : (textOf is).all (· < 128) = true) :
    (∀ i ∈ is.map (canonItem u a), i.Ok a) ∧
    octetsOf (is.map (canonItem u a)) = octetsOf is ∧
    (is.map (canonItem u a)).map (canonItem u a) = is.map (canonItem u a) := by
  have key : ∀ i ∈ is, (canonItem u a i).Ok a ∧ (canonItem u a i).octet = i.octet ∧
      canonItem u a (canonItem u a i) = canonItem u a i := by
    intro i hi
    have hok := h i hi
    cases i with
    | lit c =>
      have hc := textOf_ascii is h hl c hi
      by_cases hac : a c = true
      · have e : canonItem u a (.lit c) = .lit c := by simp [canonItem, hac]
        rw [e, e]; exact ⟨⟨hac, hok.2⟩, rfl, rfl⟩
      · have hac : a c = false := by simpa using hac
        have huc : u c = false := by
          cases hh : u c with
          | false => rfl
          | true => have := (hu c hh).1; rw [hac] at this; cases this
        have e : canonItem u a (.lit c) = .esc (hexDigit (c / 16)) (hexDigit (c % 16)) := by simp [canonItem, hac]
        have o := percent_octet (n := c) (by omega)
        simp only [Item.octet] at o
        rw [e]
        refine ⟨percent_ok _ (by omega), o, ?_⟩
        simp only [canonItem, o, huc, Bool.false_eq_true, if_false]
    | esc x y =>
      have hxy := hexPair_lt hok.1 hok.2
      by_cases huv : u (16 * hexVal x + hexVal y) = true
      · have e : canonItem u a (.esc x y) = .lit (16 * hexVal x + hexVal y) := by simp [canonItem, huv]
        obtain ⟨q1, q2, q3⟩ := hu _ huv
        rw [e]
        refine ⟨⟨q1, q3⟩, rfl, ?_⟩
        simp [canonItem, q1]
      · have huv : u (16 * hexVal x + hexVal y) = false := by simpa using huv
        have e : canonItem u a (.esc x y) = .esc (hexDigit ((16 * hexVal x + hexVal y) / 16))
            (hexDigit ((16 * hexVal x + hexVal y) % 16)) := by simp [canonItem, huv]
        have o := percent_octet hxy
        simp only [Item.octet] at o
        rw [e]
        refine ⟨percent_ok _ hxy, o, ?_⟩
        simp only [canonItem, o, huv, Bool.false_eq_true, if_false]
  refine ⟨?_, ?_, ?_⟩
  · intro i hi
    obtain ⟨j, hj, rfl⟩ := List.mem_map.1 hi
    exact (key j hj).1
  · simp only [octetsOf, List.map_map]
    exact List.map_congr_left fun j hj => (key j hj).2.1
  · rw [List.map_map]
    exact List.map_congr_left fun j hj => (key j hj).2.2

/-- C19: on every ASCII text with well formed escapes, `canonicalize_data` returns a text which consists of
allowed characters and escapes, denotes the same octets, and is its own canonical form.  The tests can be any
with the unreserved characters among the allowed ones (ASCII, not '%'). -/
theorem C19_canonicalize (s : Str) (hs : WellEscaped s) (hascii : ∀ c ∈ s, c < 128) (unreserved allowed : Nat → Bool)
    (hu : ∀ c, unreserved c = true → allowed c = true ∧ c < 128 ∧ c ≠ 37) :
    ∃ t, canonicalizeData s unreserved allowed = some t ∧
      (∃ o, unescapeData s = some o ∧ ((∀ c, allowed c = true → c < 128) → unescapeData t = some o)) ∧
      Uric allowed t ∧
      ((∀ c, allowed c = true → c < 128) → canonicalizeData t unreserved allowed = some t) := by
  obtain ⟨is, h1, rfl⟩ := hs
  have hl : (textOf is).all (· < 128) = true := by
    rw [List.all_eq_true]; intro c hc; simpa using hascii c hc
  obtain ⟨k1, k2, k3⟩ := canonItems_spec unreserved allowed hu is h1 hl
  have hasc : (∀ c, allowed c = true → c < 128) →
      (textOf (is.map (canonItem unreserved allowed))).all (· < 128) = true := by
    intro ha
    rw [List.all_eq_true]
    intro x hx
    simp only [textOf, List.mem_flatMap] at hx
    obtain ⟨i, hi, hx⟩ := hx
    have := k1 i hi
    cases i with
    | lit c => simp [Item.text] at hx; subst hx; simp [ha _ this.1]
    | esc h l =>
      simp [Item.text] at hx
      have h1 := isHex_lt this.1
      have h2 := isHex_lt this.2
      rcases hx with rfl | rfl | rfl <;> simp <;> assumption
  have hok' : ∀ i ∈ is.map (canonItem unreserved allowed), i.Ok (fun _ => true) := by
    intro i hi
    have := k1 i hi
    cases i with
    | lit c => exact ⟨rfl, this.2⟩
    | esc x y => exact this
  refine ⟨_, by rw [canonicalizeData, if_pos hl, canonicalizeLoop_items _ _ _ h1], ⟨octetsOf is, ?_, ?_⟩,
    ⟨_, k1, rfl⟩, ?_⟩
  · have := unescapeLoop_textOf _ is h1 []
    rw [List.append_nil] at this
    rw [unescapeData, if_pos hl, this]; simp [unescapeLoop]
  · intro ha
    have := unescapeLoop_textOf _ _ hok' []
    rw [List.append_nil] at this
    rw [unescapeData, if_pos (hasc ha), this, k2]; simp [unescapeLoop]
  · intro ha
    rw [canonicalizeData, if_pos (hasc ha), canonicalizeLoop_items _ _ _ hok', k3]

theorem isUnreserved_ok (c : Nat) (h : isUnreserved c = true) : isAllowed c = true ∧ c < 128 ∧ c ≠ 37 := by
  have h1 : isAllowed c = true := by simp [isAllowed, h]
  exact ⟨h1, isAllowed_ascii c h1⟩

/-- C19 for the default tests. -/
theorem C19_default (s : Str) (hs : WellEscaped s) (hascii : ∀ c ∈ s, c < 128) :
    ∃ t, canonicalizeData s = some t ∧ canonicalizeData t = some t ∧ unescapeData t = unescapeData s ∧
      Uric isAllowed t := by
  obtain ⟨t, h1, ⟨o, h2, h3⟩, h4, h5⟩ := C19_canonicalize s hs hascii isUnreserved isAllowed isUnreserved_ok
  have ha := fun c h => (isAllowed_ascii c h).1
  exact ⟨t, h1, h5 ha, by rw [h3 ha, h2], h4⟩

/-- C19: two texts with well formed escapes whose items agree up to escaping of unreserved characters have the
same canonical form; in particular a literal unreserved character and its escapes. -/
theorem C19_unreserved_escape (x y : Nat) (hx : isHex x = true) (hy : isHex y = true)
    (h : isUnreserved (16 * hexVal x + hexVal y) = true) :
    canonicalizeData [37, x, y] = canonicalizeData [16 * hexVal x + hexVal y] := by
  obtain ⟨h1, h2, h3⟩ := isUnreserved_ok _ h
  have a1 : ([37, x, y] : Str).all (· < 128) = true := by simp [isHex_lt hx, isHex_lt hy]
  have a2 : ([16 * hexVal x + hexVal y] : Str).all (· < 128) = true := by simp [h2]
  rw [canonicalizeData, canonicalizeData, if_pos a1, if_pos a2]
  have e1 := canonicalizeLoop_items isUnreserved isAllowed [.esc x y] (by simp; exact ⟨hx, hy⟩)
  have e2 := canonicalizeLoop_items isUnreserved isAllowed [.lit (16 * hexVal x + hexVal y)] (by simp; exact ⟨rfl, h3⟩)
  refine (show _ = _ from e1).trans (Eq.trans ?_ (show _ = _ from e2).symm)
  simp [canonItem, h, h1]

/-- "%7euser%2f%2F" becomes "~user%2F%2F". -/
example : canonicalizeData [37, 55, 101, 117, 37, 50, 102, 37, 50, 70] = some [126, 117, 37, 50, 70, 37, 50, 70] := by
  decide +kernel
example : WellEscaped [37, 55, 101, 117, 37, 50, 102] :=
  ⟨[.esc 55 101, .lit 117, .esc 50 102], by decide, rfl⟩

/-- Outside well formed escapes the claim fails: "%+1" is read as the octet 1, though it is three literal
octets for `unescape_data`. -/
theorem C19_malformed_violation :
    canonicalizeData [37, 43, 49] = some [37, 48, 49] ∧
    unescapeData [37, 43, 49] = some [37, 43, 49] ∧ unescapeData [37, 48, 49] = some [1] := by
  decide +kernel

end Verif.Uri

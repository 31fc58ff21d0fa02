import Verif.CharClass.Cache
import Mathlib.Tactic.ByContra
/-!
# The text of a character class, `CharClass.__unicode__`, `pyslet/unicode5.py:211-300`

The text is used in regular expressions of Python's `re`; the part of the syntax of `re` that is needed to read it
is given here as a specification (`pyAtom`).
-/
namespace Verif.CharClass

abbrev Str := List Nat

/-- `_set_controls`, unicode5.py:211-218. -/
def setControl (c : Nat) : Option Str :=
  if c = 7 then some [92, 97] else if c = 8 then some [92, 98] else if c = 9 then some [92, 116]
  else if c = 10 then some [92, 110] else if c = 11 then some [92, 118] else if c = 12 then some [92, 102]
  else if c = 13 then some [92, 114] else none

/-- `_set_escape`, unicode5.py:220-229. -/
def setEscape (c : Nat) : Str :=
  if c = 45 ∨ c = 92 ∨ c = 93 then [92, c] else (setControl c).getD [c]

/-- `_re_controls`, unicode5.py:231-237. -/
def reControl (c : Nat) : Option Str :=
  if c = 7 then some [92, 97] else if c = 9 then some [92, 116]
  else if c = 10 then some [92, 110] else if c = 11 then some [92, 118] else if c = 12 then some [92, 102]
  else if c = 13 then some [92, 114] else none

/-- `_re_escapes`, unicode5.py:238. -/
def reEscapes : List Nat := [46, 94, 36, 42, 43, 63, 123, 125, 92, 91, 93, 124, 40, 41]

/-- `_re_escape`, unicode5.py:240-246. -/
def reEscape (c : Nat) : Str := if c ∈ reEscapes then [92, c] else (reControl c).getD [c]

/-- `result in dict_values(self._re_controls)`, unicode5.py:268. -/
def isReControl (s : Str) : Bool := [[92, 97], [92, 116], [92, 110], [92, 118], [92, 102], [92, 114]].contains s

/-- `_empty_range`, unicode5.py:248. -/
def emptyRange : Str := [91, 94, 92, 120, 48, 48, 45, maxunicode, 93]

/-- `r0`, unicode5.py:281-285. -/
def lowOf (r : Range) : Nat := if r.1 = 94 then 95 else r.1

/-- What one range contributes to the set, unicode5.py:280-297. -/
def itemText (r : Range) : Str :=
  if lowOf r > r.2 then []
  else if lowOf r = r.2 then setEscape (lowOf r)
  else if lowOf r + 1 = r.2 then setEscape (lowOf r) ++ setEscape r.2
  else setEscape (lowOf r) ++ 45 :: setEscape r.2

/-- The text between the brackets, unicode5.py:279-300. -/
def setBody (rs : List Range) : Str := rs.flatMap itemText ++ (if rs.any (·.1 == 94) then [94] else [])

/-- `__unicode__` for a class that does not contain the last character, unicode5.py:251-256, 274-300. -/
def plainText (rs : List Range) : Str :=
  match rs with
  | [] => emptyRange
  | [r] => if r.1 = r.2 then reEscape r.1 else 91 :: setBody [r] ++ [93]
  | rs => 91 :: setBody rs ++ [93]

/-- The text of a negated class made from the text of the class, unicode5.py:262-273. -/
def negText (result : Str) : Str :=
  match result with
  | 91 :: r => [91, 94] ++ r.dropLast ++ [93]
  | 92 :: r =>
    if result = [92, 93] then [91, 94, 92, 93, 93]
    else if isReControl result then [91, 94] ++ result ++ [93]
    else [91, 94] ++ r.take 1 ++ [93]
  | result => [91, 94] ++ result ++ [93]

/-- `CharClass.__unicode__`, unicode5.py:250-300.  The class negated in line 259-260 does not contain the last
character (`negate_last` below), so its text is never itself made by negation. -/
def classText (rs : List Range) : Str :=
  match rs.getLast? with
  | some r => if r.2 = maxunicode then negText (plainText (negate rs)) else plainText rs
  | none => plainText rs

/-! ### specification: how Python's `re` reads an atom -/

/-- The value of a hexadecimal digit. -/
def pyHex (c : Nat) : Option Nat :=
  if 48 ≤ c ∧ c ≤ 57 then some (c - 48) else if 65 ≤ c ∧ c ≤ 70 then some (c - 55)
  else if 97 ≤ c ∧ c ≤ 102 then some (c - 87) else none

/-- ASCII letters and digits: after a backslash they have special meanings. -/
def alnum (c : Nat) : Bool := (48 ≤ c && c ≤ 57) || (65 ≤ c && c ≤ 90) || (97 ≤ c && c ≤ 122)

/-- The character an escape in a set stands for, given the text after the backslash (escapes that stand for a class
or are errors give `none`). -/
def pySetEscape : Str → Option (Nat × Str)
  | [] => none
  | c :: r =>
    if c = 97 then some (7, r) else if c = 98 then some (8, r) else if c = 102 then some (12, r)
    else if c = 110 then some (10, r) else if c = 114 then some (13, r) else if c = 116 then some (9, r)
    else if c = 118 then some (11, r)
    else if c = 120 then
      match r with
      | a :: b :: r => match pyHex a, pyHex b with
        | some x, some y => some (16 * x + y, r)
        | _, _ => none
      | _ => none
    else if alnum c then none
    else some (c, r)

/-- One character of a set. -/
def pyItem : Str → Option (Nat × Str)
  | [] => none
  | c :: r => if c = 92 then pySetEscape r else some (c, r)

/-- The items of a set up to its closing bracket; the first argument bounds the number of items, the second tells
whether this is the first item (a `]` is then an ordinary character). -/
def pySet : Nat → Bool → List Range → Str → Option (List Range × Str)
  | 0, _, _, _ => none
  | n + 1, first, acc, s =>
    if !first && s.head? == some 93 then some (acc, s.tail)
    else match pyItem s with
      | none => none
      | some (a, r) =>
        if r.head? == some 45 then
          if r.tail.head? == some 93 then some (acc ++ [(a, a), (45, 45)], r.tail.tail)
          else match pyItem r.tail with
            | none => none
            | some (b, r) => if b < a then none else pySet n false (acc ++ [(a, b)]) r
        else pySet n false (acc ++ [(a, a)]) r

/-- What an atom that matches one character matches. -/
structure PyAtom where
  neg : Bool
  items : List Range
  deriving DecidableEq, Repr

/-- The atom matches the character. -/
def PyAtom.Matches (a : PyAtom) (c : Nat) : Prop := if a.neg then ¬ Mem a.items c else Mem a.items c

/-- Characters that are not atoms by themselves. -/
def pySpecial : List Nat := [46, 94, 36, 42, 43, 63, 123, 92, 91, 124, 40, 41]

/-- The atom at the beginning of a pattern, if it is one that matches a single character out of a set, and what
follows it. -/
def pyAtom : Str → Option (PyAtom × Str)
  | [] => none
  | 91 :: 94 :: s => (pySet (s.length + 1) true [] s).map fun p => (⟨true, p.1⟩, p.2)
  | 91 :: s => (pySet (s.length + 1) true [] s).map fun p => (⟨false, p.1⟩, p.2)
  | 92 :: c :: s =>
    if c = 98 then none else (pySetEscape (c :: s)).map fun p => (⟨false, [(p.1, p.1)]⟩, p.2)
  | c :: s => if c ∈ pySpecial then none else some (⟨false, [(c, c)]⟩, s)

/-! ### reading sets -/

theorem setControl_cases (c : Nat) : setControl c = none ∨ ∃ x, setControl c = some [92, x] ∧ (x = 97 ∨ x = 98 ∨ x = 116 ∨ x = 110 ∨ x = 118 ∨ x = 102 ∨ x = 114) ∧
    ∀ t, pySetEscape (x :: t) = some (c, t) := by
  unfold setControl
  repeat' split
  all_goals first
    | exact .inl rfl
    | (rename_i h; subst h; exact .inr ⟨_, rfl, by decide, fun t => rfl⟩)

theorem pyItem_setEscape (c : Nat) (t : Str) : pyItem (setEscape c ++ t) = some (c, t) := by
  unfold setEscape
  split
  · next h =>
    simp only [List.cons_append, List.nil_append, pyItem, if_true]
    rcases h with rfl | rfl | rfl <;> rfl
  · next h =>
    rcases setControl_cases c with h1 | ⟨x, h1, _, h3⟩
    · simp only [h1, Option.getD_none, List.cons_append, List.nil_append, pyItem]
      rw [if_neg (by omega)]
    · simp only [h1, Option.getD_some, List.cons_append, List.nil_append, pyItem, if_true]
      exact h3 t

theorem setEscape_head (c : Nat) : ∃ x r, setEscape c = x :: r ∧ x ≠ 45 ∧ x ≠ 93 ∧ (c ≠ 94 → x ≠ 94) := by
  unfold setEscape
  split
  · exact ⟨92, [c], rfl, by decide, by decide, fun _ => by decide⟩
  · next h =>
    rcases setControl_cases c with h1 | ⟨x, h1, _⟩
    · exact ⟨c, [], by rw [h1]; rfl, by omega, by omega, id⟩
    · exact ⟨92, [x], by rw [h1]; rfl, by decide, by decide, fun _ => by decide⟩

theorem pySet_single {n : Nat} {first : Bool} {acc : List Range} {c : Nat} {t : Str} (ht : t.head? ≠ some 45) :
    pySet (n + 1) first acc (setEscape c ++ t) = pySet n false (acc ++ [(c, c)]) t := by
  obtain ⟨x, r, hx, _, h93, _⟩ := setEscape_head c
  rw [pySet]
  rw [if_neg (by rw [hx]; simp [h93]), pyItem_setEscape]
  dsimp only
  rw [if_neg (by simpa using ht)]

theorem pySet_range {n : Nat} {first : Bool} {acc : List Range} {a b : Nat} {t : Str} (hab : a ≤ b) :
    pySet (n + 1) first acc (setEscape a ++ 45 :: (setEscape b ++ t)) = pySet n false (acc ++ [(a, b)]) t := by
  obtain ⟨x, r, hx, _, h93, _⟩ := setEscape_head a
  obtain ⟨y, r', hy, _, h93', _⟩ := setEscape_head b
  rw [pySet]
  rw [if_neg (by rw [hx]; simp [h93]), pyItem_setEscape]
  dsimp only
  rw [if_pos (by simp)]
  rw [if_neg (by rw [List.tail_cons, hy]; simp [h93']), List.tail_cons, pyItem_setEscape]
  dsimp only
  rw [if_neg (by omega)]

/-- The items read from the text of one range. -/
def itemsOf (r : Range) : List Range :=
  if lowOf r > r.2 then []
  else if lowOf r = r.2 then [(lowOf r, lowOf r)]
  else if lowOf r + 1 = r.2 then [(lowOf r, lowOf r), (r.2, r.2)]
  else [(lowOf r, r.2)]

theorem itemText_head (r : Range) (t : Str) (h45 : t.head? ≠ some 45) : (itemText r ++ t).head? ≠ some 45 := by
  have key : ∀ (c : Nat) (u : Str), (setEscape c ++ u).head? ≠ some 45 := by
    intro c u
    obtain ⟨x, q, hx, h, _⟩ := setEscape_head c
    rw [hx]; simpa using h
  unfold itemText
  repeat' split
  · simpa using h45
  · exact key _ _
  · rw [List.append_assoc]; exact key _ _
  · rw [List.append_assoc]; exact key _ _

theorem body_head (rs : List Range) (t : Str) (h45 : t.head? ≠ some 45) : (rs.flatMap itemText ++ t).head? ≠ some 45 := by
  induction rs with
  | nil => simpa using h45
  | cons r rs ih =>
    rw [List.flatMap_cons, List.append_assoc]
    exact itemText_head r _ ih

theorem setEscape_length (c : Nat) : 1 ≤ (setEscape c).length := by
  obtain ⟨x, q, hx, _⟩ := setEscape_head c
  rw [hx]; simp

theorem pySet_item {r : Range} {n : Nat} {first : Bool} {acc : List Range} {t : Str} (ht : t.head? ≠ some 45)
    (hn : (itemText r ++ t).length < n) : ∃ n', t.length < n' ∧
      pySet n first acc (itemText r ++ t) = pySet n' (first && (itemText r).isEmpty) (acc ++ itemsOf r) t := by
  have l1 := setEscape_length (lowOf r)
  have l2 := setEscape_length r.2
  have hemp : ∀ (c : Nat) (u : Str), (setEscape c ++ u).isEmpty = false := by
    intro c u
    obtain ⟨x, q, hx, _⟩ := setEscape_head c
    rw [hx]; rfl
  unfold itemText at hn
  unfold itemText itemsOf
  by_cases h1 : lowOf r > r.2
  · simp only [h1, if_true, List.nil_append, List.append_nil] at hn ⊢
    exact ⟨n, hn, by simp⟩
  · simp only [h1, if_false] at hn ⊢
    by_cases h2 : lowOf r = r.2
    · simp only [h2, if_true, List.length_append] at hn ⊢
      obtain ⟨n, rfl⟩ : ∃ k, n = k + 1 := ⟨n - 1, by omega⟩
      refine ⟨n, by omega, ?_⟩
      rw [pySet_single ht]
      have := hemp r.2 []
      rw [List.append_nil] at this
      simp [this]
    · simp only [h2, if_false] at hn ⊢
      by_cases h3 : lowOf r + 1 = r.2
      · simp only [h3, if_true, List.length_append] at hn ⊢
        obtain ⟨n, rfl⟩ : ∃ k, n = k + 2 := ⟨n - 2, by omega⟩
        refine ⟨n, by omega, ?_⟩
        obtain ⟨x, q, hx, h45, _⟩ := setEscape_head r.2
        rw [List.append_assoc, pySet_single (by rw [hx]; simpa using h45), pySet_single ht]
        simp [hemp]
      · simp only [h3, if_false, List.length_append, List.length_cons] at hn ⊢
        obtain ⟨n, rfl⟩ : ∃ k, n = k + 1 := ⟨n - 1, by omega⟩
        refine ⟨n, by omega, ?_⟩
        rw [List.append_assoc, List.cons_append, pySet_range (by omega)]
        simp [hemp]

theorem pySet_items (rs : List Range) : ∀ (n : Nat) (first : Bool) (acc : List Range) (t : Str), t.head? ≠ some 45 →
    (rs.flatMap itemText ++ t).length < n → ∃ n', t.length < n' ∧
      pySet n first acc (rs.flatMap itemText ++ t) = pySet n' (first && (rs.flatMap itemText).isEmpty) (acc ++ rs.flatMap itemsOf) t := by
  induction rs with
  | nil =>
    intro n first acc t _ hn
    exact ⟨n, by simpa using hn, by simp⟩
  | cons r rs ih =>
    intro n first acc t ht hn
    rw [List.flatMap_cons, List.append_assoc] at hn ⊢
    obtain ⟨n1, h1, e1⟩ := pySet_item (first := first) (acc := acc) (body_head rs t ht) hn
    obtain ⟨n2, h2, e2⟩ := ih n1 (first && (itemText r).isEmpty) (acc ++ itemsOf r) t ht h1
    refine ⟨n2, h2, ?_⟩
    rw [e1, e2]
    congr 1
    · rw [Bool.and_assoc]
      congr 1
      cases itemText r <;> simp
    · simp

/-- The items of the whole set. -/
def bodyItems (rs : List Range) : List Range := rs.flatMap itemsOf ++ (if rs.any (·.1 == 94) then [(94, 94)] else [])

theorem pySet_body (rs : List Range) (n : Nat) (rest : Str) (h0 : setBody rs ≠ []) (hn : (setBody rs ++ 93 :: rest).length < n) :
    pySet n true [] (setBody rs ++ 93 :: rest) = some (bodyItems rs, rest) := by
  unfold setBody at *
  unfold bodyItems
  by_cases hc : rs.any (·.1 == 94) = true
  · simp only [hc, if_true, List.append_assoc, List.cons_append, List.nil_append] at *
    obtain ⟨n1, h1, e1⟩ := pySet_items rs n true [] (94 :: 93 :: rest) (by simp) hn
    simp only [List.length_cons] at h1
    obtain ⟨n1, rfl⟩ : ∃ k, n1 = k + 2 := ⟨n1 - 2, by omega⟩
    rw [e1, pySet, if_neg (by simp)]
    simp only [pyItem]
    rw [if_neg (by decide)]
    dsimp only
    rw [if_neg (by simp), pySet, if_pos (by simp)]
    simp
  · simp only [hc, Bool.false_eq_true, if_false, List.append_nil] at *
    obtain ⟨n1, h1, e1⟩ := pySet_items rs n true [] (93 :: rest) (by simp) hn
    simp only [List.length_cons] at h1
    obtain ⟨n1, rfl⟩ : ∃ k, n1 = k + 1 := ⟨n1 - 1, by omega⟩
    have he : (rs.flatMap itemText).isEmpty = false := by simpa using h0
    rw [e1, pySet, if_pos (by simp [he])]
    simp

theorem mem_itemsOf {r : Range} (c : Nat) : Mem (itemsOf r) c ↔ lowOf r ≤ c ∧ c ≤ r.2 := by
  unfold itemsOf
  repeat' split
  · next h =>
    simp only [Mem, List.not_mem_nil, false_and, exists_false, false_iff]
    omega
  all_goals simp only [Mem, List.mem_cons, List.not_mem_nil, or_false, exists_eq_left, exists_eq_or_imp]
  all_goals omega

theorem mem_flatMap {rs : List Range} (f : Range → List Range) (c : Nat) : Mem (rs.flatMap f) c ↔ ∃ r ∈ rs, Mem (f r) c := by
  simp only [Mem, List.mem_flatMap]
  constructor
  · rintro ⟨x, ⟨r, hr, hx⟩, h⟩; exact ⟨r, hr, x, hx, h⟩
  · rintro ⟨r, hr, x, hx, h⟩; exact ⟨x, ⟨r, hr, hx⟩, h⟩

theorem mem_bodyItems {rs : List Range} (h : ∀ r ∈ rs, r.1 ≤ r.2) (c : Nat) : Mem (bodyItems rs) c ↔ Mem rs c := by
  unfold bodyItems
  rw [mem_append, mem_flatMap]
  have hc : Mem (if rs.any (·.1 == 94) then [(94, 94)] else []) c ↔ c = 94 ∧ ∃ r ∈ rs, r.1 = 94 := by
    by_cases ha : rs.any (·.1 == 94) = true
    · rw [if_pos ha]
      simp only [List.any_eq_true, beq_iff_eq] at ha
      simp only [Mem, List.mem_cons, List.not_mem_nil, or_false, exists_eq_left]
      constructor
      · intro hh; exact ⟨by omega, ha⟩
      · rintro ⟨rfl, _⟩; omega
    · rw [if_neg ha]
      simp only [List.any_eq_true, beq_iff_eq] at ha
      simp only [Mem, List.not_mem_nil, false_and, exists_false, false_iff]
      rintro ⟨_, hh⟩; exact ha hh
  rw [hc]
  constructor
  · rintro (⟨r, hr, hm⟩ | ⟨rfl, r, hr, h94⟩)
    · rw [mem_itemsOf] at hm
      refine ⟨r, hr, ?_, hm.2⟩
      have := hm.1
      unfold lowOf at this
      split at this <;> omega
    · exact ⟨r, hr, by omega, by have := h r hr; omega⟩
  · rintro ⟨r, hr, h1, h2⟩
    by_cases h94 : r.1 = 94
    · by_cases hc94 : c = 94
      · exact .inr ⟨hc94, r, hr, h94⟩
      · refine .inl ⟨r, hr, (mem_itemsOf c).mpr ⟨?_, h2⟩⟩
        unfold lowOf; rw [if_pos h94]; omega
    · refine .inl ⟨r, hr, (mem_itemsOf c).mpr ⟨?_, h2⟩⟩
      unfold lowOf; rw [if_neg h94]; exact h1

theorem itemText_first {r : Range} (h : itemText r ≠ []) : ∃ x q, itemText r = x :: q ∧ x ≠ 94 := by
  have hl : lowOf r ≠ 94 := by unfold lowOf; split <;> omega
  have key : ∀ u, ∃ x q, setEscape (lowOf r) ++ u = x :: q ∧ x ≠ 94 := by
    intro u
    obtain ⟨x, q, hx, _, _, h94⟩ := setEscape_head (lowOf r)
    exact ⟨x, q ++ u, by rw [hx]; rfl, h94 hl⟩
  unfold itemText at *
  repeat' split
  · simp_all
  · have := key []; simpa using this
  · exact key _
  · exact key _

theorem flatMap_first : ∀ {rs : List Range}, rs.flatMap itemText ≠ [] → ∃ x q, rs.flatMap itemText = x :: q ∧ x ≠ 94 := by
  intro rs
  induction rs with
  | nil => intro h; exact absurd rfl h
  | cons r rs ih =>
    intro h
    rw [List.flatMap_cons] at h ⊢
    by_cases he : itemText r = []
    · rw [he, List.nil_append] at h ⊢
      exact ih h
    · obtain ⟨x, q, hx, h94⟩ := itemText_first he
      exact ⟨x, _, by rw [hx]; rfl, h94⟩

theorem itemText_nil {r : Range} (h : r.1 ≤ r.2) (he : itemText r = []) : r = (94, 94) := by
  have key : ∀ c u, setEscape c ++ u ≠ [] := by
    intro c u
    obtain ⟨x, q, hx, _⟩ := setEscape_head c
    rw [hx]; simp
  unfold itemText at he
  repeat' split at he
  · next hh =>
    unfold lowOf at hh
    split at hh
    · next h1 => exact Prod.ext h1 (show r.2 = 94 by omega)
    · omega
  · have := key (lowOf r) []; rw [List.append_nil] at this; exact absurd he this
  · exact absurd he (key _ _)
  · exact absurd he (key _ _)

theorem canon_items {rs : List Range} (h : Canon rs) (h0 : rs ≠ []) (h1 : ∀ c, rs ≠ [(c, c)]) : rs.flatMap itemText ≠ [] := by
  intro he
  rw [List.flatMap_eq_nil_iff] at he
  have hall : ∀ r ∈ rs, r = (94, 94) := fun r hr => itemText_nil (h.1 r hr) (he r hr)
  cases rs with
  | nil => exact h0 rfl
  | cons r rs =>
    have hr := hall r (by simp)
    cases rs with
    | nil => exact h1 94 (by rw [hr])
    | cons s rs =>
      have hs := hall s (by simp)
      have := List.rel_of_pairwise_cons h.2 (List.mem_cons_self (a := s) (l := rs))
      rw [hr, hs] at this
      omega

theorem reEscape_read (c : Nat) (rest : Str) : pyAtom (reEscape c ++ rest) = some (⟨false, [(c, c)]⟩, rest) := by
  unfold reEscape
  split
  · next h =>
    simp only [reEscapes, List.mem_cons, List.not_mem_nil, or_false] at h
    rcases h with rfl | rfl | rfl | rfl | rfl | rfl | rfl | rfl | rfl | rfl | rfl | rfl | rfl | rfl <;> rfl
  · next h =>
    have hn : ∀ x ∈ pySpecial, x ∈ reEscapes := by decide
    have : reControl c = none ∨ ∃ x, reControl c = some [92, x] ∧ x ≠ 98 ∧ ∀ t, pySetEscape (x :: t) = some (c, t) := by
      unfold reControl
      repeat' split
      all_goals first
        | exact .inl rfl
        | (rename_i h; subst h; exact .inr ⟨_, rfl, by decide, fun t => rfl⟩)
    rcases this with h1 | ⟨x, h1, h98, h2⟩
    · rw [h1, Option.getD_none, List.cons_append, List.nil_append]
      have hs : c ∉ pySpecial := fun hc => h (hn c hc)
      have h91 : c ≠ 91 := by intro e; subst e; exact hs (by decide)
      have h92 : c ≠ 92 := by intro e; subst e; exact hs (by decide)
      unfold pyAtom
      split
      · simp_all
      · simp_all
      · simp_all
      · simp_all
      · next c' s _ _ _ heq =>
        simp only [List.cons.injEq] at heq
        obtain ⟨rfl, rfl⟩ := heq
        rw [if_neg hs]
    · rw [h1, Option.getD_some]
      simp [pyAtom, h98, h2]

theorem pyAtom_neg (s : Str) : pyAtom (91 :: 94 :: s) = (pySet (s.length + 1) true [] s).map fun p => (⟨true, p.1⟩, p.2) := rfl

theorem pyAtom_pos {s : Str} (h : s.head? ≠ some 94) : pyAtom (91 :: s) = (pySet (s.length + 1) true [] s).map fun p => (⟨false, p.1⟩, p.2) := by
  cases s with
  | nil => rfl
  | cons x s =>
    have hx : x ≠ 94 := by simpa using h
    unfold pyAtom
    split <;> simp_all

/-- The text of a class that is not negated. -/
theorem plain_read {rs : List Range} (h : Canon rs) (rest : Str) (hm : ∀ c, Mem rs c → c ≤ maxunicode) :
    ∃ a, pyAtom (plainText rs ++ rest) = some (a, rest) ∧ ∀ c, c ≤ maxunicode → (a.Matches c ↔ Mem rs c) := by
  have set : rs ≠ [] → (∀ c, rs ≠ [(c, c)]) → ∃ a, pyAtom (91 :: setBody rs ++ [93] ++ rest) = some (a, rest) ∧ ∀ c, c ≤ maxunicode → (a.Matches c ↔ Mem rs c) := by
    intro h0 h1
    have hi := canon_items h h0 h1
    have hb : setBody rs ≠ [] := by unfold setBody; simp [hi]
    obtain ⟨x, q, hx, h94⟩ := flatMap_first hi
    have e : 91 :: setBody rs ++ [93] ++ rest = 91 :: (setBody rs ++ 93 :: rest) := by simp
    refine ⟨⟨false, bodyItems rs⟩, ?_, ?_⟩
    · rw [e, pyAtom_pos (by unfold setBody; rw [hx]; simpa using h94), pySet_body rs _ rest hb (by omega)]
      rfl
    · intro c _
      unfold PyAtom.Matches
      rw [if_neg (by simp)]
      exact mem_bodyItems h.1 c
  unfold plainText
  split
  · refine ⟨⟨true, [(0, maxunicode)]⟩, by simp [emptyRange, pyAtom, pySet, pyItem, pySetEscape, pyHex, maxunicode], ?_⟩
    intro c hc
    simp [PyAtom.Matches, Mem, hc]
  · next r =>
    split
    · next hr =>
      refine ⟨_, reEscape_read r.1 rest, ?_⟩
      intro c _
      simp only [PyAtom.Matches, Mem, List.mem_cons, List.not_mem_nil, or_false, exists_eq_left, Bool.false_eq_true, if_false]
      rw [hr]
    · next hr =>
      exact set (by simp) (by intro c hc; simp only [List.cons.injEq, and_true] at hc; exact hr (by rw [hc]))
  · next hn1 hn2 => exact set hn1 (by intro c; exact hn2 (c, c))

theorem negText_set (b : Str) : negText (91 :: b ++ [93]) = 91 :: 94 :: (b ++ [93]) := by
  simp [negText]

theorem reEscape_neg (c : Nat) (h92 : c ≠ 92) (rest : Str) :
    pyAtom (negText (reEscape c) ++ rest) = some (⟨true, [(c, c)]⟩, rest) := by
  have one : ∀ x, x ≠ 92 → pyAtom ([91, 94] ++ [x] ++ [93] ++ rest) = some (⟨true, [(x, x)]⟩, rest) := by
    intro x hx
    have e : [91, 94] ++ [x] ++ [93] ++ rest = 91 :: 94 :: x :: 93 :: rest := by simp
    rw [e, pyAtom_neg]
    simp [pySet, pyItem, hx]
  unfold reEscape
  split
  · next h =>
    simp only [reEscapes, List.mem_cons, List.not_mem_nil, or_false] at h
    by_cases h93 : c = 93
    · subst h93
      simp [negText, pyAtom_neg, pySet, pyItem, pySetEscape, alnum]
    · have hc : isReControl [92, c] = false := by
        rcases h with rfl | rfl | rfl | rfl | rfl | rfl | rfl | rfl | rfl | rfl | rfl | rfl | rfl | rfl <;> decide
      have e : negText [92, c] = [91, 94] ++ [c] ++ [93] := by
        simp [negText, h93, hc]
      rw [e]
      exact one c h92
  · next h =>
    have : reControl c = none ∨ ∃ x, reControl c = some [92, x] ∧ isReControl [92, x] = true ∧ x ≠ 93 ∧ ∀ t, pySetEscape (x :: t) = some (c, t) := by
      unfold reControl
      repeat' split
      all_goals first
        | exact .inl rfl
        | (rename_i h; subst h; exact .inr ⟨_, rfl, by decide, by decide, fun t => rfl⟩)
    rcases this with h1 | ⟨x, h1, hr, h93, h2⟩
    · rw [h1, Option.getD_none]
      have h91 : c ≠ 91 := by intro e; subst e; exact h (by decide)
      have e : negText [c] = [91, 94] ++ [c] ++ [93] := by
        unfold negText
        split <;> simp_all
      rw [e]
      exact one c h92
    · rw [h1, Option.getD_some]
      have e : negText [92, x] ++ rest = 91 :: 94 :: 92 :: x :: 93 :: rest := by
        simp [negText, hr, h93]
      rw [e, pyAtom_neg]
      simp [pySet, pyItem, h2]

theorem negate_last {rs : List Range} (h : Canon rs) {r : Range} (hl : rs.getLast? = some r) (hr : r.2 = maxunicode) :
    ¬ Mem (negate rs) maxunicode := by
  rw [(negate_spec h).2]
  rintro ⟨_, hn⟩
  exact hn ⟨r, List.mem_of_getLast? hl, by have := h.1 r (List.mem_of_getLast? hl); omega, by omega⟩

/-! ### C156 -/

/-- **C156**: the text of a character class, put into a regular expression of Python, is an atom that matches exactly
the characters of the class - except for two classes: the one of all characters and the one of all characters but the
backslash. -/
theorem C156_class_text_partial {rs : List Range} (h : Canon rs) (hm : ∀ c, Mem rs c → c ≤ maxunicode)
    (hfull : ¬ ∀ c, c ≤ maxunicode → Mem rs c) (hback : ¬ ∀ c, c ≤ maxunicode → (Mem rs c ↔ c ≠ 92)) (rest : Str) :
    ∃ a, pyAtom (classText rs ++ rest) = some (a, rest) ∧ ∀ c, c ≤ maxunicode → (a.Matches c ↔ Mem rs c) := by
  unfold classText
  split
  · next r hl =>
    split
    · next hr =>
      obtain ⟨n1, n2⟩ := negate_spec h
      have hne : negate rs ≠ [] := by
        intro e
        apply hfull
        intro c hc
        by_contra hmc
        have := (n2 c).mpr ⟨hc, hmc⟩
        rw [e] at this
        exact (mem_nil c).mp this
      by_cases hs : ∃ c, negate rs = [(c, c)]
      · obtain ⟨c, hc⟩ := hs
        have hmemc : ∀ x, Mem (negate rs) x ↔ x = c := by
          intro x
          rw [hc]
          simp only [Mem, List.mem_cons, List.not_mem_nil, or_false, exists_eq_left]
          omega
        have h92 : c ≠ 92 := by
          intro e
          subst e
          apply hback
          intro x hx
          have := n2 x
          rw [hmemc] at this
          constructor
          · intro hmx e; exact (this.mp e).2 hmx
          · intro hx92
            by_contra hmx
            exact hx92 (this.mpr ⟨hx, hmx⟩)
        refine ⟨⟨true, [(c, c)]⟩, ?_, ?_⟩
        · rw [hc]
          simp only [plainText, if_true]
          exact reEscape_neg c h92 rest
        · intro x hx
          have := n2 x
          rw [hc] at this
          simp only [PyAtom.Matches, if_true]
          rw [this]
          constructor
          · intro hh; by_contra hmx; exact hh ⟨hx, hmx⟩
          · rintro hmx ⟨_, hh⟩; exact hh hmx
      · have h1 : ∀ c, negate rs ≠ [(c, c)] := fun c hc => hs ⟨c, hc⟩
        have hi := canon_items n1 hne h1
        have hb : setBody (negate rs) ≠ [] := by unfold setBody; simp [hi]
        have e : plainText (negate rs) = 91 :: setBody (negate rs) ++ [93] := by
          unfold plainText
          split
          · next he => exact absurd he hne
          · next q heq =>
            have hq : ¬ q.1 = q.2 := by
              intro hq
              exact h1 q.1 (by rw [heq]; congr 1; exact Prod.ext rfl hq.symm)
            rw [if_neg hq, heq]
          · rfl
        refine ⟨⟨true, bodyItems (negate rs)⟩, ?_, ?_⟩
        · rw [e, negText_set]
          have e2 : 91 :: 94 :: (setBody (negate rs) ++ [93]) ++ rest = 91 :: 94 :: (setBody (negate rs) ++ 93 :: rest) := by simp
          rw [e2, pyAtom_neg, pySet_body _ _ _ hb (by omega)]
          rfl
        · intro x hx
          simp only [PyAtom.Matches, if_true]
          rw [mem_bodyItems n1.1, n2]
          constructor
          · intro hh; by_contra hmx; exact hh ⟨hx, hmx⟩
          · rintro hmx ⟨_, hh⟩; exact hh hmx
    · exact plain_read h rest hm
  · exact plain_read h rest hm

/-- The same for every class that can be built with the operations of `CharClass`. -/
theorem C156_history_text_partial (k : Hist) (hm : ∀ c, k.set c → c ≤ maxunicode) (hfull : ∃ c, c ≤ maxunicode ∧ ¬ k.set c)
    (hback : k.set 92 ∨ ∃ c, c ≤ maxunicode ∧ c ≠ 92 ∧ ¬ k.set c) (rest : Str) :
    ∃ a, pyAtom (classText k.ranges ++ rest) = some (a, rest) ∧ ∀ c, c ≤ maxunicode → (a.Matches c ↔ k.set c) := by
  obtain ⟨h1, h2⟩ := hist_spec k
  have := C156_class_text_partial h1 (fun c hc => hm c ((h2 c).mp hc)) (by
    obtain ⟨c, hc, hn⟩ := hfull
    intro hh
    exact hn ((h2 c).mp (hh c hc))) (by
    intro hh
    rcases hback with hb | ⟨c, hc, h92, hn⟩
    · exact absurd rfl ((hh 92 (by decide)).mp ((h2 92).mpr hb))
    · exact hn ((h2 c).mp ((hh c hc).mpr h92))) rest
  simpa only [h2] using this

/-- **C156** (violation): the text of the class of all characters, `[^^\x00-...]`, is read as an atom that matches no
character. -/
theorem C156_full_violation : ∃ a, pyAtom (classText (negate [])) = some (a, []) ∧ ∀ c, c ≤ maxunicode → Mem (negate []) c ∧ ¬ a.Matches c := by
  have h1 : negate [] = [(0, maxunicode)] := by decide +kernel
  have h2 : classText (negate []) = [91, 94, 94, 92, 120, 48, 48, 45, maxunicode, 93] := by decide +kernel
  refine ⟨⟨true, [(94, 94), (0, maxunicode)]⟩, by rw [h2]; decide +kernel, ?_⟩
  intro c hc
  rw [h1]
  refine ⟨⟨(0, maxunicode), by simp, by simp, hc⟩, ?_⟩
  simp only [PyAtom.Matches, if_true, not_not]
  exact ⟨(0, maxunicode), by simp, by simp, hc⟩

/-- **C156** (violation): the text of the class of all characters but the backslash is `[^\]`, which is not a pattern:
the set is not closed. -/
theorem C156_backslash_violation : classText (negate [(92, 92)]) = [91, 94, 92, 93] ∧ pyAtom (classText (negate [(92, 92)])) = none := by
  have h2 : classText (negate [(92, 92)]) = [91, 94, 92, 93] := by decide +kernel
  exact ⟨h2, by rw [h2]; decide +kernel⟩

example : classText [(45, 45), (93, 94), (97, 98), (100, 122)] = [91, 92, 45, 92, 93, 94, 97, 98, 100, 45, 122, 93] := by decide +kernel
example : pyAtom [91, 92, 45, 92, 93, 94, 97, 98, 100, 45, 122, 93] =
    some (⟨false, [(45, 45), (93, 93), (94, 94), (97, 97), (98, 98), (100, 122)]⟩, []) := by decide +kernel
example : Canon [(45, 45), (93, 94), (97, 98), (100, 122)] := by
  constructor
  · decide
  · decide

end Verif.CharClass

import Mathlib.Data.List.Basic

/-!
# Reading characters from an entity

Models `pyslet.xml.structures.XMLEntity.next_char`, `next_line` and `reset`
(pyslet/xml/structures.py:3476-3537, 3661-3669).  Text is a list of character codes.  The source is a
list of the pieces that successive calls of `char_source.read` return; an empty piece, or the end of
the list, is the end of the source.  Decoding is not modelled.
-/
namespace Verif.Xml

/-- Text. -/
abbrev Str := List Nat

/-- The fields used by `next_char`: `the_char`, the rest of `chars` after `char_pos`, the source,
`ignore_lf`, `line_num` and `line_pos`. -/
structure Ent where
  cur : Option Nat
  chars : Str
  src : List Str
  ignoreLf : Bool
  line : Nat
  pos : Nat
  deriving DecidableEq, Repr

/-- Fetch a character (structures.py:3515-3524): the new `chars` and source. -/
def fetch (chars : Str) (src : List Str) : Option (Nat × Str × List Str) :=
  match chars with
  | c :: t => some (c, t, src)
  | [] =>
    match src with
    | (c :: t) :: src' => some (c, t, src')
    | _ => none

/-- The end of the source (structures.py:3521-3522). -/
def Ent.atEnd (e : Ent) : Ent := { e with cur := none, chars := [], src := e.src.tail, pos := e.pos + 1 }

/-- A character that is not skipped (structures.py:3524-3537). -/
def Ent.put (e : Ent) (c : Nat) (chars : Str) (src : List Str) : Ent :=
  if c = 13 then ⟨some 10, chars, src, true, e.line + 1, 0⟩
  else if c = 10 then ⟨some 10, chars, src, e.ignoreLf, e.line + 1, 0⟩
  else ⟨some c, chars, src, false, e.line, e.pos + 1⟩

/-- `next_char` (structures.py:3506-3537).  The recursive call of line 3533 is written out: it is
made with `ignore_lf` reset, so it makes no recursive call itself. -/
def Ent.next (e : Ent) : Ent :=
  match e.cur with
  | none => e
  | some _ =>
    match fetch e.chars e.src with
    | none => e.atEnd
    | some (c, chars, src) =>
      if c = 10 ∧ e.ignoreLf = true then
        (match fetch chars src with
        | none =>
          ({ e with pos := e.pos + 1, ignoreLf := false, chars := chars, src := src } : Ent).atEnd
        | some (d, chars', src') =>
          ({ e with pos := e.pos + 1, ignoreLf := false } : Ent).put d chars' src')
      else e.put c chars src

/-- `reset` of an entity opened at the start of a source (structures.py:3484-3497); a byte order mark
is skipped. -/
def Ent.open (src : List Str) : Ent :=
  let e := (⟨some 0, [], src, false, 1, 0⟩ : Ent).next
  if e.cur = some 0xFEFF then e.next else e

/-- The entity after `n` calls of `next_char`. -/
def Ent.after (e : Ent) : Nat → Ent
  | 0 => e
  | n + 1 => (e.after n).next

/-! ## Specification (XML 1.0, section 2.11) -/

/-- Line ends are translated: CR LF and CR without LF become LF. -/
def normLines : Str → Str
  | 13 :: 10 :: t => 10 :: normLines t
  | 13 :: t => 10 :: normLines t
  | c :: t => c :: normLines t
  | [] => []

/-- A leading byte order mark is no part of the text. -/
def dropBom : Str → Str
  | 0xFEFF :: t => t
  | t => t

/-! ## Proofs -/

/-- The characters that will be read, before translation. -/
def Ent.raw (e : Ent) : Str := e.chars ++ e.src.flatten

/-- What the parser will still see after the current character. -/
def Ent.todo (e : Ent) : Str :=
  match e.ignoreLf, e.raw with
  | true, 10 :: t => normLines t
  | _, t => normLines t

/-- Pieces are not empty. -/
def Ent.Good (e : Ent) : Prop := ∀ p ∈ e.src, p ≠ []

theorem fetch_none {chars : Str} {src : List Str} (h : ∀ p ∈ src, p ≠ []) :
    fetch chars src = none ↔ chars ++ src.flatten = [] := by
  unfold fetch
  cases chars with
  | cons c t => simp
  | nil =>
    cases src with
    | nil => simp
    | cons p src =>
      cases p with
      | nil => exact absurd rfl (h [] (by simp))
      | cons c t => simp

theorem fetch_some {chars : Str} {src : List Str} (h : ∀ p ∈ src, p ≠ []) {c : Nat} {chars' : Str}
    {src' : List Str} (hf : fetch chars src = some (c, chars', src')) :
    chars ++ src.flatten = c :: (chars' ++ src'.flatten) ∧ ∀ p ∈ src', p ≠ [] := by
  unfold fetch at hf
  cases chars with
  | cons d t =>
    simp only [Option.some.injEq, Prod.mk.injEq] at hf
    obtain ⟨rfl, rfl, rfl⟩ := hf
    exact ⟨by simp, h⟩
  | nil =>
    cases src with
    | nil => simp at hf
    | cons p src =>
      cases p with
      | nil => exact absurd rfl (h [] (by simp))
      | cons d t =>
        simp only [Option.some.injEq, Prod.mk.injEq] at hf
        obtain ⟨rfl, rfl, rfl⟩ := hf
        exact ⟨by simp, fun p hp => h p (by simp [hp])⟩

theorem put_todo (e : Ent) (c : Nat) (chars : Str) (src : List Str) (hlf : c = 10 → e.ignoreLf = false) :
    (e.put c chars src).cur.toList ++ (e.put c chars src).todo = normLines (c :: (chars ++ src.flatten)) ∧
    (e.put c chars src).src = src ∧
    (e.put c chars src).line = e.line + (if (e.put c chars src).cur = some 10 then 1 else 0) ∧
    (e.put c chars src).cur ≠ none := by
  unfold Ent.put
  by_cases h1 : c = 13
  · subst h1
    simp only [if_true, Ent.todo, Ent.raw]
    refine ⟨?_, by simp, by simp, by simp⟩
    generalize chars ++ src.flatten = r
    cases r with
    | nil => rfl
    | cons d t =>
      by_cases hd : d = 10
      · subst hd; rfl
      · simp only [Option.toList_some, List.singleton_append]
        rw [normLines.eq_2 _ (by rintro u hu; injection hu with hu; exact hd hu)]
        simp only [List.cons.injEq, true_and]
        split
        · rename_i heq; injection heq with heq; exact absurd heq hd
        · rfl
  · rw [if_neg h1]
    have hn : normLines (c :: (chars ++ src.flatten)) = c :: normLines (chars ++ src.flatten) := by
      rw [normLines.eq_3]
      · intro t h _; exact h1 h
      · intro h; exact h1 h
    rw [hn]
    by_cases h2 : c = 10
    · subst h2
      rw [if_pos rfl, hlf rfl]
      refine ⟨by simp [Ent.todo, Ent.raw], rfl, rfl, by simp⟩
    · rw [if_neg h2]
      refine ⟨by simp [Ent.todo, Ent.raw], rfl, by simp [h2], by simp⟩

/-- The state of an entity whose current character starts the text `t`. -/
def Ent.At (e : Ent) (t : Str) : Prop :=
  e.Good ∧ e.cur.toList ++ (if e.cur = none then [] else e.todo) = t

theorem next_at {e : Ent} {c : Nat} {t : Str} (h : e.At (c :: t)) :
    e.next.At t ∧ e.next.line = e.line + (if t.head? = some 10 then 1 else 0) ∧ e.cur = some c := by
  obtain ⟨hg, hc⟩ := h
  cases hcur : e.cur with
  | none => rw [hcur] at hc; simp at hc
  | some d =>
    rw [hcur] at hc
    simp only [Option.toList_some, List.singleton_append, reduceCtorEq, if_false,
      List.cons.injEq] at hc
    obtain ⟨rfl, ht⟩ := hc
    unfold Ent.next
    rw [hcur]
    dsimp only
    have hend : ∀ f : Ent, f.Good → f.atEnd.At [] := by
      intro f hf
      refine ⟨fun p hp => hf p (List.mem_of_mem_tail hp), by simp [Ent.atEnd]⟩
    have hput : ∀ (f : Ent) c' chars' src', (∀ p ∈ src', p ≠ []) →
        (c' = 10 → f.ignoreLf = false) → normLines (c' :: (chars' ++ src'.flatten)) = t →
        (f.put c' chars' src').At t ∧
        (f.put c' chars' src').line = f.line + (if t.head? = some 10 then 1 else 0) := by
      intro f c' chars' src' hs hlf hn
      obtain ⟨h1, h2, h3, h4⟩ := put_todo f c' chars' src' hlf
      refine ⟨⟨by rw [Ent.Good, h2]; exact hs, by rw [if_neg h4, h1, hn]⟩, ?_⟩
      rw [h3]
      have : (f.put c' chars' src').cur = t.head? := by
        rw [← hn, ← h1]
        cases hq : (f.put c' chars' src').cur with
        | none => exact absurd hq h4
        | some x => simp
      rw [this]
    cases hf : fetch e.chars e.src with
    | none =>
      have hr : e.raw = [] := (fetch_none hg).1 hf
      have : t = [] := by
        rw [← ht]; unfold Ent.todo; rw [hr]
        cases e.ignoreLf <;> rfl
      subst this
      exact ⟨hend e hg, by simp [Ent.atEnd], rfl⟩
    | some p =>
      obtain ⟨c', chars', src'⟩ := p
      obtain ⟨hr, hs⟩ := fetch_some hg hf
      have hr : e.raw = c' :: (chars' ++ src'.flatten) := hr
      dsimp only
      by_cases hig : c' = 10 ∧ e.ignoreLf = true
      · rw [if_pos hig]
        obtain ⟨rfl, hi⟩ := hig
        have ht' : normLines (chars' ++ src'.flatten) = t := by
          rw [← ht]; unfold Ent.todo; rw [hr, hi]; rfl
        cases hf2 : fetch chars' src' with
        | none =>
          have hr2 := (fetch_none hs).1 hf2
          rw [hr2] at ht'
          have : t = [] := ht'.symm
          subst this
          exact ⟨hend _ hs, by simp [Ent.atEnd], rfl⟩
        | some p2 =>
          obtain ⟨d2, chars2, src2⟩ := p2
          obtain ⟨hr2, hs2⟩ := fetch_some hs hf2
          rw [hr2] at ht'
          have := hput ({ e with pos := e.pos + 1, ignoreLf := false } : Ent) d2 chars2 src2 hs2
            (fun _ => rfl) ht'
          exact ⟨this.1, this.2, rfl⟩
      · rw [if_neg hig]
        have hlf : c' = 10 → e.ignoreLf = false := by
          intro h
          cases hi : e.ignoreLf with
          | false => rfl
          | true => exact absurd ⟨h, hi⟩ hig
        have ht' : normLines (c' :: (chars' ++ src'.flatten)) = t := by
          rw [← ht]; unfold Ent.todo; rw [hr]
          cases hi : e.ignoreLf with
          | false => rfl
          | true =>
            split
            · rename_i heq
              injection heq with h1 h2
              exact absurd ⟨h1, hi⟩ hig
            · rfl
        have := hput e c' chars' src' hs hlf ht'
        exact ⟨this.1, this.2, rfl⟩

theorem normLines_bom (t : Str) : normLines (0xFEFF :: t) = 0xFEFF :: normLines t := by
  rw [normLines.eq_3]
  · intro t h _; exact absurd h (by decide)
  · intro h; exact absurd h (by decide)

theorem normLines_head {t u : Str} (h : normLines t = 0xFEFF :: u) : ∃ v, t = 0xFEFF :: v := by
  match t with
  | [] => simp [normLines] at h
  | c :: v =>
    by_cases hc : c = 13
    · subst hc
      cases v with
      | nil => simp [normLines] at h
      | cons d v =>
        by_cases hd : d = 10
        · subst hd; simp [normLines] at h
        · rw [normLines.eq_2 _ (by rintro u hu; injection hu with hu; exact hd hu)] at h
          simp at h
    · rw [normLines.eq_3] at h
      · injection h with h _; subst h; exact ⟨v, rfl⟩
      · intro t h _; exact hc h
      · intro h; exact hc h

theorem open_at (src : List Str) (hg : ∀ p ∈ src, p ≠ []) :
    (Ent.open src).At (normLines (dropBom src.flatten)) ∧
    (Ent.open src).line = 1 + (if (normLines (dropBom src.flatten)).head? = some 10 then 1 else 0) := by
  have h0 : (⟨some 0, [], src, false, 1, 0⟩ : Ent).At (0 :: normLines src.flatten) :=
    ⟨hg, by simp [Ent.todo, Ent.raw]⟩
  obtain ⟨h1, h2, _⟩ := next_at h0
  unfold Ent.open
  dsimp only
  by_cases hb : (⟨some 0, [], src, false, 1, 0⟩ : Ent).next.cur = some 0xFEFF
  · rw [if_pos hb]
    obtain ⟨h1g, h1t⟩ := h1
    rw [hb] at h1t
    obtain ⟨v, hv⟩ := normLines_head (h1t.symm)
    have h1' : (⟨some 0, [], src, false, 1, 0⟩ : Ent).next.At (0xFEFF :: normLines v) := by
      refine ⟨h1g, ?_⟩
      rw [hb, h1t, hv, normLines_bom]
    obtain ⟨h3, h4, _⟩ := next_at h1'
    rw [hv]
    refine ⟨h3, ?_⟩
    rw [h4, h2, hv, normLines_bom]
    rfl
  · rw [if_neg hb]
    have hd : dropBom src.flatten = src.flatten := by
      unfold dropBom
      split
      · rename_i t heq
        exfalso
        apply hb
        rw [heq, normLines_bom] at h1
        obtain ⟨_, h1t⟩ := h1
        cases hq : (⟨some 0, [], src, false, 1, 0⟩ : Ent).next.cur with
        | none => rw [hq] at h1t; simp at h1t
        | some x =>
          rw [hq] at h1t
          simp only [Option.toList_some, List.singleton_append, List.cons.injEq] at h1t
          rw [h1t.1]
      · rfl
    rw [hd]
    exact ⟨h1, h2⟩

theorem after_at (e : Ent) (t : Str) (h : e.At t) (l : Nat)
    (hl : e.line = l + (if t.head? = some 10 then 1 else 0)) : ∀ n : Nat,
    (e.after n).At (t.drop n) ∧
    (n ≤ t.length → (e.after n).line = l + (t.take (n + 1)).count 10)
  | 0 => by
    refine ⟨by simpa [Ent.after] using h, fun _ => ?_⟩
    cases t with
    | nil => simpa [Ent.after] using hl
    | cons c t =>
      simp only [Ent.after, hl, List.head?_cons, Option.some.injEq, Nat.zero_add, List.take_succ_cons,
        List.take_zero, List.count_cons, List.count_nil, beq_iff_eq]
  | n + 1 => by
    obtain ⟨ih1, ih2⟩ := after_at e t h l hl n
    have hend : ∀ f : Ent, f.At [] → f.next.At [] := by
      rintro f ⟨hg, hf⟩
      have hc : f.cur = none := by
        cases hq : f.cur with
        | none => rfl
        | some x => rw [hq] at hf; simp at hf
      have : f.next = f := by unfold Ent.next; rw [hc]
      rw [this]; exact ⟨hg, hf⟩
    by_cases hn : n < t.length
    · have hd : t.drop n = t[n] :: t.drop (n + 1) := List.drop_eq_getElem_cons hn
      rw [hd] at ih1
      obtain ⟨h1, h2, _⟩ := next_at ih1
      refine ⟨h1, fun hn' => ?_⟩
      show (e.after n).next.line = _
      rw [h2, ih2 (by omega), Nat.add_assoc]
      congr 1
      by_cases hn2 : n + 1 < t.length
      · rw [List.take_succ_eq_append_getElem hn2, List.count_append]
        congr 1
        rw [List.drop_eq_getElem_cons hn2]
        simp [List.count_cons, List.getElem?_eq_getElem hn2]
      · have : t.drop (n + 1) = [] := List.drop_eq_nil_of_le (by omega)
        rw [this, List.take_of_length_le (i := n + 1) (by omega),
          List.take_of_length_le (i := n + 1 + 1) (by omega)]
        simp
    · have h0 : t.drop n = [] := List.drop_eq_nil_of_le (by omega)
      have h1 : t.drop (n + 1) = [] := List.drop_eq_nil_of_le (by omega)
      rw [h0] at ih1
      rw [h1]
      exact ⟨hend _ ih1, fun hn' => absurd hn' (by omega)⟩

/-- C78: whatever the pieces in which the source delivers the text, the parser sees it with line ends
translated and without a byte order mark, and then the end. -/
theorem C78_characters (src : List Str) (hg : ∀ p ∈ src, p ≠ []) (n : Nat) :
    ((Ent.open src).after n).cur = (normLines (dropBom src.flatten))[n]? := by
  obtain ⟨h1, h2⟩ := open_at src hg
  have := (after_at _ _ h1 1 h2 n).1
  generalize normLines (dropBom src.flatten) = t at *
  obtain ⟨_, h⟩ := this
  cases hq : ((Ent.open src).after n).cur with
  | none =>
    rw [hq] at h
    simp only [Option.toList_none, if_true, List.append_nil] at h
    rw [List.getElem?_eq_none]
    exact List.drop_eq_nil_iff.1 h.symm
  | some x =>
    rw [hq] at h
    have hx : (t.drop n).head? = some x := by rw [← h]; simp
    rw [List.head?_drop] at hx
    exact hx.symm

/-- C78: the line number is the number of line ends up to and including the current character, plus
one. -/
theorem C78_lines (src : List Str) (hg : ∀ p ∈ src, p ≠ []) (n : Nat)
    (hn : n ≤ (normLines (dropBom src.flatten)).length) :
    ((Ent.open src).after n).line =
      1 + ((normLines (dropBom src.flatten)).take (n + 1)).count 10 := by
  obtain ⟨h1, h2⟩ := open_at src hg
  exact (after_at _ _ h1 1 h2 n).2 hn

/-- The position in the line is not right: after CR LF, columns are counted from 2, after LF or CR
from 1. -/
theorem C78_column_violated :
    ((Ent.open [[97, 13, 10, 98]]).after 2).cur = some 98 ∧
    ((Ent.open [[97, 13, 10, 98]]).after 2).pos = 2 ∧
    ((Ent.open [[97, 10, 98]]).after 2).cur = some 98 ∧
    ((Ent.open [[97, 10, 98]]).after 2).pos = 1 := by decide +kernel

example : normLines (dropBom [[0xFEFF, 97, 13], [10, 13, 98, 10, 13], [13, 10]].flatten) =
    [97, 10, 10, 98, 10, 10, 10] := by decide +kernel

end Verif.Xml

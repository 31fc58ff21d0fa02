import Verif.OUri.Ident
import Verif.OData.Grammar
import Verif.Uri.Path
import Mathlib.Data.List.Perm.Basic
/-!
# Model of the $expand and $select options: `pyslet/odata2/core.py` 1520-1615, 2066-2086
-/
namespace Verif.OUri

open Verif.OData

/-- The nested dictionaries that represent $expand and $select: an association list from names to the dictionaries
below them, in insertion order.  None and the empty dictionary are both `node []`: `parse_expand_option` never leaves an
empty dictionary in place, and `_format_expand_list` (`if not v`) treats them alike. -/
inductive Tree where
  | node (kids : List (Str × Tree))

/-- None (or an empty dictionary). -/
def Tree.leaf : Tree := .node []

/-- The entries. -/
def Tree.kids : Tree → List (Str × Tree) | .node ks => ks

/-- `if name not in parent: parent[name] = None`, core.py:1529-1530, followed by a change of the value. -/
def modify (f : Tree → Tree) (n : Str) : List (Str × Tree) → List (Str × Tree)
  | [] => [(n, f .leaf)]
  | (k, v) :: r => if k = n then (k, f v) :: r else (k, v) :: modify f n r

/-- One pass of the outer loop of `parse_expand_option`, core.py:1526-1538 (and of `parse_select_option`,
core.py:1588-1601), for a path that has been read. -/
def addPath : List Str → Tree → Tree
  | [], t => t
  | n :: p, .node ks => .node (modify (addPath p) n ks)

/-- "*" -/
def star : Str := [42]

/-- `parse_start_or_identifier`, core.py:1608-1615. -/
def starOrIdent (ids : Ids) (s : Str) : Option (Str × Str) :=
  match wsp s with
  | c :: r => if c = 42 then some (star, r) else parseIdent ids (c :: r)
  | [] => none

/-- The names and slashes of one path: core.py:1527-1538 with `parse_simple_identifier` and core.py:1590-1601 with
`parse_start_or_identifier`; `none` is a ValueError.  The test for "*" of the second (core.py:1594) is never true in
the first, where no identifier is "*". -/
def pathLoop (item : Str → Option (Str × Str)) : Nat → Str → Option (List Str × Str)
  | 0, _ => none
  | fuel + 1, s =>
    match item s with
    | none => none
    | some (n, r) =>
      if n = star then some ([n], r)
      else match r with
        | 47 :: r' => (pathLoop item fuel r').map fun (p, q) => (n :: p, q)
        | _ => some ([n], r)

/-- The outer loop and `require_end`: core.py:1525-1542 with `gap` the identity and core.py:1587-1606 with `gap` =
`parse_wsp`. -/
def optLoop (item : Str → Option (Str × Str)) (gap : Str → Str) : Nat → Tree → Str → Option Tree
  | 0, _, _ => none
  | fuel + 1, t, s =>
    match pathLoop item (s.length + 1) (gap s) with
    | none => none
    | some (p, r) =>
      match gap r with
      | [] => some (addPath p t)
      | c :: r' => if c = 44 then optLoop item gap fuel (addPath p t) r' else none

/-- `parse_expand_option`, core.py:1520-1542, on a complete text. -/
def parseExpand (ids : Ids) (s : Str) : Option Tree := optLoop (parseIdent ids) id (s.length + 1) .leaf s

/-- `parse_select_option`, core.py:1571-1606, on a complete text. -/
def parseSelect (ids : Ids) (s : Str) : Option Tree := optLoop (starOrIdent ids) wsp (s.length + 1) .leaf s

mutual
/-- `_format_expand_list(expand)`, core.py:2072-2081. -/
def Tree.list : Tree → List Str
  | .node ks => kidsList ks
/-- The loop over the items, core.py:2075-2080. -/
def kidsList : List (Str × Tree) → List Str
  | [] => []
  | (k, .node []) :: r => k :: kidsList r
  | (k, .node (e :: es)) :: r => (Tree.list (.node (e :: es))).map (fun x => k ++ 47 :: x) ++ kidsList r
end

/-- The order of Python strings: by code points. -/
def strLe (a b : Str) : Bool := decide (a ≤ b)

/-- `format_expand(expand)`, core.py:2066-2069; `format_select` is the same, core.py:2084-2086. -/
def formatExpand (t : Tree) : Str := Uri.joinWith 44 (t.list.mergeSort strLe)

/-! ## Specification -/

/-- The path leads somewhere in the dictionaries: the first name is an entry of the first dictionary, and so on. -/
inductive Has : List Str → Tree → Prop
  | one {n : Str} {ks : List (Str × Tree)} {v : Tree} : (n, v) ∈ ks → Has [n] (.node ks)
  | more {n : Str} {p : List Str} {ks : List (Str × Tree)} {v : Tree} : (n, v) ∈ ks → Has p v → Has (n :: p) (.node ks)

/-- White space allowed around names: only in $select. -/
def Gap (sel : Bool) (w : Str) : Prop := Ws w ∧ (sel = false → w = [])

/-- A path and its text: names separated by "/"; in $select the last name may be "*". -/
inductive PathText (ids : Ids) (sel : Bool) : List Str → Str → Prop
  | one {w n : Str} : Gap sel w → (Dotted ids n ∨ sel = true ∧ n = star) → PathText ids sel [n] (w ++ n)
  | more {w n t : Str} {p : List Str} : Gap sel w → Dotted ids n → PathText ids sel p t →
      PathText ids sel (n :: p) (w ++ (n ++ 47 :: t))

/-- The paths of an option and its text: paths separated by commas. -/
inductive OptText (ids : Ids) (sel : Bool) : List (List Str) → Str → Prop
  | one {p : List Str} {t w : Str} : PathText ids sel p t → Gap sel w → OptText ids sel [p] (t ++ w)
  | more {p : List Str} {t w u : Str} {ps : List (List Str)} : PathText ids sel p t → Gap sel w → OptText ids sel ps u →
      OptText ids sel (p :: ps) (t ++ (w ++ 44 :: u))

/-! ## Dictionaries and paths -/

theorem mem_modify {f : Tree → Tree} {n k : Str} {v : Tree} : ∀ {ks : List (Str × Tree)}, (k, v) ∈ modify f n ks →
    (k, v) ∈ ks ∧ True ∨ k = n ∧ ((∃ v', (n, v') ∈ ks ∧ v = f v') ∨ (∀ v', (n, v') ∉ ks) ∧ v = f .leaf) := by
  intro ks
  induction ks with
  | nil => intro h; simp [modify] at h; exact .inr ⟨h.1, .inr ⟨by simp, h.2⟩⟩
  | cons e r ih =>
    obtain ⟨a, b⟩ := e
    intro h
    unfold modify at h
    by_cases hk : a = n
    · rw [if_pos hk] at h
      rcases List.mem_cons.mp h with h | h
      · cases h; exact .inr ⟨hk, .inl ⟨b, by simp [hk], rfl⟩⟩
      · exact .inl ⟨by simp [h], trivial⟩
    · rw [if_neg hk] at h
      rcases List.mem_cons.mp h with h | h
      · exact .inl ⟨by simp [h], trivial⟩
      · rcases ih h with h | ⟨h1, h2⟩
        · exact .inl ⟨by simp [h.1], trivial⟩
        · refine .inr ⟨h1, ?_⟩
          rcases h2 with ⟨v', h2, h3⟩ | ⟨h2, h3⟩
          · exact .inl ⟨v', by simp [h2], h3⟩
          · refine .inr ⟨?_, h3⟩
            intro v' hm
            rcases List.mem_cons.mp hm with hm | hm
            · cases hm; exact hk rfl
            · exact h2 v' hm

theorem modify_mem_self {f : Tree → Tree} {n : Str} : ∀ {ks : List (Str × Tree)}, ∃ v, (n, f v) ∈ modify f n ks ∧
    (v = .leaf ∨ (n, v) ∈ ks) := by
  intro ks
  induction ks with
  | nil => exact ⟨.leaf, by simp [modify], .inl rfl⟩
  | cons e r ih =>
    obtain ⟨a, b⟩ := e
    unfold modify
    by_cases hk : a = n
    · rw [if_pos hk]; exact ⟨b, by simp [hk], .inr (by simp [hk])⟩
    · rw [if_neg hk]
      obtain ⟨v, h1, h2⟩ := ih
      exact ⟨v, by simp [h1], h2.imp id (fun h => by simp [h])⟩

theorem modify_mem_other {f : Tree → Tree} {n k : Str} {v : Tree} : ∀ {ks : List (Str × Tree)}, (k, v) ∈ ks →
    (k, v) ∈ modify f n ks ∨ k = n ∧ (k, f v) ∈ modify f n ks := by
  intro ks
  induction ks with
  | nil => intro h; cases h
  | cons e r ih =>
    obtain ⟨a, b⟩ := e
    intro h
    unfold modify
    by_cases hk : a = n
    · rw [if_pos hk]
      rcases List.mem_cons.mp h with h | h
      · cases h; exact .inr ⟨hk, by simp⟩
      · exact .inl (by simp [h])
    · rw [if_neg hk]
      rcases List.mem_cons.mp h with h | h
      · cases h; exact .inl (by simp)
      · rcases ih h with h | ⟨h1, h2⟩
        · exact .inl (by simp [h])
        · exact .inr ⟨h1, by simp [h2]⟩

theorem not_has_leaf (p : List Str) : ¬ Has p .leaf := by
  intro h
  cases h with
  | one h => cases h
  | more h => cases h

theorem has_ne_nil {p : List Str} {t : Tree} (h : Has p t) : p ≠ [] := by cases h <;> simp

theorem has_addPath_old {q : List Str} {t : Tree} (h : Has q t) : ∀ p, Has q (addPath p t) := by
  induction h with
  | @one n ks v hm =>
    intro p
    cases p with
    | nil => exact .one hm
    | cons m p =>
      unfold addPath
      rcases modify_mem_other (f := addPath p) (n := m) hm with h | ⟨-, h⟩
      · exact .one h
      · exact .one h
  | @more n q' ks v hm hq ih =>
    intro p
    cases p with
    | nil => exact .more hm hq
    | cons m p =>
      unfold addPath
      rcases modify_mem_other (f := addPath p) (n := m) hm with h | ⟨-, h⟩
      · exact .more h hq
      · exact .more h (ih p)

/-- The paths of the dictionary after a path was added: the old ones, and the beginnings of the new one. -/
theorem has_addPath (p : List Str) : ∀ (t : Tree) (q : List Str), Has q (addPath p t) ↔ Has q t ∨ (q ≠ [] ∧ q <+: p) := by
  induction p with
  | nil =>
    intro t q
    simp only [addPath, List.prefix_nil]
    constructor
    · exact .inl
    · rintro (h | ⟨h1, h2⟩)
      · exact h
      · exact absurd h2 h1
  | cons n p ih =>
    intro t q
    obtain ⟨ks⟩ := t
    constructor
    · intro h
      unfold addPath at h
      cases h with
      | @one m _ v hm =>
        rcases mem_modify hm with ⟨h, -⟩ | ⟨rfl, -⟩
        · exact .inl (.one h)
        · exact .inr ⟨by simp, by simp [List.cons_prefix_cons]⟩
      | @more m q' _ v hm hq =>
        rcases mem_modify hm with ⟨h, -⟩ | ⟨rfl, h⟩
        · exact .inl (.more h hq)
        · rcases h with ⟨v', h1, rfl⟩ | ⟨h1, rfl⟩
          · rcases (ih v' q').mp hq with h | ⟨h2, h3⟩
            · exact .inl (.more h1 h)
            · exact .inr ⟨by simp, by simpa [List.cons_prefix_cons] using h3⟩
          · rcases (ih .leaf q').mp hq with h | ⟨h2, h3⟩
            · exact absurd h (not_has_leaf _)
            · exact .inr ⟨by simp, by simpa [List.cons_prefix_cons] using h3⟩
    · rintro (h | ⟨h1, h2⟩)
      · exact has_addPath_old h _
      · cases q with
        | nil => exact absurd rfl h1
        | cons m q =>
          rw [List.cons_prefix_cons] at h2
          obtain ⟨rfl, h2⟩ := h2
          unfold addPath
          obtain ⟨v, hv, -⟩ := modify_mem_self (f := addPath p) (n := m) (ks := ks)
          cases q with
          | nil => exact .one hv
          | cons x q => exact .more hv ((ih v (x :: q)).mpr (.inr ⟨by simp, h2⟩))

theorem has_foldl (ps : List (List Str)) : ∀ (t : Tree) (q : List Str),
    Has q (ps.foldl (fun t p => addPath p t) t) ↔ Has q t ∨ (q ≠ [] ∧ ∃ p ∈ ps, q <+: p) := by
  induction ps with
  | nil => intro t q; simp
  | cons p ps ih =>
    intro t q
    simp only [List.foldl_cons, ih, has_addPath, List.mem_cons, exists_eq_or_imp]
    constructor
    · rintro ((h | h) | h)
      · exact .inl h
      · exact .inr ⟨h.1, .inl h.2⟩
      · exact .inr ⟨h.1, .inr h.2⟩
    · rintro (h | ⟨h1, h2 | h2⟩)
      · exact .inl (.inl h)
      · exact .inl (.inr ⟨h1, h2⟩)
      · exact .inr ⟨h1, h2⟩

/-! ## The parser -/

/-- What both item parsers satisfy. -/
structure ItemOk (ids : Ids) (sel : Bool) (item : Str → Option (Str × Str)) (gap : Str → Str) : Prop where
  sound : ∀ s n r, item s = some (n, r) → ∃ w, Gap sel w ∧ s = w ++ (n ++ r) ∧
    (Dotted ids n ∧ Break ids r ∨ sel = true ∧ n = star)
  name : ∀ w n r, Gap sel w → Dotted ids n → Break ids r → item (w ++ (n ++ r)) = some (n, r)
  star : sel = true → ∀ w r, Gap sel w → item (w ++ (star ++ r)) = some (star, r)
  gap_split : ∀ s, ∃ w, Gap sel w ∧ s = w ++ gap s
  gap_gap : ∀ w s, Gap sel w → gap (w ++ s) = gap s
  gap_item : ∀ s, item (gap s) = item s
  gap_stop : ∀ c s, c ≠ 32 → c ≠ 9 → gap (c :: s) = c :: s
  gap_nil : gap [] = []

theorem wsp_split (s : Str) : ∃ w, Ws w ∧ s = w ++ wsp s := by
  refine ⟨s.takeWhile isWs, ?_, List.takeWhile_append_dropWhile.symm⟩
  intro c hc
  have := List.all_eq_true.1 (List.all_takeWhile (p := isWs) (l := s)) c hc
  simpa [isWs] using this

theorem wsp_ws {w : Str} (h : Ws w) (s : Str) : wsp (w ++ s) = wsp s := by
  induction w with
  | nil => rfl
  | cons c w ih =>
    have hc : isWs c = true := by rcases h c (by simp) with rfl | rfl <;> rfl
    rw [List.cons_append]
    show (c :: (w ++ s)).dropWhile isWs = _
    rw [List.dropWhile_cons, if_pos hc]
    exact ih (fun x hx => h x (by simp [hx]))

theorem wsp_head {c : Nat} {r : Str} (h : c ≠ 32 ∧ c ≠ 9) : wsp (c :: r) = c :: r := by
  show (c :: r).dropWhile isWs = _
  rw [List.dropWhile_cons, if_neg]
  simp [isWs, h.1, h.2]

theorem dotted_head {ids : Ids} {n : Str} (h : Dotted ids n) : ∃ c t, n = c :: t ∧ c ≠ 32 ∧ c ≠ 9 ∧ c ≠ 42 := by
  have hcc : ∀ c, ids.start c = true → c ≠ 32 ∧ c ≠ 9 ∧ c ≠ 42 := by
    intro c hc
    refine ⟨?_, ?_, ?_⟩ <;> rintro rfl <;> rw [ids.start_ascii _ (by decide)] at hc <;> exact absurd hc (by decide)
  cases h with
  | one hc _ => exact ⟨_, _, rfl, hcc _ hc⟩
  | more hc _ _ => exact ⟨_, _, rfl, hcc _ hc⟩

theorem dotted_ne_star {ids : Ids} {n : Str} (h : Dotted ids n) : n ≠ star := by
  obtain ⟨c, t, rfl, -, -, hc⟩ := dotted_head h
  intro e; cases e; exact hc rfl

theorem expand_ok (ids : Ids) : ItemOk ids false (parseIdent ids) id where
  sound := by
    intro s n r h
    obtain ⟨e, h1, h2⟩ := (parseIdent_iff ids s n r).mp h
    exact ⟨[], ⟨fun c hc => by (cases hc), fun _ => rfl⟩, e, .inl ⟨h1, h2⟩⟩
  name := by
    intro w n r hw hn hr
    rw [hw.2 rfl]
    exact (parseIdent_iff ids _ n r).mpr ⟨rfl, hn, hr⟩
  star := by intro h; cases h
  gap_split := fun s => ⟨[], ⟨fun c hc => by (cases hc), fun _ => rfl⟩, rfl⟩
  gap_gap := by intro w s hw; rw [hw.2 rfl]; rfl
  gap_item := fun _ => rfl
  gap_stop := fun _ _ _ _ => rfl
  gap_nil := rfl

theorem select_ok (ids : Ids) : ItemOk ids true (starOrIdent ids) wsp where
  sound := by
    intro s n r h
    obtain ⟨w, hw, e⟩ := wsp_split s
    refine ⟨w, ⟨hw, fun h => by cases h⟩, ?_⟩
    unfold starOrIdent at h
    cases hc : wsp s with
    | nil => rw [hc] at h; cases h
    | cons c t =>
      rw [hc] at h e
      dsimp only at h
      by_cases h42 : c = 42
      · rw [if_pos h42] at h
        simp only [Option.some.injEq, Prod.mk.injEq] at h
        obtain ⟨rfl, rfl⟩ := h
        subst h42
        exact ⟨e, .inr ⟨rfl, rfl⟩⟩
      · rw [if_neg h42] at h
        obtain ⟨e', h1, h2⟩ := (parseIdent_iff ids _ n r).mp h
        exact ⟨by rw [e, e'], .inl ⟨h1, h2⟩⟩
  name := by
    intro w n r hw hn hr
    unfold starOrIdent
    rw [wsp_ws hw.1]
    obtain ⟨c, t, rfl, h1, h2, h3⟩ := dotted_head hn
    rw [List.cons_append, wsp_head ⟨h1, h2⟩]
    dsimp only
    rw [if_neg h3]
    exact (parseIdent_iff ids _ _ r).mpr ⟨rfl, hn, hr⟩
  star := by
    intro _ w r hw
    unfold starOrIdent
    rw [wsp_ws hw.1]
    have : wsp (star ++ r) = 42 :: r := wsp_head (by decide)
    rw [this]
    rfl
  gap_split := fun s => by obtain ⟨w, hw, e⟩ := wsp_split s; exact ⟨w, ⟨hw, fun h => by cases h⟩, e⟩
  gap_gap := fun w s hw => wsp_ws hw.1 s
  gap_item := by
    intro s
    unfold starOrIdent
    obtain ⟨w, hw, e⟩ := wsp_split s
    have : wsp (wsp s) = wsp s := by conv => rhs; rw [e, wsp_ws hw]
    rw [this]
  gap_stop := fun c s h1 h2 => wsp_head ⟨h1, h2⟩
  gap_nil := rfl

theorem break_47 (ids : Ids) (r : Str) : Break ids (47 :: r) := break_code ids 47 rfl (by decide) (by decide) (by decide)

theorem break_stop (ids : Ids) (r : Str) (h : r = [] ∨ ∃ c t, r = c :: t ∧ (c = 32 ∨ c = 9 ∨ c = 44)) : Break ids r := by
  rcases h with rfl | ⟨c, t, rfl, h⟩
  · intro c hc; cases hc
  · rcases h with rfl | rfl | rfl <;> exact break_code ids _ rfl (by decide) (by decide) (by decide)

theorem pathLoop_sound {ids : Ids} {sel : Bool} {item : Str → Option (Str × Str)} {gap : Str → Str}
    (ok : ItemOk ids sel item gap) : ∀ (fuel : Nat) (s : Str) (p : List Str) (r : Str),
    pathLoop item fuel s = some (p, r) → ∃ t, PathText ids sel p t ∧ s = t ++ r := by
  intro fuel
  induction fuel with
  | zero => intro s p r h; cases h
  | succ fuel ih =>
    intro s p r h
    unfold pathLoop at h
    cases hi : item s with
    | none => rw [hi] at h; cases h
    | some nr =>
      obtain ⟨n, q⟩ := nr
      rw [hi] at h
      dsimp only at h
      obtain ⟨w, hw, e, hn⟩ := ok.sound s n q hi
      by_cases hstar : n = star
      · rw [if_pos hstar] at h
        simp only [Option.some.injEq, Prod.mk.injEq] at h
        obtain ⟨rfl, rfl⟩ := h
        exact ⟨w ++ n, .one hw (hn.imp And.left id), by rw [e, List.append_assoc]⟩
      · rw [if_neg hstar] at h
        have hd : Dotted ids n := by
          rcases hn with hn | hn
          · exact hn.1
          · exact absurd hn.2 hstar
        split at h
        · next r' =>
          cases hp : pathLoop item fuel r' with
          | none => rw [hp] at h; cases h
          | some pq =>
            obtain ⟨p', q'⟩ := pq
            rw [hp] at h
            simp only [Option.map_some, Option.some.injEq, Prod.mk.injEq] at h
            obtain ⟨rfl, rfl⟩ := h
            obtain ⟨t, ht, rfl⟩ := ih _ _ _ hp
            exact ⟨w ++ (n ++ 47 :: t), .more hw hd ht, by rw [e]; simp⟩
        · simp only [Option.some.injEq, Prod.mk.injEq] at h
          obtain ⟨rfl, rfl⟩ := h
          exact ⟨w ++ n, .one hw (.inl hd), by rw [e, List.append_assoc]⟩

theorem pathLoop_complete {ids : Ids} {sel : Bool} {item : Str → Option (Str × Str)} {gap : Str → Str}
    (ok : ItemOk ids sel item gap) {p : List Str} {t : Str} (h : PathText ids sel p t) : ∀ (r : Str)
    (_ : r = [] ∨ ∃ c t, r = c :: t ∧ (c = 32 ∨ c = 9 ∨ c = 44)) (fuel : Nat), t.length < fuel →
    pathLoop item fuel (t ++ r) = some (p, r) := by
  induction h with
  | @one w n hw hn =>
    intro r hr fuel hf
    obtain ⟨fuel, rfl⟩ : ∃ k, fuel = k + 1 := ⟨fuel - 1, by omega⟩
    unfold pathLoop
    rw [List.append_assoc]
    rcases hn with hn | ⟨hs, rfl⟩
    · rw [ok.name w n r hw hn (break_stop ids r hr)]
      dsimp only
      rw [if_neg (dotted_ne_star hn)]
      rcases hr with rfl | ⟨c, t, rfl, hc⟩
      · rfl
      · split
        · next heq => cases heq; omega
        · rfl
    · rw [ok.star hs w r hw]
      dsimp only
      rw [if_pos rfl]
  | @more w n t p hw hn _ ih =>
    intro r hr fuel hf
    obtain ⟨fuel, rfl⟩ : ∃ k, fuel = k + 1 := ⟨fuel - 1, by omega⟩
    simp only [List.length_append, List.length_cons] at hf
    unfold pathLoop
    have e : w ++ (n ++ 47 :: t) ++ r = w ++ (n ++ (47 :: (t ++ r))) := by simp
    rw [e, ok.name w n _ hw hn (break_47 ids _)]
    dsimp only
    rw [if_neg (dotted_ne_star hn)]
    show Option.map _ (pathLoop item fuel (t ++ r)) = _
    rw [ih r hr fuel (by omega)]
    rfl

/-- Going past white space before the first name is no different from leaving it to the item parser. -/
theorem pathLoop_gap {ids : Ids} {sel : Bool} {item : Str → Option (Str × Str)} {gap : Str → Str}
    (ok : ItemOk ids sel item gap) (fuel : Nat) (s : Str) : pathLoop item fuel (gap s) = pathLoop item fuel s := by
  cases fuel with
  | zero => rfl
  | succ fuel => unfold pathLoop; rw [ok.gap_item]

theorem optLoop_sound {ids : Ids} {sel : Bool} {item : Str → Option (Str × Str)} {gap : Str → Str}
    (ok : ItemOk ids sel item gap) : ∀ (fuel : Nat) (t : Tree) (s : Str) (t' : Tree), optLoop item gap fuel t s = some t' →
    ∃ ps, OptText ids sel ps s ∧ t' = ps.foldl (fun t p => addPath p t) t := by
  intro fuel
  induction fuel with
  | zero => intro t s t' h; cases h
  | succ fuel ih =>
    intro t s t' h
    unfold optLoop at h
    rw [pathLoop_gap ok] at h
    cases hp : pathLoop item (s.length + 1) s with
    | none => rw [hp] at h; cases h
    | some pr =>
      obtain ⟨p, r⟩ := pr
      rw [hp] at h
      dsimp only at h
      obtain ⟨u, hu, rfl⟩ := pathLoop_sound ok _ _ _ _ hp
      obtain ⟨w, hw, e⟩ := ok.gap_split r
      cases hg : gap r with
      | nil =>
        rw [hg] at h e
        cases h
        rw [List.append_nil] at e
        subst e
        exact ⟨[p], .one hu hw, rfl⟩
      | cons c r' =>
        rw [hg] at h e
        dsimp only at h
        by_cases hc : c = 44
        · rw [if_pos hc] at h
          subst hc
          obtain ⟨ps, hps, rfl⟩ := ih _ _ _ h
          exact ⟨p :: ps, by rw [e]; exact .more hu hw hps, rfl⟩
        · rw [if_neg hc] at h; cases h

theorem gap_stops {sel : Bool} {w : Str} (hw : Gap sel w) (r : Str) (hr : r = [] ∨ ∃ t, r = 44 :: t) :
    w ++ r = [] ∨ ∃ c t, w ++ r = c :: t ∧ (c = 32 ∨ c = 9 ∨ c = 44) := by
  cases w with
  | nil =>
    rcases hr with rfl | ⟨t, rfl⟩
    · exact .inl rfl
    · exact .inr ⟨44, t, rfl, by simp⟩
  | cons c w => exact .inr ⟨c, w ++ r, rfl, by rcases hw.1 c (by simp) with h | h <;> simp [h]⟩

theorem pathText_length {ids : Ids} {sel : Bool} {p : List Str} {t : Str} (h : PathText ids sel p t) : 0 < t.length := by
  cases h with
  | one _ hn =>
    rcases hn with hn | ⟨-, rfl⟩
    · have := hn.ne_nil; simp only [List.length_append]; have := List.length_pos_iff.mpr this; omega
    · simp [star]
  | more _ hn _ => simp only [List.length_append, List.length_cons]; omega

theorem optLoop_complete {ids : Ids} {sel : Bool} {item : Str → Option (Str × Str)} {gap : Str → Str}
    (ok : ItemOk ids sel item gap) {ps : List (List Str)} {s : Str} (h : OptText ids sel ps s) : ∀ (fuel : Nat) (t : Tree),
    s.length < fuel → optLoop item gap fuel t s = some (ps.foldl (fun t p => addPath p t) t) := by
  induction h with
  | @one p u w hu hw =>
    intro fuel t hf
    obtain ⟨fuel, rfl⟩ : ∃ k, fuel = k + 1 := ⟨fuel - 1, by omega⟩
    unfold optLoop
    have hst := gap_stops hw [] (.inl rfl)
    rw [List.append_nil] at hst
    rw [pathLoop_gap ok, pathLoop_complete ok hu w hst _ (by simp; omega)]
    dsimp only
    have : gap w = [] := by
      have := ok.gap_gap w [] hw
      rw [List.append_nil, ok.gap_nil] at this; exact this
    rw [this]
    rfl
  | @more p u w v ps hu hw _ ih =>
    intro fuel t hf
    obtain ⟨fuel, rfl⟩ : ∃ k, fuel = k + 1 := ⟨fuel - 1, by omega⟩
    simp only [List.length_append, List.length_cons] at hf
    have := pathText_length hu
    unfold optLoop
    rw [pathLoop_gap ok, pathLoop_complete ok hu _ (gap_stops hw _ (.inr ⟨v, rfl⟩)) _ (by simp; omega)]
    dsimp only
    rw [ok.gap_gap w _ hw, ok.gap_stop 44 v (by decide) (by decide)]
    dsimp only
    rw [if_pos rfl, ih fuel _ (by omega)]
    rfl

/-- What the option text stands for: exactly the texts of the grammar are accepted, with the dictionaries that hold
their paths. -/
theorem parse_iff {ids : Ids} {sel : Bool} {item : Str → Option (Str × Str)} {gap : Str → Str}
    (ok : ItemOk ids sel item gap) (s : Str) (t : Tree) : optLoop item gap (s.length + 1) .leaf s = some t ↔
    ∃ ps, OptText ids sel ps s ∧ t = ps.foldl (fun t p => addPath p t) .leaf := by
  constructor
  · exact optLoop_sound ok _ _ _ _
  · rintro ⟨ps, h, rfl⟩
    exact optLoop_complete ok h _ _ (by omega)

end Verif.OUri

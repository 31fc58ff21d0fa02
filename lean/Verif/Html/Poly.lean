import Mathlib.Tactic.Linarith
import Mathlib.Tactic.Ring
import Mathlib.Tactic.FieldSimp
import Mathlib.Tactic.Tauto
import Mathlib.Data.Rat.Defs
import Mathlib.Algebra.Order.Field.Rat
/-
C99: image map areas (pyslet/html401.py:362-556 `Coords`).
-/
namespace Verif.Html

/-- html401.py:638-662 `Length`: a number of pixels or a percentage. -/
inductive Len
  | pixel (v : Int)
  | percent (v : Int)
  deriving DecidableEq, Repr

/-- html401.py:725-739 `Length.resolve_value`; ValueError (`none`) for a percentage of an unknown
dimension. -/
def Len.resolve (l : Len) (dim : Option Int) : Option Int :=
  match l with
  | .pixel v => some v
  | .percent v => dim.map fun d => (v * d + 50).fdiv 100

abbrev Pt := Int × Int

/-- html401.py:425-450 `test_rect`; `none` is ValueError. -/
def testRect (c : List Len) (x y : Int) (w h : Option Int) : Option Bool :=
  match c with
  | a :: b :: c :: d :: _ => do
    let x0 ← a.resolve w
    let y0 ← b.resolve h
    let x1 ← c.resolve w
    let y1 ← d.resolve h
    let xs := if x0 > x1 then (x1, x0) else (x0, x1)
    let ys := if y0 > y1 then (y1, y0) else (y0, y1)
    if x < xs.1 ∨ y < ys.1 then pure false
    else if x ≥ xs.2 ∨ y ≥ ys.2 then pure false
    else pure true
  | _ => none

/-- html401.py:508-518: the coordinates in pairs.  An odd one at the end does not occur. -/
def vertices (w h : Option Int) : List Len → Option (List Pt)
  | a :: b :: l => do
    let x ← a.resolve w
    let y ← b.resolve h
    let r ← vertices w h l
    pure ((x, y) :: r)
  | _ => some []

/-- html401.py:531-555: does the side from (x0, y0) to (x1, y1) count?  The code computes xhit in
floating point, the model exactly. -/
def sideHit (x y : Int) (p q : Pt) : Bool :=
  if p.2 = q.2 then false
  else
    let lo := if p.2 > q.2 then q else p
    let hi := if p.2 > q.2 then p else q
    if y < lo.2 ∨ y ≥ hi.2 then false
    else if y = lo.2 then decide (x ≥ lo.1)
    else if x < lo.1 ∧ x < hi.1 then false
    else decide ((((y - lo.2 : Int) : Rat) * ((hi.1 - lo.1 : Int) : Rat) / ((hi.2 - lo.2 : Int) : Rat)
      + (lo.1 : Rat)) ≤ (x : Rat))

/-- html401.py:525-555: the number of sides that count, along a path. -/
def pathHits (x y : Int) : List Pt → Nat
  | p :: q :: l => (if sideHit x y p q then 1 else 0) + pathHits x y (q :: l)
  | _ => 0

/-- html401.py:519-521: the path is closed. -/
def closePath (v : List Pt) : List Pt :=
  match v with
  | [] => []
  | p :: l => if (p :: l).getLast? = some p then p :: l else p :: l ++ [p]

/-- html401.py:482-556 `test_poly`. -/
def testPoly (c : List Len) (x y : Int) (w h : Option Int) : Option Bool :=
  if c.length < 6 then none
  else if c.length % 2 ≠ 0 then none
  else do
    let v ← vertices w h c
    pure (decide (pathHits x y (closePath v) % 2 ≠ 0))

/-! ## Specification -/

/-- The half-line from (x, y) to the left crosses the side between two points: the side has a point
at the height y that is not to the right of x; of the end points the lower one counts and the upper
one does not. -/
def Crosses (x y : Int) (p q : Pt) : Prop :=
  ∃ lo hi : Pt, ((lo = p ∧ hi = q) ∨ (lo = q ∧ hi = p)) ∧
    ∃ t : Rat, 0 ≤ t ∧ t < 1 ∧ (lo.2 : Rat) < hi.2 ∧ (lo.2 : Rat) + t * (hi.2 - lo.2) = y ∧
      (lo.1 : Rat) + t * (hi.1 - lo.1) ≤ x

/-- The sides of a polygon given by its corners. -/
def sides (v : List Pt) : List (Pt × Pt) := v.zip (v.tail ++ v.head?.toList)

open Classical in
/-- The even-odd rule: an odd number of sides is crossed. -/
def Inside (v : List Pt) (x y : Int) : Prop := (sides v).countP (fun s => decide (Crosses x y s.1 s.2)) % 2 = 1

/-- Twice the signed area of the triangle p q (x, y): positive to the left of the line from p to q. -/
def turn (p q : Pt) (x y : Int) : Int := (q.1 - p.1) * (y - p.2) - (x - p.1) * (q.2 - p.2)

/-! ## Lemmas -/

theorem sideHit_symm (x y : Int) (p q : Pt) : sideHit x y p q = sideHit x y q p := by
  unfold sideHit
  by_cases h : p.2 = q.2
  · rw [if_pos h, if_pos h.symm]
  · rw [if_neg h, if_neg (Ne.symm h)]
    by_cases h1 : p.2 > q.2
    · have h2 : ¬ q.2 > p.2 := by omega
      simp only [if_pos h1, if_neg h2]
    · have h2 : q.2 > p.2 := by omega
      simp only [if_pos h2, if_neg h1]

theorem sideHit_self (x y : Int) (p : Pt) : sideHit x y p p = false := by simp [sideHit]

/-- The test of a side in terms of the turn. -/
theorem sideHit_up {x y : Int} {p q : Pt} (h : p.2 < q.2) :
    sideHit x y p q = true ↔ p.2 ≤ y ∧ y < q.2 ∧ turn p q x y ≤ 0 := by
  unfold sideHit turn
  have h1 : ¬ p.2 > q.2 := by omega
  rw [if_neg (by omega)]
  simp only [if_neg h1]
  by_cases hy : y < p.2 ∨ y ≥ q.2
  · rw [if_pos hy]; simp; omega
  · rw [if_neg hy]
    by_cases he : y = p.2
    · subst he
      rw [if_pos rfl]
      simp only [decide_eq_true_eq, sub_self, mul_zero, zero_sub, le_refl, true_and, h]
      constructor
      · intro hx
        have := mul_nonneg (show 0 ≤ x - p.1 by omega) (show 0 ≤ q.2 - p.2 by omega)
        omega
      · intro hx
        by_contra hc
        have := mul_neg_of_neg_of_pos (show x - p.1 < 0 by omega) (show 0 < q.2 - p.2 by omega)
        omega
    · rw [if_neg he]
      have hd : (0 : Rat) < ((q.2 - p.2 : Int) : Rat) := by exact_mod_cast (show 0 < q.2 - p.2 by omega)
      have key : (((y - p.2 : Int) : Rat) * ((q.1 - p.1 : Int) : Rat) / ((q.2 - p.2 : Int) : Rat) + (p.1 : Rat)
          ≤ (x : Rat)) ↔ (q.1 - p.1) * (y - p.2) - (x - p.1) * (q.2 - p.2) ≤ 0 := by
        rw [← le_sub_iff_add_le, div_le_iff₀ hd]
        have e : ((x : Rat) - p.1) * ((q.2 - p.2 : Int) : Rat) = (((x - p.1) * (q.2 - p.2) : Int) : Rat) := by
          push_cast; ring
        have e2 : ((y - p.2 : Int) : Rat) * ((q.1 - p.1 : Int) : Rat) = (((q.1 - p.1) * (y - p.2) : Int) : Rat) := by
          push_cast; ring
        rw [e, e2, Int.cast_le]
        omega
      by_cases hx : x < p.1 ∧ x < q.1
      · rw [if_pos hx]
        simp only [Bool.false_eq_true, false_iff, not_and]
        intro _ _ hn
        have h3 : 0 < y - p.2 := by omega
        have h4 : 0 < q.2 - y := by omega
        have := mul_pos (show 0 < q.1 - x by omega) h3
        have := mul_pos (show 0 < p.1 - x by omega) h4
        nlinarith
      · rw [if_neg hx, decide_eq_true_eq, key]
        constructor
        · intro h; exact ⟨by omega, by omega, h⟩
        · intro h; exact h.2.2

theorem sideHit_down {x y : Int} {p q : Pt} (h : q.2 < p.2) :
    sideHit x y p q = true ↔ q.2 ≤ y ∧ y < p.2 ∧ 0 ≤ turn p q x y := by
  rw [sideHit_symm, sideHit_up h]
  have : turn q p x y = - turn p q x y := by unfold turn; ring
  rw [this]
  constructor
  · rintro ⟨a, b, c⟩; exact ⟨a, b, by omega⟩
  · rintro ⟨a, b, c⟩; exact ⟨a, b, by omega⟩

theorem crosses_up {x y : Int} {p q : Pt} (h : p.2 < q.2) :
    (∃ t : Rat, 0 ≤ t ∧ t < 1 ∧ (p.2 : Rat) < q.2 ∧ (p.2 : Rat) + t * (q.2 - p.2) = y ∧
      (p.1 : Rat) + t * (q.1 - p.1) ≤ x) ↔ p.2 ≤ y ∧ y < q.2 ∧ turn p q x y ≤ 0 := by
  have hd : (0 : Rat) < (q.2 : Rat) - p.2 := by
    have : (p.2 : Rat) < q.2 := by exact_mod_cast h
    linarith
  constructor
  · rintro ⟨t, h0, h1, _, hy, hx⟩
    have a1 : (p.2 : Rat) ≤ y := by nlinarith
    have a2 : (y : Rat) < q.2 := by nlinarith
    refine ⟨by exact_mod_cast a1, by exact_mod_cast a2, ?_⟩
    have : ((turn p q x y : Int) : Rat) ≤ 0 := by
      unfold turn
      push_cast
      have e : (y : Rat) - p.2 = t * (q.2 - p.2) := by linarith
      rw [e]
      nlinarith
    exact_mod_cast this
  · rintro ⟨a, b, c⟩
    have a' : (p.2 : Rat) ≤ y := by exact_mod_cast a
    have b' : (y : Rat) < q.2 := by exact_mod_cast b
    have c' : ((turn p q x y : Int) : Rat) ≤ 0 := by exact_mod_cast c
    unfold turn at c'
    push_cast at c'
    refine ⟨((y : Rat) - p.2) / (q.2 - p.2), by apply div_nonneg <;> linarith, ?_, by exact_mod_cast h, ?_, ?_⟩
    · rw [div_lt_iff₀ hd]; linarith
    · rw [div_mul_cancel₀ _ hd.ne']; ring
    · rw [div_mul_eq_mul_div, ← le_sub_iff_add_le', div_le_iff₀ hd]
      linarith

/-- The test of a side is the crossing of the half-line. -/
theorem sideHit_iff (x y : Int) (p q : Pt) : sideHit x y p q = true ↔ Crosses x y p q := by
  have no : ∀ {a b : Pt}, ¬ a.2 < b.2 → ¬ ∃ t : Rat, 0 ≤ t ∧ t < 1 ∧ (a.2 : Rat) < b.2 ∧
      (a.2 : Rat) + t * (b.2 - a.2) = y ∧ (a.1 : Rat) + t * (b.1 - a.1) ≤ x := by
    rintro a b h ⟨t, _, _, hlt, _⟩
    exact h (by exact_mod_cast hlt)
  have split : Crosses x y p q ↔
      (∃ t : Rat, 0 ≤ t ∧ t < 1 ∧ (p.2 : Rat) < q.2 ∧ (p.2 : Rat) + t * (q.2 - p.2) = y ∧
        (p.1 : Rat) + t * (q.1 - p.1) ≤ x) ∨
      (∃ t : Rat, 0 ≤ t ∧ t < 1 ∧ (q.2 : Rat) < p.2 ∧ (q.2 : Rat) + t * (p.2 - q.2) = y ∧
        (q.1 : Rat) + t * (p.1 - q.1) ≤ x) := by
    constructor
    · rintro ⟨lo, hi, (⟨rfl, rfl⟩ | ⟨rfl, rfl⟩), h⟩
      · exact Or.inl h
      · exact Or.inr h
    · rintro (h | h)
      · exact ⟨p, q, Or.inl ⟨rfl, rfl⟩, h⟩
      · exact ⟨q, p, Or.inr ⟨rfl, rfl⟩, h⟩
  rw [split]
  rcases lt_trichotomy p.2 q.2 with h | h | h
  · rw [sideHit_up h, crosses_up h]
    have := no (a := q) (b := p) (by omega)
    exact ⟨Or.inl, fun h' => h'.elim id fun h' => absurd h' this⟩
  · have h1 := no (a := q) (b := p) (by omega)
    have h2 := no (a := p) (b := q) (by omega)
    simp only [sideHit, if_pos h]
    exact ⟨fun h' => (by cases h'), fun h' => h'.elim (fun h' => absurd h' h2) fun h' => absurd h' h1⟩
  · rw [sideHit_symm, sideHit_up h, crosses_up h]
    have := no (a := p) (b := q) (by omega)
    exact ⟨Or.inr, fun h' => h'.elim (fun h' => absurd h' this) id⟩

def bit (b : Bool) : Nat := if b then 1 else 0

theorem pathHits_cons (x y : Int) (p q : Pt) (l : List Pt) :
    pathHits x y (p :: q :: l) = bit (sideHit x y p q) + pathHits x y (q :: l) := rfl

theorem pathHits_append (x y : Int) : ∀ (a : List Pt) (p : Pt) (b : List Pt),
    pathHits x y (a ++ p :: b) = pathHits x y (a ++ [p]) + pathHits x y (p :: b)
  | [], p, b => by simp [pathHits]
  | [c], p, b => by simp [pathHits_cons, pathHits]
  | c :: d :: a, p, b => by
    have := pathHits_append x y (d :: a) p b
    simp only [List.cons_append] at this ⊢
    rw [pathHits_cons, pathHits_cons, this]
    omega

theorem pathHits_reverse (x y : Int) : ∀ v : List Pt, pathHits x y v.reverse = pathHits x y v
  | [] => rfl
  | [p] => rfl
  | p :: q :: l => by
    rw [List.reverse_cons, List.reverse_cons, List.append_assoc, List.singleton_append,
      pathHits_append, ← List.reverse_cons, pathHits_reverse x y (q :: l), pathHits_cons, pathHits_cons,
      sideHit_symm]
    simp only [pathHits]
    omega

/-- Closing the path: with or without the last point the count is that of the closed path. -/
theorem closePath_hits (x y : Int) (p : Pt) (l : List Pt) :
    pathHits x y (closePath (p :: l)) = pathHits x y (p :: l ++ [p]) := by
  simp only [closePath]
  split
  · rename_i h
    obtain ⟨a, ha⟩ : ∃ a, p :: l = a ++ [p] := by
      rw [List.getLast?_eq_some_iff] at h
      exact h
    rw [ha, List.append_assoc, List.singleton_append, pathHits_append x y a p [p]]
    simp [sideHit_self, pathHits]
  · rfl

theorem pathHits_zip (x y : Int) : ∀ (p : Pt) (l : List Pt),
    pathHits x y (p :: l) = ((p :: l).zip l).countP (fun s => sideHit x y s.1 s.2)
  | p, [] => rfl
  | p, q :: l => by
    rw [pathHits_cons, pathHits_zip x y q l, List.zip_cons_cons, List.countP_cons]
    rw [Nat.add_comm]
    rfl

theorem sides_cons (p : Pt) (l : List Pt) : sides (p :: l) = (p :: l).zip (l ++ [p]) := rfl

theorem zip_extra : ∀ (a : List Pt) (b c : List Pt), a.length = b.length → (a ++ c).zip b = a.zip b
  | [], [], c, _ => by simp
  | x :: a, y :: b, c, h => by
    simp only [List.cons_append, List.zip_cons_cons]
    rw [zip_extra a b c (by simpa using h)]

theorem hits_sides (x y : Int) (p : Pt) (l : List Pt) :
    pathHits x y (closePath (p :: l)) = (sides (p :: l)).countP (fun s => sideHit x y s.1 s.2) := by
  rw [closePath_hits, List.cons_append, pathHits_zip, sides_cons, ← List.cons_append, zip_extra]
  simp

open Classical in
theorem inside_iff (x y : Int) (p : Pt) (l : List Pt) :
    Inside (p :: l) x y ↔ pathHits x y (p :: l ++ [p]) % 2 = 1 := by
  rw [← closePath_hits, hits_sides]
  unfold Inside
  rw [show (sides (p :: l)).countP (fun s => decide (Crosses x y s.1 s.2)) =
      (sides (p :: l)).countP (fun s => sideHit x y s.1 s.2) from List.countP_congr fun s _ => by
        rw [decide_eq_true_eq, sideHit_iff]]

theorem vertices_length {w h : Option Int} : ∀ {c : List Len} {v : List Pt}, c.length % 2 = 0 →
    vertices w h c = some v → v.length * 2 = c.length
  | [], v, _, h => by simp [vertices] at h; simp [← h]
  | [a], v, hc, _ => by simp at hc
  | a :: b :: l, v, hc, h => by
    simp only [vertices, Option.bind_eq_bind, Option.bind_eq_some_iff, Option.pure_def, Option.some.injEq] at h
    obtain ⟨_, _, _, _, r, hr, rfl⟩ := h
    have := vertices_length (c := l) (by simp only [List.length_cons] at hc; omega) hr
    simp only [List.length_cons] at *
    omega

/-! ## Theorems -/

/-- C99: a point is in a poly area exactly when the half-line from the point to the left crosses an
odd number of the sides of the polygon. -/
theorem C99_poly (c : List Len) (x y : Int) (w h : Option Int) (b : Bool)
    (ht : testPoly c x y w h = some b) :
    ∃ v, vertices w h c = some v ∧ 3 ≤ v.length ∧ (b = true ↔ Inside v x y) := by
  unfold testPoly at ht
  split at ht
  · cases ht
  · split at ht
    · cases ht
    · rename_i h1 h2
      simp only [Option.bind_eq_bind, Option.bind_eq_some_iff, Option.pure_def, Option.some.injEq] at ht
      obtain ⟨v, hv, rfl⟩ := ht
      have hl := vertices_length (by omega) hv
      refine ⟨v, hv, by omega, ?_⟩
      cases v with
      | nil => simp at hl; omega
      | cons p l =>
        rw [inside_iff, ← closePath_hits, decide_eq_true_eq]
        omega

/-- The test succeeds for three or more pairs of lengths that can be resolved. -/
theorem C99_poly_total (c : List Len) (x y : Int) (w h : Option Int) (h6 : 6 ≤ c.length)
    (h2 : c.length % 2 = 0) (v : List Pt) (hv : vertices w h c = some v) :
    ∃ b, testPoly c x y w h = some b := by
  unfold testPoly
  rw [if_neg (by omega), if_neg (by omega), hv]
  exact ⟨_, rfl⟩

/-- C99: it makes no difference whether the first corner is repeated at the end. -/
theorem C99_closed (p : Pt) (l : List Pt) (x y : Int) : Inside (p :: l ++ [p]) x y ↔ Inside (p :: l) x y := by
  rw [List.cons_append, inside_iff, inside_iff]
  have : pathHits x y (p :: (l ++ [p]) ++ [p]) = pathHits x y (p :: l ++ [p]) := by
    have := pathHits_append x y (p :: l) p [p]
    simp only [List.cons_append, List.append_assoc, List.nil_append] at this ⊢
    rw [this]
    simp [sideHit_self, pathHits]
  rw [this]

/-- C99: the corners may be listed in either direction. -/
theorem C99_reverse (v : List Pt) (x y : Int) : Inside v.reverse x y ↔ Inside v x y := by
  cases v with
  | nil => rfl
  | cons p l =>
    cases hr : (p :: l).reverse with
    | nil => simp at hr
    | cons q m =>
      rw [inside_iff, inside_iff]
      have e : q :: m = l.reverse ++ [p] := by rw [← hr, List.reverse_cons]
      have h1 : pathHits x y (q :: m ++ [q]) = pathHits x y (l.reverse ++ [p]) + bit (sideHit x y p q) := by
        rw [e, List.append_assoc, List.singleton_append, pathHits_append, pathHits_cons]
        simp [pathHits]
      have h2 : pathHits x y (p :: l ++ [p]) = pathHits x y (p :: l) + bit (sideHit x y p q) := by
        have : (p :: l ++ [p]).reverse = p :: q :: m := by
          rw [List.reverse_append, hr]; rfl
        rw [← pathHits_reverse, this, pathHits_cons, ← hr, pathHits_reverse]
        omega
      have h3 : pathHits x y (l.reverse ++ [p]) = pathHits x y (p :: l) := by
        rw [← List.reverse_cons, pathHits_reverse]
      rw [h1, h2, h3]

/-- C99: it does not matter at which corner the list begins. -/
theorem C99_rotate (a b : List Pt) (x y : Int) : Inside (a ++ b) x y ↔ Inside (b ++ a) x y := by
  cases a with
  | nil => simp
  | cons p l =>
    cases b with
    | nil => simp
    | cons q m =>
      rw [List.cons_append, List.cons_append, inside_iff, inside_iff]
      have h1 : pathHits x y (p :: (l ++ q :: m) ++ [p]) = pathHits x y (p :: l ++ [q]) + pathHits x y (q :: m ++ [p]) := by
        have := pathHits_append x y (p :: l) q (m ++ [p])
        simpa using this
      have h2 : pathHits x y (q :: (m ++ p :: l) ++ [q]) = pathHits x y (q :: m ++ [p]) + pathHits x y (p :: l ++ [q]) := by
        have := pathHits_append x y (q :: m) p (l ++ [q])
        simpa using this
      rw [h1, h2, Nat.add_comm]

/-- C99: when a polygon is cut in two along a line from the corner p to the corner q, a point is in the
whole exactly when it is in one of the parts but not in the other: the parts of a map do not overlap
and leave no gap. -/
theorem C99_cut (p q : Pt) (a b : List Pt) (x y : Int) :
    Inside (p :: a ++ q :: b) x y ↔ (Inside (p :: a ++ [q]) x y ↔ ¬ Inside (q :: b ++ [p]) x y) := by
  rw [List.cons_append, List.cons_append, List.cons_append, inside_iff, inside_iff, inside_iff]
  have h1 : pathHits x y (p :: (a ++ q :: b) ++ [p]) = pathHits x y (p :: a ++ [q]) + pathHits x y (q :: b ++ [p]) := by
    have := pathHits_append x y (p :: a) q (b ++ [p])
    simpa using this
  have h2 : pathHits x y (p :: (a ++ [q]) ++ [p]) = pathHits x y (p :: a ++ [q]) + bit (sideHit x y q p) := by
    have := pathHits_append x y (p :: a) q [p]
    simp only [List.cons_append, List.append_assoc, List.nil_append] at this ⊢
    rw [this, pathHits_cons]; rfl
  have h3 : pathHits x y (q :: (b ++ [p]) ++ [q]) = pathHits x y (q :: b ++ [p]) + bit (sideHit x y q p) := by
    have := pathHits_append x y (q :: b) p [q]
    simp only [List.cons_append, List.append_assoc, List.nil_append] at this ⊢
    rw [this, pathHits_cons, sideHit_symm]; rfl
  rw [h1, h2, h3]
  unfold bit
  split <;> omega

/-- C99: a rectangle given as a polygon is the area of `test_rect`: the left and top edges belong to
it, the right and bottom edges do not. -/
theorem C99_rect (x0 y0 x1 y1 : Int) (more : List Len) (x y : Int) (w h : Option Int) (hx : x0 < x1) (hy : y0 < y1) :
    testRect (.pixel x0 :: .pixel y0 :: .pixel x1 :: .pixel y1 :: more) x y w h =
      some (decide (x0 ≤ x ∧ x < x1 ∧ y0 ≤ y ∧ y < y1)) ∧
    testPoly [.pixel x0, .pixel y0, .pixel x1, .pixel y0, .pixel x1, .pixel y1, .pixel x0, .pixel y1] x y w h =
      some (decide (x0 ≤ x ∧ x < x1 ∧ y0 ≤ y ∧ y < y1)) := by
  constructor
  · simp only [testRect, Len.resolve]
    have h1 : ¬ x0 > x1 := by omega
    have h2 : ¬ y0 > y1 := by omega
    simp only [Option.bind_eq_bind, Option.bind_some, if_neg h1, if_neg h2, Option.pure_def]
    split
    · simp; omega
    · split
      · simp; omega
      · simp; omega
  · have hv : vertices w h [.pixel x0, .pixel y0, .pixel x1, .pixel y0, .pixel x1, .pixel y1, .pixel x0, .pixel y1] =
        some [(x0, y0), (x1, y0), (x1, y1), (x0, y1)] := rfl
    unfold testPoly
    rw [if_neg (by simp), if_neg (by simp), hv]
    have e1 : sideHit x y (x0, y0) (x1, y0) = false := by simp [sideHit]
    have e3 : sideHit x y (x1, y1) (x0, y1) = false := by simp [sideHit]
    have ht : 0 < y1 - y0 := by omega
    have e2 : sideHit x y (x1, y0) (x1, y1) = decide (y0 ≤ y ∧ y < y1 ∧ x1 ≤ x) := by
      rw [Bool.eq_iff_iff, sideHit_up (p := (x1, y0)) (q := (x1, y1)) hy, decide_eq_true_eq]
      simp only [turn, sub_self, zero_mul, zero_sub, Left.neg_nonpos_iff]
      constructor
      · rintro ⟨a, b, c⟩
        refine ⟨a, b, ?_⟩
        by_contra hn
        have := mul_neg_of_neg_of_pos (show x - x1 < 0 by omega) ht
        omega
      · rintro ⟨a, b, c⟩
        exact ⟨a, b, mul_nonneg (by omega) ht.le⟩
    have e4 : sideHit x y (x0, y1) (x0, y0) = decide (y0 ≤ y ∧ y < y1 ∧ x0 ≤ x) := by
      rw [Bool.eq_iff_iff, sideHit_symm, sideHit_up (p := (x0, y0)) (q := (x0, y1)) hy, decide_eq_true_eq]
      simp only [turn, sub_self, zero_mul, zero_sub, Left.neg_nonpos_iff]
      constructor
      · rintro ⟨a, b, c⟩
        refine ⟨a, b, ?_⟩
        by_contra hn
        have := mul_neg_of_neg_of_pos (show x - x0 < 0 by omega) ht
        omega
      · rintro ⟨a, b, c⟩
        exact ⟨a, b, mul_nonneg (by omega) ht.le⟩
    have hh : pathHits x y (closePath ((x0, y0) :: [(x1, y0), (x1, y1), (x0, y1)])) =
        bit (decide (y0 ≤ y ∧ y < y1 ∧ x1 ≤ x)) + bit (decide (y0 ≤ y ∧ y < y1 ∧ x0 ≤ x)) := by
      rw [closePath_hits]
      change bit (sideHit x y (x0, y0) (x1, y0)) + (bit (sideHit x y (x1, y0) (x1, y1)) +
        (bit (sideHit x y (x1, y1) (x0, y1)) + (bit (sideHit x y (x0, y1) (x0, y0)) + 0))) = _
      rw [e1, e2, e3, e4]
      simp [bit]
    change some (decide (pathHits x y (closePath ((x0, y0) :: [(x1, y0), (x1, y1), (x0, y1)])) % 2 ≠ 0)) = _
    rw [hh]
    refine congrArg some (decide_eq_decide.2 ?_)
    clear hh e1 e2 e3 e4 hv
    have hb : ∀ (P : Prop) [Decidable P], bit (decide P) = if P then 1 else 0 := by
      intro P _; unfold bit; by_cases h : P <;> simp [h]
    rw [hb, hb]
    split <;> split <;> omega

theorem corner {D1 D2 D3 A B C : Int} (hs : D1 * C + D2 * A + D3 * B = 0) (hS : 0 < D1 + D2 + D3) :
    (A ≤ 0 → C ≤ 0 → 0 < B → ¬ (D1 ≤ 0 ∧ D2 < 0) ∧ ¬ (0 < D1 ∧ 0 ≤ D2 ∧ D3 < 0)) ∧
    (0 < A → 0 < C → B ≤ 0 → ¬ (0 ≤ D1 ∧ 0 < D2 ∧ D3 < 0) ∧ ¬ (D1 < 0 ∧ D2 ≤ 0)) := by
  refine ⟨fun hA hC hB => ⟨?_, ?_⟩, fun hA hC hB => ⟨?_, ?_⟩⟩
  · rintro ⟨h1, h2⟩
    have := mul_nonneg_of_nonpos_of_nonpos h1 hC
    have := mul_nonneg_of_nonpos_of_nonpos h2.le hA
    have := mul_pos (show 0 < D3 by omega) hB
    omega
  · rintro ⟨h1, h2, h3⟩
    have := mul_nonpos_of_nonneg_of_nonpos h1.le hC
    have := mul_nonpos_of_nonneg_of_nonpos h2 hA
    have := mul_neg_of_neg_of_pos h3 hB
    omega
  · rintro ⟨h1, h2, h3⟩
    have := mul_nonneg h1 hC.le
    have := mul_pos h2 hA
    have := mul_nonneg_of_nonpos_of_nonpos h3.le hB
    omega
  · rintro ⟨h1, h2⟩
    have := mul_neg_of_neg_of_pos h1 hC
    have := mul_nonpos_of_nonpos_of_nonneg h2 hA.le
    have := mul_nonpos_of_nonneg_of_nonpos (show 0 ≤ D3 by omega) hB
    omega

theorem turn_sum (a b c : Pt) (x y : Int) : turn a b x y * (c.2 - y) + turn b c x y * (a.2 - y) +
    turn c a x y * (b.2 - y) = 0 := by
  unfold turn; ring

/-- C99: of a triangle with the corners in positive order, the points strictly inside belong to the area
and the points strictly outside do not. -/
theorem C99_triangle (a b c : Pt) (x y : Int) :
    (0 < turn a b x y → 0 < turn b c x y → 0 < turn c a x y → Inside [a, b, c] x y) ∧
    (0 < turn a b x y + turn b c x y + turn c a x y →
      turn a b x y < 0 ∨ turn b c x y < 0 ∨ turn c a x y < 0 → ¬ Inside [a, b, c] x y) := by
  have hs := turn_sum a b c x y
  have hit : ∀ p q : Pt, sideHit x y p q = true ↔
      (p.2 ≤ y ∧ y < q.2 ∧ turn p q x y ≤ 0) ∨ (q.2 ≤ y ∧ y < p.2 ∧ 0 ≤ turn p q x y) := by
    intro p q
    rcases lt_trichotomy p.2 q.2 with h | h | h
    · rw [sideHit_up h]
      constructor
      · exact Or.inl
      · rintro (h' | h')
        · exact h'
        · omega
    · simp only [sideHit, if_pos h]
      simp; omega
    · rw [sideHit_down h]
      constructor
      · exact Or.inr
      · rintro (h' | h')
        · omega
        · exact h'
  have hab := hit a b
  have hbc := hit b c
  have hca := hit c a
  rw [inside_iff]
  simp only [List.cons_append, List.nil_append, pathHits_cons, pathHits, bit]
  have hz : a.2 = y → b.2 = y → turn a b x y = 0 := by
    intro h1 h2; unfold turn; rw [h1, h2]; ring
  generalize turn a b x y = D1 at *
  generalize turn b c x y = D2 at *
  generalize turn c a x y = D3 at *
  clear hit
  generalize sideHit x y a b = B1 at *
  generalize sideHit x y b c = B2 at *
  generalize sideHit x y c a = B3 at *
  constructor
  · intro h1 h2 h3
    have n1 : ¬ (y < a.2 ∧ y < b.2 ∧ y < c.2) := by
      rintro ⟨ha, hb, hc⟩
      have := mul_pos h1 (sub_pos.2 hc)
      have := mul_pos h2 (sub_pos.2 ha)
      have := mul_pos h3 (sub_pos.2 hb)
      omega
    have n2 : ¬ (a.2 ≤ y ∧ b.2 ≤ y ∧ c.2 ≤ y) := by
      rintro ⟨ha, hb, hc⟩
      have k1 := mul_nonpos_of_nonneg_of_nonpos h1.le (sub_nonpos.2 hc)
      have k2 := mul_nonpos_of_nonneg_of_nonpos h2.le (sub_nonpos.2 ha)
      have k3 := mul_nonpos_of_nonneg_of_nonpos h3.le (sub_nonpos.2 hb)
      by_cases e1 : a.2 = y
      · by_cases e2 : b.2 = y
        · have := hz e1 e2; omega
        · have := mul_neg_of_pos_of_neg h3 (show b.2 - y < 0 by omega)
          omega
      · have := mul_neg_of_pos_of_neg h2 (show a.2 - y < 0 by omega)
        omega
    clear hs hz
    cases B1 <;> cases B2 <;> cases B3 <;>
      simp only [Bool.false_eq_true, false_iff, true_iff, if_true, if_false] at * <;> omega
  · intro hS hD
    have k1 := corner hs hS
    have k2 := corner (D1 := D2) (D2 := D3) (D3 := D1) (A := b.2 - y) (B := c.2 - y) (C := a.2 - y)
      (by linarith) (by omega)
    have k3 := corner (D1 := D3) (D2 := D1) (D3 := D2) (A := c.2 - y) (B := a.2 - y) (C := b.2 - y)
      (by linarith) (by omega)
    clear hs hz
    rcases le_or_gt a.2 y with ha | ha <;> rcases le_or_gt b.2 y with hb | hb <;> rcases le_or_gt c.2 y with hc | hc
    · clear k1 k2 k3
      cases B1 <;> cases B2 <;> cases B3 <;>
        simp only [Bool.false_eq_true, false_iff, true_iff, if_true, if_false] at hab hbc hca ⊢ <;> omega
    · replace k2 := k2.1 (by omega) (by omega) (by omega)
      clear k1 k3
      cases B1 <;> cases B2 <;> cases B3 <;>
        simp only [Bool.false_eq_true, false_iff, true_iff, if_true, if_false] at hab hbc hca ⊢ <;> omega
    · replace k1 := k1.1 (by omega) (by omega) (by omega)
      clear k2 k3
      cases B1 <;> cases B2 <;> cases B3 <;>
        simp only [Bool.false_eq_true, false_iff, true_iff, if_true, if_false] at hab hbc hca ⊢ <;> omega
    · replace k3 := k3.2 (by omega) (by omega) (by omega)
      clear k1 k2
      cases B1 <;> cases B2 <;> cases B3 <;>
        simp only [Bool.false_eq_true, false_iff, true_iff, if_true, if_false] at hab hbc hca ⊢ <;> omega
    · replace k3 := k3.1 (by omega) (by omega) (by omega)
      clear k1 k2
      cases B1 <;> cases B2 <;> cases B3 <;>
        simp only [Bool.false_eq_true, false_iff, true_iff, if_true, if_false] at hab hbc hca ⊢ <;> omega
    · replace k1 := k1.2 (by omega) (by omega) (by omega)
      clear k2 k3
      cases B1 <;> cases B2 <;> cases B3 <;>
        simp only [Bool.false_eq_true, false_iff, true_iff, if_true, if_false] at hab hbc hca ⊢ <;> omega
    · replace k2 := k2.2 (by omega) (by omega) (by omega)
      clear k1 k3
      cases B1 <;> cases B2 <;> cases B3 <;>
        simp only [Bool.false_eq_true, false_iff, true_iff, if_true, if_false] at hab hbc hca ⊢ <;> omega
    · clear k1 k2 k3
      cases B1 <;> cases B2 <;> cases B3 <;>
        simp only [Bool.false_eq_true, false_iff, true_iff, if_true, if_false] at hab hbc hca ⊢ <;> omega

/-! ### Concrete cases -/

/-- A triangle that is not closed: inside, outside, and on the boundary. -/
example : ([(3, 3), (8, 8), (0, 5), (5, 5)] : List Pt).map (fun p => testPoly
    [.pixel 0, .pixel 0, .pixel 10, .pixel 0, .pixel 0, .percent 50] p.1 p.2 (some 20) (some 20)) =
    [some true, some false, some true, some false] := by decide +kernel

example : 0 < turn (0, 0) (10, 0) 3 3 ∧ 0 < turn (10, 0) (0, 10) 3 3 ∧ 0 < turn (0, 10) (0, 0) 3 3 ∧
    turn (10, 0) (0, 10) 8 8 < 0 ∧
    0 < turn (0, 0) (10, 0) 8 8 + turn (10, 0) (0, 10) 8 8 + turn (0, 10) (0, 0) 8 8 := by decide

end Verif.Html

import Verif.Html.Attr
import Verif.Xml.Doc
import Mathlib.Tactic.NormNum
import Mathlib.Tactic.Linarith
import Mathlib.Tactic.Ring
/-!
# Identifiers and regions, `pyslet/qtiv2/core.py:60-93, 159-271` (C162, C163)
-/
namespace Verif.Qti.Region
open Html

/-! ### Identifiers -/

/-- The loop over the characters, core.py:84-90. -/
def fixChars : List Nat → List Nat
  | [] => []
  | c :: s => (if c = 58 then 45 else if Xml.isNameChar c then c else 95) :: fixChars s

/-- `validate_identifier`, core.py:60-93. -/
def validateIdentifier (value pre : List Nat) : List Nat :=
  match value with
  | [] => pre
  | c :: _ => (if Xml.isNameStart c = false then pre else if c = 58 then pre else []) ++ fixChars value

/-- An identifier: a Name of XML without a colon. -/
def Ident (s : List Nat) : Prop := ∃ c r, s = c :: r ∧ Xml.isNameStart c = true ∧ (∀ x ∈ r, Xml.isNameChar x = true) ∧ 58 ∉ s

theorem fixChars_ok : ∀ s : List Nat, ∀ x ∈ fixChars s, Xml.isNameChar x = true ∧ x ≠ 58 := by
  intro s
  induction s with
  | nil => intro x hx; cases hx
  | cons c s ih =>
    intro x hx
    rw [fixChars] at hx
    rcases List.mem_cons.mp hx with rfl | hx
    · by_cases h : c = 58
      · rw [if_pos h]; exact ⟨by decide, by decide⟩
      · rw [if_neg h]
        by_cases h' : Xml.isNameChar c = true
        · rw [if_pos h']; exact ⟨h', h⟩
        · rw [if_neg h']; exact ⟨by decide, by decide⟩
    · exact ih x hx

theorem nameChar_of_start {c : Nat} (h : Xml.isNameStart c = true) : Xml.isNameChar c = true := by
  unfold Xml.isNameChar; rw [h]; rfl

/-- **C162**: whatever the value, the result is an identifier, if the prefix is one. -/
theorem C162_valid (value pre : List Nat) (hp : Ident pre) : Ident (validateIdentifier value pre) := by
  cases value with
  | nil => exact hp
  | cons c s =>
    unfold validateIdentifier
    dsimp only
    have key : Ident (pre ++ fixChars (c :: s)) := by
      obtain ⟨d, r, rfl, h1, h2, h3⟩ := hp
      refine ⟨d, r ++ fixChars (c :: s), rfl, h1, ?_, ?_⟩
      · intro x hx
        rcases List.mem_append.mp hx with hx | hx
        · exact h2 x hx
        · exact (fixChars_ok _ x hx).1
      · intro hx
        rcases List.mem_append.mp hx with hx | hx
        · exact h3 hx
        · exact (fixChars_ok _ _ hx).2 rfl
    by_cases h : Xml.isNameStart c = false
    · rw [if_pos h]; exact key
    · rw [if_neg h]
      by_cases h5 : c = 58
      · rw [if_pos h5]; exact key
      · rw [if_neg h5, List.nil_append]
        have hc : Xml.isNameStart c = true := by simpa using h
        refine ⟨c, fixChars s, ?_, hc, fun x hx => (fixChars_ok _ x hx).1, fun hx => (fixChars_ok _ _ hx).2 rfl⟩
        rw [fixChars, if_neg h5, if_pos (nameChar_of_start hc)]

/-- **C162**: an identifier is not changed. -/
theorem C162_unchanged (value pre : List Nat) (h : Ident value) : validateIdentifier value pre = value := by
  obtain ⟨c, r, rfl, h1, h2, h3⟩ := h
  have hfix : ∀ s : List Nat, (∀ x ∈ s, Xml.isNameChar x = true) → 58 ∉ s → fixChars s = s := by
    intro s
    induction s with
    | nil => intro _ _; rfl
    | cons d s ih =>
      intro ha hb
      simp only [List.mem_cons, not_or] at hb
      rw [fixChars, if_neg (Ne.symm hb.1), if_pos (ha d (by simp)), ih (fun x hx => ha x (by simp [hx])) hb.2]
  unfold validateIdentifier
  dsimp only
  have h5 : c ≠ 58 := fun e => h3 (by simp [e])
  rw [if_neg (by simp [h1]), if_neg h5, List.nil_append]
  refine hfix _ ?_ h3
  intro x hx
  rcases List.mem_cons.mp hx with rfl | hx
  · exact nameChar_of_start h1
  · exact h2 x hx

/-- **C162**: characters keep their places; only the prefix may come before them, a colon becomes a hyphen, and what cannot be in a name
an underscore. -/
theorem C162_places (value pre : List Nat) (h : value ≠ []) : ∃ k, (k = 0 ∨ k = pre.length) ∧ (validateIdentifier value pre).length = k + value.length ∧
    ∀ i c, value[i]? = some c → (validateIdentifier value pre)[k + i]? = some (if c = 58 then 45 else if Xml.isNameChar c then c else 95) := by
  have hm : ∀ s, fixChars s = s.map fun c => if c = 58 then 45 else if Xml.isNameChar c then c else 95 := by
    intro s
    induction s with
    | nil => rfl
    | cons c s ih => rw [fixChars, ih]; rfl
  have hp : ∃ p, (p = [] ∨ p = pre) ∧ validateIdentifier value pre = p ++ fixChars value := by
    cases value with
    | nil => exact absurd rfl h
    | cons c s =>
      unfold validateIdentifier
      dsimp only
      by_cases h1 : Xml.isNameStart c = false
      · exact ⟨pre, .inr rfl, by rw [if_pos h1]⟩
      · rw [if_neg h1]
        by_cases h2 : c = 58
        · exact ⟨pre, .inr rfl, by rw [if_pos h2]⟩
        · exact ⟨[], .inl rfl, by rw [if_neg h2]⟩
  obtain ⟨p, hp1, hp2⟩ := hp
  refine ⟨p.length, ?_, by rw [hp2, hm]; simp, ?_⟩
  · rcases hp1 with rfl | rfl
    · exact .inl rfl
    · exact .inr rfl
  · intro i c hc
    rw [hp2, hm, List.getElem?_append_right (by omega), Nat.add_sub_cancel_left, List.getElem?_map, hc]
    rfl

/-- **C162** (violation of uniqueness): different values can give the same identifier, `a b` and `a_b`. -/
theorem C162_clash_violation : validateIdentifier [97, 32, 98] [95] = validateIdentifier [97, 95, 98] [95] := by decide +kernel

example : Ident [95] ∧ validateIdentifier [49, 58, 32] [95] = [95, 49, 45, 95] := ⟨⟨95, [], rfl, by decide, by simp, by decide⟩, by decide +kernel⟩

/-! ### Regions -/

inductive Shape where
  | circle | default | ellipse | poly | rect
deriving DecidableEq, Repr

/-- What a call does: a value, an exception, or nothing within the given number of iterations. -/
inductive Out (α : Type) where
  | ok (a : α)
  | raised
  | running
deriving DecidableEq, Repr

/-- `[a, b, c, d]` or the exception of `resolve_value`. -/
def four (a b c d : Option Int) : Out (List Int) :=
  match a, b, c, d with
  | some a, some b, some c, some d => .ok [a, b, c, d]
  | _, _, _, _ => .raised

/-- The loop of core.py:178-188: `i` is never changed in it.  `n` iterations. -/
def polyLoop (coords : List Len) (i : Nat) : Nat → List Int → Out (List Int)
  | 0, _ => .running
  | n + 1, out =>
    if 2 * i + 1 < coords.length then
      match coords[2 * i]?, coords[2 * i + 1]?, out with
      | some a, some b, [x0, y0, x1, y1] => match a.resolve (some 1024), b.resolve (some 768) with
        | some x, some y => polyLoop coords i n
            [if x < x0 then x else x0, if y < y0 then y else y0, if x < x0 then x1 else if x > x1 then x else x1, if y < y0 then y1 else if y > y1 then y else y1]
        | _, _ => .raised
      | _, _, _ => .raised
    else .ok out

/-- `calculate_shape_bounds`, core.py:159-194, with at most `n` iterations of the loop; `raised` is IndexError when coordinates are missing. -/
def shapeBounds (n : Nat) (shape : Shape) (coords : List Len) : Out (List Int) :=
  let X (l : Len) := l.resolve (some 1024)
  let Y (l : Len) := l.resolve (some 768)
  match shape, coords with
  | .circle, a :: b :: r :: _ => match X a, Y b, Y r with
    | some x, some y, some r => .ok [x - r, y - r, x + r, y + r]
    | _, _, _ => .raised
  | .default, _ => .ok [0, 0, 1024, 768]
  | .ellipse, a :: b :: c :: d :: _ => match X a, Y b, X c, Y d with
    | some x, some y, some rx, some ry => .ok [x - rx, y - ry, x + rx, y + ry]
    | _, _, _, _ => .raised
  | .poly, a :: b :: _ => match X a, Y b with
    | some x, some y => polyLoop coords 1 n [x, y, x, y]
    | _, _ => .raised
  | .rect, a :: b :: c :: d :: _ => four (X a) (Y b) (X c) (Y d)
  | _, _ => .raised

/-- `Length.add` of an integer, html401.py:742-761: only for pixels. -/
def addTo (v : Int) : Len → Option Len
  | .pixel p => some (.pixel (p + v))
  | .percent _ => none

/-- The loop of core.py:211-214: `i` stays 0. -/
def offsetLoop (xo yo : Int) : Nat → List Len → Out (List Len)
  | 0, _ => .running
  | n + 1, a :: b :: r => match addTo (-xo) a, addTo (-yo) b with
    | some a, some b => offsetLoop xo yo n (a :: b :: r)
    | _, _ => .raised
  | _ + 1, r => .ok r

/-- `offset_shape`, core.py:197-221: the coordinates after the call. -/
def offsetShape (n : Nat) (shape : Shape) (coords : List Len) (xo yo : Int) : Out (List Len) :=
  match shape, coords with
  | .circle, a :: b :: r | .ellipse, a :: b :: r => match addTo (-xo) a, addTo (-yo) b with
    | some a, some b => .ok (a :: b :: r)
    | _, _ => .raised
  | .default, c => .ok c
  | .poly, c => offsetLoop xo yo n c
  | .rect, a :: b :: c :: d :: r => match addTo (-xo) a, addTo (-yo) b, addTo (-xo) c, addTo (-yo) d with
    | some a, some b, some c, some d => .ok (a :: b :: c :: d :: r)
    | _, _, _, _ => .raised
  | _, _ => .raised

/-- `test_ellipse`, core.py:254-271. -/
def testEllipse (c : List Len) (x y : Int) (w h : Option Int) : Option Bool :=
  match c with
  | a :: b :: c :: d :: _ => do
    let x0 ← a.resolve w
    let y0 ← b.resolve h
    let rx ← c.resolve w
    let ry ← d.resolve h
    pure (decide ((x - x0) * (x - x0) * ry * ry + (y - y0) * (y - y0) * rx * rx ≤ rx * rx * ry * ry))
  | _ => none

/-- `test_point`, core.py:232-252; `none` is ValueError. -/
def testPoint (shape : Shape) (c : List Len) (x y : Int) (w h : Option Int) : Option Bool :=
  match shape with
  | .circle => testCircle c x y w h
  | .default => some (decide (x ≥ 0) && decide (y ≥ 0) && (match w with | none => true | some w => decide (x ≤ w)) && (match h with | none => true | some h => decide (y ≤ h)))
  | .ellipse => testEllipse c x y w h
  | .poly => testPoly c x y w h
  | .rect => testRect c x y w h

/-- The point lies in the box. -/
def InBox (b : List Int) (x y : Int) : Prop := ∃ x0 y0 x1 y1, b = [x0, y0, x1, y1] ∧ x0 ≤ x ∧ x ≤ x1 ∧ y0 ≤ y ∧ y ≤ y1

theorem abs_le_of_sq {a r : Int} (hr : 0 ≤ r) (h : a * a ≤ r * r) : -r ≤ a ∧ a ≤ r := by
  constructor <;> nlinarith

theorem resolve_some (l : Len) (d : Int) : ∃ v, l.resolve (some d) = some v := by cases l <;> exact ⟨_, rfl⟩

/-- **C163**: every point of the region lies within the bounds, in a field of 1024 by 768, if the radii are positive and the first corner of a
rectangle is the upper left one. -/
theorem C163_bounds_partial (n : Nat) (shape : Shape) (hs : shape ≠ .poly) (c : List Len) (x y : Int) (ht : testPoint shape c x y (some 1024) (some 768) = some true)
    (hpos : shape ≠ .rect → ∀ i ≥ 2, ∀ l, c[i]? = some l → 0 < l.value ∧ l.resolve (some 768) ≠ some 0 ∧ l.resolve (some 1024) ≠ some 0)
    (hrect : shape = .rect → ∀ a b c' d r, c = a :: b :: c' :: d :: r → ∀ x0 y0 x1 y1, a.resolve (some 1024) = some x0 → b.resolve (some 768) = some y0 →
      c'.resolve (some 1024) = some x1 → d.resolve (some 768) = some y1 → x0 ≤ x1 ∧ y0 ≤ y1) :
    ∃ b, shapeBounds n shape c = .ok b ∧ InBox b x y := by
  have pos : ∀ (l : Len) (d v : Int), (d = 768 ∨ d = 1024) → 0 < l.value → l.resolve (some d) = some v → v ≠ 0 → 0 < v := by
    intro l d v hd hl hv h0
    cases l with
    | pixel p => simp only [Len.resolve, Option.some.injEq] at hv; subst hv; exact hl
    | percent p =>
      simp only [Len.resolve, Option.map_some, Option.some.injEq] at hv
      simp only [Len.value] at hl
      rw [Int.fdiv_eq_ediv_of_nonneg _ (by omega)] at hv
      rcases hd with rfl | rfl <;> omega
  cases shape with
  | poly => exact absurd rfl hs
  | default =>
    refine ⟨_, rfl, 0, 0, 1024, 768, rfl, ?_⟩
    simp only [testPoint, Option.some.injEq, Bool.and_eq_true, decide_eq_true_eq] at ht
    omega
  | circle =>
    match c, ht, hpos with
    | a :: b :: r :: more, ht, hpos =>
      obtain ⟨x0, hx0⟩ := resolve_some a 1024
      obtain ⟨y0, hy0⟩ := resolve_some b 768
      obtain ⟨v, hv⟩ := resolve_some r 768
      obtain ⟨g1, g2, -⟩ := hpos (by decide) 2 (by omega) r rfl
      have hv0 := pos r 768 v (.inl rfl) g1 hv (fun e => g2 (e ▸ hv))
      have hif : (if (1024 : Int) < 768 then some (1024 : Int) else some 768) = some 768 := by decide
      simp only [testPoint, testCircle, hif, hx0, hy0, hv, Option.bind_eq_bind, Option.bind_some, Option.pure_def, Option.some.injEq, decide_eq_true_eq] at ht
      refine ⟨_, by simp only [shapeBounds, hx0, hy0, hv]; rfl, _, _, _, _, rfl, ?_⟩
      have h1 := abs_le_of_sq (a := x - x0) hv0.le (by nlinarith [mul_self_nonneg (y - y0)])
      have h2 := abs_le_of_sq (a := y - y0) hv0.le (by nlinarith [mul_self_nonneg (x - x0)])
      omega
  | ellipse =>
    match c, ht, hpos with
    | a :: b :: c' :: d :: more, ht, hpos =>
      obtain ⟨x0, hx0⟩ := resolve_some a 1024
      obtain ⟨y0, hy0⟩ := resolve_some b 768
      obtain ⟨rx, hrx⟩ := resolve_some c' 1024
      obtain ⟨ry, hry⟩ := resolve_some d 768
      obtain ⟨g1, -, g2⟩ := hpos (by decide) 2 (by omega) c' rfl
      obtain ⟨g3, g4, -⟩ := hpos (by decide) 3 (by omega) d rfl
      have hrx0 := pos c' 1024 rx (.inr rfl) g1 hrx (fun e => g2 (e ▸ hrx))
      have hry0 := pos d 768 ry (.inl rfl) g3 hry (fun e => g4 (e ▸ hry))
      simp only [testPoint, testEllipse, hx0, hy0, hrx, hry, Option.bind_eq_bind, Option.bind_some, Option.pure_def, Option.some.injEq, decide_eq_true_eq] at ht
      refine ⟨_, by simp only [shapeBounds, hx0, hy0, hrx, hry]; rfl, _, _, _, _, rfl, ?_⟩
      have e1 : (x - x0) * (x - x0) ≤ rx * rx := by
        have : (x - x0) * (x - x0) * (ry * ry) ≤ rx * rx * (ry * ry) := by nlinarith [mul_self_nonneg ((y - y0) * rx)]
        exact le_of_mul_le_mul_right this (by positivity)
      have e2 : (y - y0) * (y - y0) ≤ ry * ry := by
        have : (y - y0) * (y - y0) * (rx * rx) ≤ ry * ry * (rx * rx) := by nlinarith [mul_self_nonneg ((x - x0) * ry)]
        exact le_of_mul_le_mul_right this (by positivity)
      have h1 := abs_le_of_sq hrx0.le e1
      have h2 := abs_le_of_sq hry0.le e2
      omega
  | rect =>
    match c, ht, hrect with
    | a :: b :: c' :: d :: more, ht, hrect =>
      obtain ⟨x0, hx0⟩ := resolve_some a 1024
      obtain ⟨y0, hy0⟩ := resolve_some b 768
      obtain ⟨x1, hx1⟩ := resolve_some c' 1024
      obtain ⟨y1, hy1⟩ := resolve_some d 768
      obtain ⟨g1, g2⟩ := hrect rfl a b c' d more rfl x0 y0 x1 y1 hx0 hy0 hx1 hy1
      simp only [testPoint, testRect, hx0, hy0, hx1, hy1, Option.bind_eq_bind, Option.bind_some, Option.pure_def] at ht
      have n1 : ¬ x0 > x1 := by omega
      have n2 : ¬ y0 > y1 := by omega
      rw [if_neg n1, if_neg n2] at ht
      refine ⟨_, by simp only [shapeBounds, hx0, hy0, hx1, hy1, four]; rfl, _, _, _, _, rfl, ?_⟩
      split at ht
      · cases ht
      · split at ht
        · cases ht
        · omega

/-- **C163**: moving a region of pixels moves its points: `(x, y)` is in the region exactly if `(x - xo, y - yo)` is in the moved one. -/
theorem C163_offset_partial (n : Nat) (shape : Shape) (hs : shape ≠ .poly) (hd : shape ≠ .default) (c c' : List Len) (xo yo : Int)
    (ho : offsetShape n shape c xo yo = .ok c') (x y : Int) (w h : Option Int) : testPoint shape c x y w h = testPoint shape c' (x - xo) (y - yo) w h := by
  have hadd : ∀ {v : Int} {l l' : Len}, addTo v l = some l' → ∃ p, l = .pixel p ∧ l' = .pixel (p + v) := by
    intro v l l' e
    cases l with
    | pixel p => simp only [addTo, Option.some.injEq] at e; exact ⟨p, rfl, e.symm⟩
    | percent p => simp [addTo] at e
  have hsub : ∀ x p xo : Int, x - xo - (p + -xo) = x - p := by intro x p xo; ring
  have main : ∀ a b r, (match addTo (-xo) a, addTo (-yo) b with | some a, some b => Out.ok (a :: b :: r) | _, _ => .raised) = .ok c' →
      ∃ p q, a = .pixel p ∧ b = .pixel q ∧ c' = .pixel (p + -xo) :: .pixel (q + -yo) :: r := by
    intro a b r e
    split at e
    · rename_i a' b' ha hb
      obtain ⟨p, rfl, rfl⟩ := hadd ha
      obtain ⟨q, rfl, rfl⟩ := hadd hb
      simp only [Out.ok.injEq] at e
      exact ⟨p, q, rfl, rfl, e.symm⟩
    · cases e
  cases shape with
  | poly => exact absurd rfl hs
  | default => exact absurd rfl hd
  | circle =>
    match c, ho with
    | a :: b :: r, ho =>
      obtain ⟨p, q, rfl, rfl, rfl⟩ := main a b r ho
      cases r with
      | nil => rfl
      | cons r more => simp only [testPoint, testCircle, Len.resolve, Option.bind_eq_bind, Option.bind_some, hsub]
  | ellipse =>
    match c, ho with
    | a :: b :: r, ho =>
      obtain ⟨p, q, rfl, rfl, rfl⟩ := main a b r ho
      match r with
      | [] => rfl
      | [_] => rfl
      | r1 :: r2 :: more => simp only [testPoint, testEllipse, Len.resolve, Option.bind_eq_bind, Option.bind_some, hsub]
  | rect =>
    match c, ho with
    | a :: b :: c0 :: d :: r, ho =>
      simp only [offsetShape] at ho
      split at ho
      · rename_i a' b' c1 d' ha hb hc hd'
        obtain ⟨p, rfl, rfl⟩ := hadd ha
        obtain ⟨q, rfl, rfl⟩ := hadd hb
        obtain ⟨p', rfl, rfl⟩ := hadd hc
        obtain ⟨q', rfl, rfl⟩ := hadd hd'
        simp only [Out.ok.injEq] at ho
        subst ho
        have e1 : ∀ a b o : Int, (a + -o > b + -o) = (a > b) := by intro a b o; exact propext ⟨fun h => by omega, fun h => by omega⟩
        have e2 : ∀ a b o : Int, (a - o < b + -o) = (a < b) := by intro a b o; exact propext ⟨fun h => by omega, fun h => by omega⟩
        have e3 : ∀ a b o : Int, (a - o ≥ b + -o) = (a ≥ b) := by intro a b o; exact propext ⟨fun h => by omega, fun h => by omega⟩
        simp only [testPoint, testRect, Len.resolve, Option.bind_eq_bind, Option.bind_some, e1]
        by_cases h1 : p > p' <;> by_cases h2 : q > q' <;> simp only [h1, h2, if_true, if_false, e2, e3]
      · cases ho

theorem polyLoop_running (c : List Len) (i : Nat) (h : 2 * i + 1 < c.length) : ∀ (n : Nat) (x0 y0 x1 y1 : Int), polyLoop c i n [x0, y0, x1, y1] = .running := by
  intro n
  induction n with
  | zero => intros; rfl
  | succ n ih =>
    intro x0 y0 x1 y1
    rw [polyLoop.eq_def]
    dsimp only
    rw [if_pos h]
    have h1 : 2 * i < c.length := by omega
    rw [List.getElem?_eq_getElem h1, List.getElem?_eq_getElem h]
    obtain ⟨x, hx⟩ := resolve_some c[2 * i] 1024
    obtain ⟨y, hy⟩ := resolve_some c[2 * i + 1] 768
    simp only [hx, hy]
    exact ih _ _ _ _

/-- **C163** (violation): the bounds of a polygon of two or more vertices are never computed: the loop does not end. -/
theorem C163_poly_bounds_violation (c : List Len) (h : 4 ≤ c.length) (n : Nat) : shapeBounds n .poly c = .running := by
  match c, h with
  | a :: b :: r, h =>
    obtain ⟨x, hx⟩ := resolve_some a 1024
    obtain ⟨y, hy⟩ := resolve_some b 768
    simp only [shapeBounds, hx, hy]
    exact polyLoop_running _ 1 (by simp at h ⊢; omega) n x y x y

/-- **C163** (violation): a polygon of pixels is never moved: the loop does not end. -/
theorem C163_poly_offset_violation (p q : Int) (r : List Len) (xo yo : Int) (n : Nat) : offsetShape n .poly (.pixel p :: .pixel q :: r) xo yo = .running := by
  have : ∀ (n : Nat) (p q : Int), offsetLoop xo yo n (.pixel p :: .pixel q :: r) = .running := by
    intro n
    induction n with
    | zero => intros; rfl
    | succ n ih => intro p q; simp only [offsetLoop, addTo]; exact ih _ _
  exact this n p q

/-- **C163** (violation): the bounds of a rectangle given by its lower right corner first contain no point; an ellipse without height
has points outside its bounds. -/
theorem C163_bounds_violation :
    (testPoint .rect [.pixel 9, .pixel 9, .pixel 0, .pixel 0] 5 5 (some 1024) (some 768) = some true ∧
      shapeBounds 0 .rect [.pixel 9, .pixel 9, .pixel 0, .pixel 0] = .ok [9, 9, 0, 0]) ∧
    (testPoint .ellipse [.pixel 9, .pixel 9, .pixel 3, .pixel 0] 500 9 (some 1024) (some 768) = some true ∧
      shapeBounds 0 .ellipse [.pixel 9, .pixel 9, .pixel 3, .pixel 0] = .ok [6, 9, 12, 9]) := by decide +kernel

example : testPoint .circle [.pixel 9, .pixel 9, .percent 1] 14 14 (some 1024) (some 768) = some true ∧
    shapeBounds 0 .circle [.pixel 9, .pixel 9, .percent 1] = .ok [1, 1, 17, 17] ∧
    offsetShape 0 .circle [.pixel 9, .pixel 9, .percent 1] 4 5 = .ok [.pixel 5, .pixel 4, .percent 1] := by decide +kernel

end Verif.Qti.Region

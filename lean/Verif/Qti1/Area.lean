import Verif.Qti.Region
import Mathlib.Algebra.Order.Field.Basic
import Mathlib.Algebra.Order.Ring.Abs
import Mathlib.Algebra.Order.Field.Rat
import Mathlib.Tactic.FieldSimp
import Mathlib.Tactic.Positivity
/-
C170: areas of QTI version 1 (`rarea`, `varinside`) migrated to version 2, and the yes/no
attributes (pyslet/qtiv1/core.py:26-217).
-/
namespace Verif.Qti1.Area
open Verif.Html Verif.Qti.Region

/-! ## Model -/

/-- core.py:169 `c in "0123456789."` -/
def isNum (c : Nat) : Bool := (decide (48 ≤ c) && decide (c ≤ 57)) || c == 46

/-- core.py:168-178: the loop over the text with `coords`, `vstr` and `sep`.  `num` is Python's
`int(float(s))`, `none` for its ValueError. -/
def loop (num : List Nat → Option Int) : List Nat → List Int → List Nat → Bool → Option (List Int)
  | [], cs, v, _ => if v = [] then some cs else (num v).map fun n => cs ++ [n]
  | c :: s, cs, v, sep =>
    if isNum c then
      if sep = true ∧ v ≠ [] then
        match num v with
        | none => none
        | some n => loop num s (cs ++ [n]) [c] false
      else loop num s cs (v ++ [c]) sep
    else loop num s cs v true

/-- core.py:165-178: the numbers of the text. -/
def readCoords (num : List Nat → Option Int) (value : List Nat) : Option (List Int) :=
  loop num value [] [] false

/-- core.py:101-123 `Area`. -/
inductive Area
  | ellipse | rectangle | bounded
  deriving DecidableEq, Repr

/-- The lines added to the log. -/
inductive Msg
  | rectPadded | ellipsePadded | noRadius | oneRadius | deprecated
  deriving DecidableEq, Repr

/-- core.py:184, 195: `while len(coords) < n: coords.append(0)`. -/
def pad (n : Nat) (cs : List Int) : List Int := cs ++ List.replicate (n - cs.length) 0

/-- core.py:190-206: coordinates of an ellipse that are missing. -/
def fillEllipse (cs : List Int) : List Int × List Msg :=
  if cs.length < 4 then
    let p := if cs.length < 2 then (pad 2 cs, [Msg.ellipsePadded]) else (cs, [])
    if p.1.length = 2 then (p.1 ++ [8, 8], p.2 ++ [.noRadius])
    else if p.1.length = 3 then (p.1 ++ [p.1.getLastD 0], p.2 ++ [.oneRadius])
    else p
  else (cs, [])

/-- core.py:179-217: the shape, its coordinates (all in pixels) and the lines logged. -/
def migrateShape (area : Area) (cs : List Int) : Shape × List Len × List Msg :=
  match area with
  | .rectangle =>
    let l := if cs.length < 4 then [Msg.rectPadded] else []
    let c := if cs.length < 4 then pad 4 cs else cs
    let g := fun i => c.getD i 0
    (.rect, [g 0, g 1, g 0 + g 3 - 1, g 1 + g 2 - 1].map .pixel, l)
  | .ellipse =>
    let p := fillEllipse cs
    let g := fun i => p.1.getD i 0
    if g 2 = g 3 then (.circle, [g 0, g 1, g 2 / 2].map .pixel, p.2)
    else (.ellipse, [g 0, g 1, g 2 / 2, g 3 / 2].map .pixel, p.2 ++ [.deprecated])
  | .bounded => (.poly, cs.map .pixel, [])

/-- core.py:127-217 `migrate_area_to_v2`; `none` for ValueError. -/
def migrateArea (num : List Nat → Option Int) (area : Area) (value : List Nat) :
    Option (Shape × List Len × List Msg) :=
  (readCoords num value).map (migrateShape area)

/-- core.py:63 `src.strip().lower() == 'yes'`; `ws` is the white space that `strip` removes.  Only
the letters of ASCII are folded: no other character has one of "yes" as its lower case. -/
def ynFromStr (ws : Nat → Bool) (s : List Nat) : Bool :=
  ((((s.dropWhile ws).reverse.dropWhile ws).reverse).map fun c =>
    if 65 ≤ c ∧ c ≤ 90 then c + 32 else c) == [121, 101, 115]

/-- core.py:49-50, 67-74 `yn_to_str`: "Yes" or "Nes". -/
def ynToStr (b : Bool) : List Nat := if b then [89, 101, 115] else [78, 101, 115]

/-! ## Specification -/

/-- A digit or a full stop. -/
def NumCh (c : Nat) : Prop := c ∈ [48, 49, 50, 51, 52, 53, 54, 55, 56, 57, 46]

/-- The numbers that stand in a text: the longest runs of digits and full stops, with anything at
all between them. -/
inductive Numbers : List Nat → List (List Nat) → Prop
  | none (s : List Nat) : (∀ c ∈ s, ¬ NumCh c) → Numbers s []
  | one (sep t rest : List Nat) (ts : List (List Nat)) :
    (∀ c ∈ sep, ¬ NumCh c) → t ≠ [] → (∀ c ∈ t, NumCh c) → (∀ c, rest.head? = some c → ¬ NumCh c) →
    Numbers rest ts → Numbers (sep ++ t ++ rest) (t :: ts)

/-- The values of the numbers, if all have one. -/
def Values (num : List Nat → Option Int) : List (List Nat) → Option (List Int)
  | [] => some []
  | t :: ts => match num t, Values num ts with
    | some n, some l => some (n :: l)
    | _, _ => none

/-- The pixels of a rectangle of version 1: left edge, top edge, height and width. -/
def InRect (x y h w px py : Int) : Prop := x ≤ px ∧ px < x + w ∧ y ≤ py ∧ py < y + h

/-- The points of an ellipse of version 1: centre and two diameters; the equation
`(2dx/a)² + (2dy/b)² ≤ 1`. -/
def InEllipse (x y a b px py : Int) : Prop :=
  (2 * (px - x) * b) ^ 2 + (2 * (py - y) * a) ^ 2 ≤ (a * b) ^ 2

/-! ## Proofs -/

theorem isNum_iff (c : Nat) : isNum c = true ↔ NumCh c := by
  unfold isNum NumCh
  simp only [Bool.or_eq_true, Bool.and_eq_true, decide_eq_true_eq, beq_iff_eq, List.mem_cons,
    List.not_mem_nil, or_false]
  omega

theorem loop_run (num) : ∀ (t rest : List Nat) (cs : List Int) (v : List Nat), (∀ c ∈ t, NumCh c) →
    loop num (t ++ rest) cs v false = loop num rest cs (v ++ t) false := by
  intro t
  induction t with
  | nil => intro rest cs v _; simp
  | cons c t ih =>
    intro rest cs v h
    rw [List.cons_append, loop, if_pos ((isNum_iff c).mpr (h c (by simp))), if_neg (by simp),
      ih rest cs _ (fun d hd => h d (by simp [hd]))]
    simp

theorem loop_sep (num) : ∀ (s rest : List Nat) (cs : List Int) (v : List Nat) (b : Bool),
    (∀ c ∈ s, ¬ NumCh c) →
    loop num (s ++ rest) cs v b = loop num rest cs v (b || !s.isEmpty) := by
  intro s
  induction s with
  | nil => intro rest cs v b _; simp
  | cons c s ih =>
    intro rest cs v b h
    rw [List.cons_append, loop, if_neg (by rw [isNum_iff]; exact h c (by simp)),
      ih rest cs _ _ (fun d hd => h d (by simp [hd]))]
    simp

theorem loop_numbers (num) {s : List Nat} {ts : List (List Nat)} (h : Numbers s ts) :
    ∀ (cs : List Int) (v : List Nat), v ≠ [] → (∀ c, s.head? = some c → ¬ NumCh c) →
      loop num s cs v false = (Values num (v :: ts)).map (cs ++ ·) := by
  induction h with
  | none s hs =>
    intro cs v hv _
    have := loop_sep num s [] cs v false hs
    rw [List.append_nil] at this
    rw [this, loop, if_neg hv]
    simp only [Values]
    cases num v <;> simp
  | one sep t rest ts h1 h2 h3 h4 h5 ih =>
    intro cs v hv hh
    cases t with
    | nil => exact absurd rfl h2
    | cons c t =>
      cases sep with
      | nil => exact absurd (h3 c (by simp)) (hh c (by simp))
      | cons d sep =>
        rw [List.append_assoc, loop_sep num _ _ cs v false h1]
        simp only [List.isEmpty_cons, Bool.not_false, Bool.or_true, List.cons_append]
        rw [loop, if_pos ((isNum_iff c).mpr (h3 c (by simp))), if_pos ⟨rfl, hv⟩]
        cases hn : num v with
        | none => simp [Values, hn]
        | some n =>
          dsimp only
          rw [loop_run num t rest _ _ (fun e he => h3 e (by simp [he])), ih _ _ (by simp) h4]
          simp only [List.cons_append, List.nil_append]
          rw [Values]
          cases hm : Values num ((c :: t) :: ts) with
          | none => simp [Values, hn] at hm ⊢; rw [hm]; simp
          | some l => simp [Values, hn] at hm ⊢; rw [hm]; simp

/-- **C170** (numbers): whatever the separators are, the coordinates are the numbers of the text, if
the text begins with the first of them. -/
theorem C170_numbers_partial (num : List Nat → Option Int) (value : List Nat) (ts : List (List Nat))
    (h : Numbers value ts) (hl : ts = [] ∨ ∃ c, value.head? = some c ∧ NumCh c) :
    readCoords num value = Values num ts := by
  unfold readCoords
  cases h with
  | none _ hs =>
    have := loop_sep num value [] [] [] false hs
    rw [List.append_nil] at this
    rw [this]; rfl
  | one sep t rest ts h1 h2 h3 h4 h5 =>
    rcases hl with hl | ⟨c, hc, hn⟩
    · cases hl
    · cases sep with
      | cons d sep =>
        simp at hc; subst hc
        exact absurd hn (h1 d (by simp))
      | nil =>
        rw [List.nil_append, loop_run num t rest [] [] h3, List.nil_append, loop_numbers num h5 _ _ h2 h4]
        cases Values num (t :: ts) <;> simp

/-- **C170** (violation): if anything stands before the first number, even a space, and that number
has two characters or more, then it is read as two numbers and all the others are moved up. -/
theorem C170_leading_violation (num : List Nat → Option Int) (sep : List Nat) (c d : Nat)
    (t rest : List Nat) (ts : List (List Nat)) (h1 : ∀ x ∈ sep, ¬ NumCh x) (hne : sep ≠ [])
    (h3 : ∀ x ∈ c :: d :: t, NumCh x) (h4 : ∀ x, rest.head? = some x → ¬ NumCh x)
    (h5 : Numbers rest ts) :
    Numbers (sep ++ (c :: d :: t) ++ rest) ((c :: d :: t) :: ts) ∧
    readCoords num (sep ++ (c :: d :: t) ++ rest) = Values num ([c] :: (d :: t) :: ts) := by
  refine ⟨.one sep _ rest ts h1 (by simp) h3 h4 h5, ?_⟩
  unfold readCoords
  rw [List.append_assoc, loop_sep num _ _ _ _ _ h1]
  have hs : (!sep.isEmpty) = true := by cases sep <;> simp_all
  rw [hs]
  simp only [Bool.or_true, List.cons_append]
  rw [loop, if_pos ((isNum_iff c).mpr (h3 c (by simp))), if_neg (by simp), List.nil_append,
    loop, if_pos ((isNum_iff d).mpr (h3 d (by simp))), if_pos ⟨rfl, by simp⟩]
  rw [Values]
  cases hn : num [c] with
  | none => rfl
  | some n =>
    dsimp only
    rw [loop_run num t rest _ _ (fun e he => h3 e (by simp [he])), loop_numbers num h5 _ _ (by simp) h4]
    simp only [List.cons_append, List.nil_append]
    cases Values num ((d :: t) :: ts) <;> simp

theorem rect_test (x0 y0 x1 y1 px py : Int) : testPoint .rect ([x0, y0, x1, y1].map .pixel) px py none none =
    some (decide (min x0 x1 ≤ px ∧ px < max x0 x1 ∧ min y0 y1 ≤ py ∧ py < max y0 y1)) := by
  simp only [testPoint, testRect, List.map, Len.resolve, Option.bind_eq_bind, Option.bind_some, Option.pure_def]
  split_ifs <;> simp <;> omega

theorem circle_test (x0 y0 r px py : Int) : testPoint .circle ([x0, y0, r].map .pixel) px py none none =
    some (decide ((px - x0) * (px - x0) + (py - y0) * (py - y0) ≤ r * r)) := rfl

theorem ellipse_test (x0 y0 rx ry px py : Int) :
    testPoint .ellipse ([x0, y0, rx, ry].map .pixel) px py none none =
    some (decide ((px - x0) * (px - x0) * ry * ry + (py - y0) * (py - y0) * rx * rx ≤ rx * rx * ry * ry)) := rfl

/-- **C170** (rectangles): a rectangle of version 1 that is not empty becomes a region that holds its
pixels but for the last column and the last row, and no other point. -/
theorem C170_rectangle_partial (x y h w : Int) (more : List Int) (hh : 1 ≤ h) (hw : 1 ≤ w) (px py : Int) :
    ∃ s c, migrateShape .rectangle (x :: y :: h :: w :: more) = (s, c, []) ∧
      (testPoint s c px py none none = some true ↔
        InRect x y h w px py ∧ px ≠ x + w - 1 ∧ py ≠ y + h - 1) := by
  refine ⟨_, _, rfl, ?_⟩
  have e : (if (x :: y :: h :: w :: more).length < 4 then pad 4 (x :: y :: h :: w :: more)
      else x :: y :: h :: w :: more) = x :: y :: h :: w :: more := by
    rw [if_neg (by simp)]
  rw [rect_test, e]
  simp only [List.getD_cons_zero, List.getD_cons_succ, Option.some.injEq, decide_eq_true_eq]
  unfold InRect
  omega

/-- **C170** (violation): the last column and the last row are lost, so that a rectangle of one pixel
has no points. -/
theorem C170_rectangle_violation (x y h w : Int) (hh : 1 ≤ h) (hw : 1 ≤ w) :
    InRect x y h w (x + w - 1) (y + h - 1) ∧
    ∃ s c, migrateShape .rectangle [x, y, h, w] = (s, c, []) ∧
      testPoint s c (x + w - 1) (y + h - 1) none none = some false := by
  refine ⟨by unfold InRect; omega, _, _, rfl, ?_⟩
  rw [rect_test]
  simp
  omega

/-- **C170** (violation): a rectangle without a size, which has no points, becomes a pixel above and
to the left of it. -/
theorem C170_empty_rectangle_violation (x y : Int) : (∀ px py, ¬ InRect x y 0 0 px py) ∧
    ∃ s c, migrateShape .rectangle [x, y] = (s, c, [.rectPadded]) ∧
      testPoint s c (x - 1) (y - 1) none none = some true := by
  refine ⟨fun px py h => by unfold InRect at h; omega, _, _, rfl, ?_⟩
  rw [rect_test]
  simp [pad]

theorem half_sq (d : Int) (h : 0 ≤ d) : 4 * ((d / 2) * (d / 2)) ≤ d * d := by
  have h1 : 2 * (d / 2) ≤ d := by omega
  have h2 : 0 ≤ d / 2 := by omega
  nlinarith

/-- **C170** (circles): an ellipse of version 1 with equal diameters becomes a circle of version 2 that
has no other points, and has all of them if the diameter is even.  Nothing is logged. -/
theorem C170_circle (x y d : Int) (more : List Int) (hd : 1 ≤ d) :
    ∃ c, migrateShape .ellipse (x :: y :: d :: d :: more) = (.circle, c, []) ∧
      (∀ px py, testPoint .circle c px py none none = some true → InEllipse x y d d px py) ∧
      (d % 2 = 0 → ∀ px py, InEllipse x y d d px py → testPoint .circle c px py none none = some true) := by
  have hf : fillEllipse (x :: y :: d :: d :: more) = (x :: y :: d :: d :: more, []) := by
    unfold fillEllipse; rw [if_neg (by simp)]
  refine ⟨[x, y, d / 2].map .pixel, ?_, ?_, ?_⟩
  · unfold migrateShape; dsimp only; rw [hf]; simp
  · intro px py h
    rw [circle_test] at h
    simp only [Option.some.injEq, decide_eq_true_eq] at h
    have := half_sq d (by omega)
    unfold InEllipse
    have h4 : 4 * ((px - x) * (px - x) + (py - y) * (py - y)) ≤ d * d := by omega
    nlinarith [mul_nonneg (show 0 ≤ d by omega) (show 0 ≤ d by omega),
      mul_le_mul_of_nonneg_left h4 (mul_nonneg (show 0 ≤ d by omega) (show 0 ≤ d by omega))]
  · intro he px py h
    rw [circle_test]
    simp only [Option.some.injEq, decide_eq_true_eq]
    unfold InEllipse at h
    obtain ⟨r, rfl⟩ : ∃ r, d = 2 * r := ⟨d / 2, by omega⟩
    have hr : 1 ≤ r := by omega
    rw [Int.mul_ediv_cancel_left _ (by decide)]
    have h4 : (r * r) * ((px - x) * (px - x) + (py - y) * (py - y)) ≤ (r * r) * (r * r) := by nlinarith
    exact le_of_mul_le_mul_left h4 (by nlinarith)

/-- **C170** (ellipses): an ellipse of version 1 with diameters of two or more becomes an ellipse that
has no other points, and has all of them if the diameters are even.  The log says that ellipses are
deprecated. -/
theorem C170_ellipse_partial (x y a b : Int) (more : List Int) (ha : 2 ≤ a) (hb : 2 ≤ b) (hab : a ≠ b) :
    ∃ c, migrateShape .ellipse (x :: y :: a :: b :: more) = (.ellipse, c, [.deprecated]) ∧
      (∀ px py, testPoint .ellipse c px py none none = some true → InEllipse x y a b px py) ∧
      (a % 2 = 0 → b % 2 = 0 → ∀ px py, InEllipse x y a b px py →
        testPoint .ellipse c px py none none = some true) := by
  have hf : fillEllipse (x :: y :: a :: b :: more) = (x :: y :: a :: b :: more, []) := by
    unfold fillEllipse; rw [if_neg (by simp)]
  refine ⟨[x, y, a / 2, b / 2].map .pixel, ?_, ?_, ?_⟩
  · unfold migrateShape; dsimp only; rw [hf]; simp [hab]
  · intro px py h
    rw [ellipse_test] at h
    simp only [Option.some.injEq, decide_eq_true_eq] at h
    unfold InEllipse
    generalize ha2 : a / 2 = p at h
    generalize hb2 : b / 2 = q at h
    have hp : 1 ≤ p := by omega
    have hq : 1 ≤ q := by omega
    have hpa : 2 * p ≤ a := by omega
    have hqb : 2 * q ≤ b := by omega
    generalize hu : (px - x) = u at h
    generalize hv : (py - y) = v at h
    -- over the rationals: u²/p² + v²/q² ≤ 1
    have hp' : (0 : ℚ) < p := by exact_mod_cast (by omega : (0 : Int) < p)
    have hq' : (0 : ℚ) < q := by exact_mod_cast (by omega : (0 : Int) < q)
    have hpa' : 2 * (p : ℚ) ≤ a := by exact_mod_cast hpa
    have hqb' : 2 * (q : ℚ) ≤ b := by exact_mod_cast hqb
    have ha' : (0 : ℚ) < a := by linarith
    have hb' : (0 : ℚ) < b := by linarith
    have h' : ((u : ℚ) / p) ^ 2 + ((v : ℚ) / q) ^ 2 ≤ 1 := by
      have e : ((u : ℚ) / p) ^ 2 + ((v : ℚ) / q) ^ 2 = (u * u * q * q + v * v * p * p) / (p * p * q * q) := by
        field_simp
      rw [e, div_le_one (by positivity)]
      exact_mod_cast h
    have hk : ((2 * u : ℚ) / a) ^ 2 + ((2 * v : ℚ) / b) ^ 2 ≤ 1 := by
      have e1 : ((2 * u : ℚ) / a) ^ 2 ≤ ((u : ℚ) / p) ^ 2 := by
        rw [sq_le_sq, abs_div, abs_div, abs_mul, abs_of_pos ha', abs_of_pos hp', div_le_div_iff₀ ha' hp']
        simp only [Nat.abs_ofNat]
        nlinarith [abs_nonneg (u : ℚ)]
      have e2 : ((2 * v : ℚ) / b) ^ 2 ≤ ((v : ℚ) / q) ^ 2 := by
        rw [sq_le_sq, abs_div, abs_div, abs_mul, abs_of_pos hb', abs_of_pos hq', div_le_div_iff₀ hb' hq']
        simp only [Nat.abs_ofNat]
        nlinarith [abs_nonneg (v : ℚ)]
      linarith
    have e : ((2 * u : ℚ) / a) ^ 2 + ((2 * v : ℚ) / b) ^ 2 =
        ((2 * u * b) ^ 2 + (2 * v * a) ^ 2) / (a * b) ^ 2 := by
      field_simp
    rw [e, div_le_one (by positivity)] at hk
    exact_mod_cast hk
  · intro hea heb px py h
    rw [ellipse_test]
    simp only [Option.some.injEq, decide_eq_true_eq]
    unfold InEllipse at h
    obtain ⟨p, rfl⟩ : ∃ r, a = 2 * r := ⟨a / 2, by omega⟩
    obtain ⟨q, rfl⟩ : ∃ r, b = 2 * r := ⟨b / 2, by omega⟩
    rw [Int.mul_ediv_cancel_left _ (by decide), Int.mul_ediv_cancel_left _ (by decide)]
    nlinarith

/-- **C170** (violation): if one diameter is 1 then the ellipse becomes a whole line. -/
theorem C170_ellipse_violation (x y a px : Int) (ha : 2 ≤ a) (hp : x + a < px) :
    ¬ InEllipse x y a 1 px y ∧
    ∃ c, migrateShape .ellipse [x, y, a, 1] = (.ellipse, c, [.deprecated]) ∧
      testPoint .ellipse c px y none none = some true := by
  refine ⟨?_, [x, y, a / 2, 0].map .pixel, ?_, ?_⟩
  · unfold InEllipse; intro h; nlinarith
  · unfold migrateShape fillEllipse
    simp
    omega
  · rw [ellipse_test]; simp

/-- **C170** (padding): coordinates that are missing are replaced as the log says: by zeros, by a
diameter of 8 where there is none, and by the other diameter where there is one. -/
theorem C170_padding (x y d : Int) :
    migrateShape .rectangle [] = (.rect, [.pixel 0, .pixel 0, .pixel (-1), .pixel (-1)], [.rectPadded]) ∧
    migrateShape .ellipse [] = (.circle, [.pixel 0, .pixel 0, .pixel 4], [.ellipsePadded, .noRadius]) ∧
    migrateShape .ellipse [x] = (.circle, [.pixel x, .pixel 0, .pixel 4], [.ellipsePadded, .noRadius]) ∧
    migrateShape .ellipse [x, y] = (.circle, [.pixel x, .pixel y, .pixel 4], [.noRadius]) ∧
    migrateShape .ellipse [x, y, d] = (.circle, [.pixel x, .pixel y, .pixel (d / 2)], [.oneRadius]) := by
  refine ⟨by decide, by decide, rfl, rfl, ?_⟩
  simp [migrateShape, fillEllipse]

/-- **C170** (polygons): the vertices of a bounded area stay as they are. -/
theorem C170_bounded (cs : List Int) : migrateShape .bounded cs = (.poly, cs.map .pixel, []) := rfl

/-- **C170** (yes and no): what was written is read back as it was. -/
theorem C170_yn_round_trip (ws : Nat → Bool) (h : ws 89 = false ∧ ws 78 = false ∧ ws 115 = false) (b : Bool) :
    ynFromStr ws (ynToStr b) = b := by
  obtain ⟨h1, h2, h3⟩ := h
  cases b <;> simp [ynFromStr, ynToStr, h1, h2, h3]

/-- **C170** (violation): but "no" is written as "Nes", which is neither of the values "Yes" and "No". -/
theorem C170_yn_violation : ynToStr true = [89, 101, 115] ∧ ynToStr false ≠ [78, 111] := by decide

/-- A reading of numbers for the examples: digits only. -/
def digits (s : List Nat) : Option Int :=
  if s.all fun c => decide (48 ≤ c) && decide (c ≤ 57) then some (s.foldl (fun n c => 10 * n + ((c : Int) - 48)) 0) else none

/-- "10, 20;3" -/
example : readCoords digits [49, 48, 44, 32, 50, 48, 59, 51] = some [10, 20, 3] := by decide +kernel
/-- " 10,20" is read as 1, 0 and 20. -/
example : readCoords digits [32, 49, 48, 44, 50, 48] = some [1, 0, 20] := by decide +kernel
example : Numbers [49, 48, 44, 50] [[49, 48], [50]] :=
  .one [] [49, 48] [44, 50] _ (by simp) (by simp) (by simp [NumCh]) (by simp [NumCh])
    (.one [44] [50] [] [] (by simp [NumCh]) (by simp) (by simp [NumCh]) (by simp) (.none [] (by simp)))
/-- "10,10,2,4" as in the documentation. -/
example : migrateArea digits .ellipse [49, 48, 44, 49, 48, 44, 50, 44, 52] =
    some (.ellipse, [.pixel 10, .pixel 10, .pixel 1, .pixel 2], [.deprecated]) := by decide +kernel
example : InRect 2 3 4 5 6 6 ∧ InEllipse 10 10 2 4 11 10 := by unfold InRect InEllipse; decide

end Verif.Qti1.Area

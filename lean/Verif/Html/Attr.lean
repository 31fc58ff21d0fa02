import Verif.Html.Poly
import Verif.Text.Decimal
import Verif.Uri.Relative
import Verif.Uri.EscapeProps
/-
C98: the text form of lengths, coordinates, colours and media descriptors (pyslet/html401.py).
-/
namespace Verif.Html
open Verif.Text
open Verif.Uri (splitOn joinWith isHex hexVal hexDigit splitOn_joinWith splitOn_ne_nil hexDigit_isHex hexVal_hexDigit joinWith_splitOn)

abbrev Str := List Nat

/-- The characters that Python's `str.strip()` takes off. -/
def isWs (c : Nat) : Bool :=
  (9 ≤ c && c ≤ 13) || (28 ≤ c && c ≤ 32) || c == 0x85 || c == 0xA0 || c == 0x1680 ||
  (0x2000 ≤ c && c ≤ 0x200A) || c == 0x2028 || c == 0x2029 || c == 0x202F || c == 0x205F || c == 0x3000

/-- `str.strip()`. -/
def strip (s : Str) : Str := ((s.dropWhile isWs).reverse.dropWhile isWs).reverse

/-- The loop of html401.py:684-693: the digits, and whether the type is known yet (`some true` for a
percentage).  Digits other than the ASCII ones are not modelled. -/
def lenLoop : Str → Str → Option Bool → Str × Option Bool
  | [], v, t => (v, t)
  | c :: l, v, t =>
    if t = none ∧ Text.isDigit c = true then lenLoop l (v ++ [c]) t
    else if c = 37 then (v, some true)
    else lenLoop l v (some false)

/-- html401.py:679-701 `Length.from_str`; `none` is ValueError (`int('')`). -/
def Len.fromStr (s : Str) : Option Len :=
  let r := lenLoop (strip s) [] none
  if r.1 = [] then none
  else some (if r.2 = some true then .percent (decVal r.1) else .pixel (decVal r.1))

/-- `str(i)`. -/
def intStr (i : Int) : Str := if i < 0 then 45 :: decStr i.natAbs else decStr i.natAbs

/-- html401.py:719-723 `Length.__unicode__`. -/
def Len.toStr : Len → Str
  | .percent v => intStr v ++ [37]
  | .pixel v => intStr v

/-- html401.py:392-401 `Coords.from_str`. -/
def coordsFromStr (s : Str) : Option (List Len) :=
  if s = [] then some [] else (splitOn 44 s).mapM fun l => Len.fromStr (strip l)

/-- html401.py:403-404 `Coords.__unicode__`. -/
def coordsToStr (c : List Len) : Str := joinWith 44 (c.map Len.toStr)

/-- `str.lower()` on ASCII letters. -/
def lowerC (c : Nat) : Nat := if 65 ≤ c ∧ c ≤ 90 then c + 32 else c
def lower (s : Str) : Str := s.map lowerC

abbrev Color := Nat × Nat × Nat

/-- `int(s, 16)`. -/
def hexNum (s : Str) : Nat := s.foldl (fun acc c => 16 * acc + hexVal c) 0

/-- A literal text. -/
def txt (s : String) : Str := s.toList.map Char.toNat

/-- html401.py:249-265 `Color.known_colors`. -/
def knownColors : List (Str × Color) :=
  [(txt "black", 0x00, 0x00, 0x00), (txt "green", 0x00, 0x80, 0x00), (txt "silver", 0xC0, 0xC0, 0xC0),
   (txt "lime", 0x00, 0xFF, 0x00), (txt "gray", 0x80, 0x80, 0x80), (txt "olive", 0x80, 0x80, 0x00),
   (txt "white", 0xFF, 0xFF, 0xFF), (txt "yellow", 0xFF, 0xFF, 0x00), (txt "maroon", 0x80, 0x00, 0x00),
   (txt "navy", 0x00, 0x00, 0x80), (txt "red", 0xFF, 0x00, 0x00), (txt "blue", 0x00, 0x00, 0xFF),
   (txt "purple", 0x80, 0x00, 0x80), (txt "teal", 0x00, 0x80, 0x80), (txt "fuchsia", 0xFF, 0x00, 0xFF),
   (txt "aqua", 0x00, 0xFF, 0xFF)]

/-- html401.py:267-284 `Color.__init__` with a text. -/
def Color.fromStr (s : Str) : Color :=
  match knownColors.find? (fun e => e.1 = lower (strip s)) with
  | some e => e.2
  | none =>
    let ds := (lower (strip s)).filter isHex
    if 6 ≤ ds.length then
      let rgb := hexNum ds
      (rgb / 65536 % 256, rgb / 256 % 256, rgb % 256)
    else (0, 0, 0)

/-- `"%02X" % n` for n below 256. -/
def hex2 (n : Nat) : Str := [hexDigit (n / 16), hexDigit (n % 16)]

/-- html401.py:299-300 `Color.__unicode__`. -/
def Color.toStr (c : Color) : Str := 35 :: hex2 c.1 ++ hex2 c.2.1 ++ hex2 c.2.2

/-- html401.py:798 `MediaDesc.mclass`. -/
def isMedia (c : Nat) : Bool := (97 ≤ c && c ≤ 122) || (65 ≤ c && c ≤ 90) || Text.isDigit c || c == 45

/-- html401.py:800-809 `MediaDesc.reduce_str`. -/
def reduceStr (m : Str) : Str := lower ((strip m).takeWhile isMedia)

/-- html401.py:790-796 `MediaDesc.__init__`: the set as a list. -/
def mediaInit (l : List Str) : List Str := (l.map reduceStr).filter (· ≠ [])

/-- html401.py:811-813 `MediaDesc.from_str`. -/
def mediaFromStr (s : Str) : List Str := mediaInit ((splitOn 44 s).map reduceStr)

/-- html401.py:852-853 `MediaDesc.__unicode__`; `sort` is `sorted` on the set. -/
def mediaToStr (sort : List Str → List Str) (m : List Str) : Str := joinWith 44 (sort m)

/-- html401.py:829-848 `__or__`, `__and__`. -/
def mediaOr (a b : List Str) : List Str := mediaInit (a ++ b)
def mediaAnd (a b : List Str) : List Str := mediaInit (a.filter (· ∈ b))

/-! ### lengths -/

theorem strip_of {s : Str} (h1 : ∀ c ∈ s.head?, isWs c = false) (h2 : ∀ c ∈ s.getLast?, isWs c = false) :
    strip s = s := by
  have hd : ∀ l : Str, (∀ c ∈ l.head?, isWs c = false) → l.dropWhile isWs = l := by
    intro l hl
    cases l with
    | nil => rfl
    | cons a l => simp only [List.head?_cons, Option.mem_def, Option.some.injEq, forall_eq'] at hl
                  simp [List.dropWhile_cons, hl]
  unfold strip
  rw [hd s h1, hd s.reverse (by rw [List.head?_reverse]; exact h2), List.reverse_reverse]

theorem strip_clean {s : Str} (h : ∀ c ∈ s, isWs c = false) : strip s = s :=
  strip_of (fun c hc => h c (List.mem_of_mem_head? hc)) (fun c hc => h c (List.mem_of_mem_getLast? hc))

theorem digit_not_ws {c : Nat} (h : Text.isDigit c = true) : isWs c = false := by
  simp only [Text.isDigit, Bool.and_eq_true, decide_eq_true_eq] at h
  simp only [isWs, Bool.or_eq_false_iff, Bool.and_eq_false_iff, decide_eq_false_iff_not, beq_eq_false_iff_ne]
  omega

theorem lenLoop_done (l : Str) (v : Str) (b : Bool) (hb : b = false) :
    lenLoop l v (some b) = (v, some (decide (37 ∈ l))) := by
  subst hb
  induction l with
  | nil => simp [lenLoop]
  | cons c l ih =>
    unfold lenLoop
    by_cases hc : c = 37
    · simp [hc]
    · simp [hc, ih, Ne.symm hc]

theorem lenLoop_none (l : Str) : ∀ v, lenLoop l v none =
    (v ++ l.takeWhile Text.isDigit,
      if l.dropWhile Text.isDigit = [] then none else some (decide (37 ∈ l.dropWhile Text.isDigit))) := by
  induction l with
  | nil => intro v; simp [lenLoop]
  | cons c l ih =>
    intro v
    unfold lenLoop
    by_cases hd : Text.isDigit c = true
    · simp [hd, ih]
    · by_cases hc : c = 37
      · simp [hd, hc, List.takeWhile_cons, List.dropWhile_cons]
        simp [Text.isDigit]
      · simp [hd, hc, List.takeWhile_cons, List.dropWhile_cons, lenLoop_done, Ne.symm hc]

/-- C98: which texts are lengths, and which length each is: after white space is taken off, the
leading digits are the number, there must be at least one, and it is a percentage exactly when a
percent sign comes anywhere after them. -/
theorem C98_length_parse (s : Str) (l : Len) :
    Len.fromStr s = some l ↔
      ∃ ds rest, strip s = ds ++ rest ∧ ds ≠ [] ∧ (∀ c ∈ ds, Text.isDigit c = true) ∧
        (∀ c ∈ rest.head?, Text.isDigit c = false) ∧
        l = if 37 ∈ rest then .percent (decVal ds) else .pixel (decVal ds) := by
  have hL : Len.fromStr s = if (strip s).takeWhile Text.isDigit = [] then none
      else some (if 37 ∈ (strip s).dropWhile Text.isDigit then .percent (decVal ((strip s).takeWhile Text.isDigit))
        else .pixel (decVal ((strip s).takeWhile Text.isDigit))) := by
    unfold Len.fromStr
    rw [lenLoop_none]
    simp only [List.nil_append]
    by_cases h : (strip s).dropWhile Text.isDigit = []
    · simp [h]
    · simp [h]
  rw [hL]
  constructor
  · intro h
    split at h
    · exact absurd h (by simp)
    · rename_i hne
      refine ⟨(strip s).takeWhile Text.isDigit, (strip s).dropWhile Text.isDigit,
        (List.takeWhile_append_dropWhile).symm, hne, ?_, ?_, (Option.some.inj h).symm⟩
      · intro c hc; exact List.all_eq_true.1 List.all_takeWhile c hc
      · intro c hc
        have := List.head?_dropWhile_not Text.isDigit (strip s)
        rw [hc] at this
        simpa using this
  · rintro ⟨ds, rest, hs, hne, hd, hr, hl⟩
    have h1 : (strip s).takeWhile Text.isDigit = ds ∧ (strip s).dropWhile Text.isDigit = rest := by
      rw [hs, List.takeWhile_append_of_pos hd, List.dropWhile_append_of_pos hd]
      cases rest with
      | nil => simp
      | cons a rest =>
        have : Text.isDigit a = false := hr a (by simp)
        simp [List.takeWhile_cons, List.dropWhile_cons, this]
    rw [h1.1, h1.2, if_neg hne, hl]

theorem Len.toStr_ws (l : Len) : ∀ c ∈ l.toStr, isWs c = false := by
  have hi : ∀ v : Int, ∀ c ∈ intStr v, isWs c = false := by
    intro v c hc
    unfold intStr at hc
    split at hc
    · rcases List.mem_cons.1 hc with h | h
      · subst h; decide
      · exact digit_not_ws (decStr_isDigit _ c h)
    · exact digit_not_ws (decStr_isDigit _ c hc)
  intro c hc
  cases l with
  | pixel v => exact hi v c hc
  | percent v =>
    simp only [Len.toStr, List.mem_append, List.mem_singleton] at hc
    rcases hc with h | h
    · exact hi v c h
    · subst h; decide

/-- The value of a length, without its unit. -/
def Len.value : Len → Int
  | .pixel v => v
  | .percent v => v

/-- C98: a length that is not negative is read back from its text. -/
theorem C98_length_round_trip (l : Len) (h : 0 ≤ l.value) : Len.fromStr l.toStr = some l := by
  rw [C98_length_parse]
  rw [strip_clean l.toStr_ws]
  cases l with
  | pixel v =>
    have hv : intStr v = decStr v.natAbs := by unfold intStr; rw [if_neg]; simp only [Len.value] at h; omega
    refine ⟨decStr v.natAbs, [], ?_, decStr_ne_nil _, decStr_isDigit _, by simp, ?_⟩
    · simp [Len.toStr, hv]
    · simp only [Len.value] at h
      simp only [decVal_decStr]
      have : (v.natAbs : Int) = v := by omega
      simp [this]
  | percent v =>
    have hv : intStr v = decStr v.natAbs := by unfold intStr; rw [if_neg]; simp only [Len.value] at h; omega
    refine ⟨decStr v.natAbs, [37], ?_, decStr_ne_nil _, decStr_isDigit _, by simp [Text.isDigit], ?_⟩
    · simp [Len.toStr, hv]
    · simp only [Len.value] at h
      simp only [decVal_decStr]
      have : (v.natAbs : Int) = v := by omega
      simp [this]

/-- C98: what is read is never negative, so reading, writing and reading again is reading once. -/
theorem C98_length_stable (s : Str) (l : Len) (h : Len.fromStr s = some l) :
    0 ≤ l.value ∧ Len.fromStr l.toStr = some l := by
  have hv : 0 ≤ l.value := by
    obtain ⟨ds, rest, _, _, _, _, hl⟩ := (C98_length_parse s l).1 h
    rw [hl]; split <;> simp [Len.value]
  exact ⟨hv, C98_length_round_trip l hv⟩

/-- C98 fails for negative lengths, which the constructor accepts: the text cannot be read back. -/
theorem C98_violation_negative (v : Int) (h : v < 0) : Len.fromStr (Len.pixel v).toStr = none := by
  cases hf : Len.fromStr (Len.pixel v).toStr with
  | none => rfl
  | some l =>
    obtain ⟨ds, rest, hs, hne, hd, _, _⟩ := (C98_length_parse _ l).1 hf
    rw [strip_clean (Len.toStr_ws _)] at hs
    simp only [Len.toStr, intStr, if_pos h] at hs
    cases ds with
    | nil => exact absurd rfl hne
    | cons a ds =>
      simp only [List.cons_append, List.cons.injEq] at hs
      have := hd a (by simp)
      rw [← hs.1] at this
      simp [Text.isDigit] at this

/-- C98: a percentage is resolved to the whole number nearest to that part of the dimension, halves
rounded up; a number of pixels is itself. -/
theorem C98_resolve (l : Len) (dim n : Int) (h : l.resolve (some dim) = some n) :
    match l with
    | .pixel v => n = v
    | .percent p => 2 * p * dim - 100 < 200 * n ∧ 200 * n ≤ 2 * p * dim + 100 := by
  cases l with
  | pixel v => simpa [Len.resolve, eq_comm] using h
  | percent p =>
    simp only [Len.resolve, Option.map_some, Option.some.injEq] at h
    simp only
    have h2 : 2 * p * dim = 2 * (p * dim) := Int.mul_assoc ..
    rw [h2]
    generalize p * dim = q at h ⊢
    rw [Int.fdiv_eq_ediv_of_nonneg _ (by omega)] at h
    omega

example : Len.fromStr (txt " 50% ") = some (.percent 50) := by decide +kernel
example : Len.fromStr (txt "50px") = some (.pixel 50) := by decide +kernel
example : Len.fromStr (txt "10x%") = some (.percent 10) := by decide +kernel
example : Len.fromStr (txt "px") = none := by decide +kernel
example : (Len.percent 33).resolve (some 50) = some 17 := by decide +kernel

/-! ### coordinates -/

/-- C98: coordinates that are not negative are read back from their text. -/
theorem C98_coords_round_trip (c : List Len) (h : ∀ l ∈ c, 0 ≤ l.value) :
    coordsFromStr (coordsToStr c) = some c := by
  unfold coordsFromStr coordsToStr
  cases c with
  | nil => simp [joinWith]
  | cons a c =>
    have hnc : ∀ w ∈ (a :: c).map Len.toStr, 44 ∉ w := by
      intro w hw hm
      obtain ⟨l, hl, rfl⟩ := List.mem_map.1 hw
      have hi : ∀ v : Int, 44 ∉ intStr v := by
        intro v hv
        unfold intStr at hv
        split at hv
        · rcases List.mem_cons.1 hv with e | e
          · omega
          · exact absurd (decStr_isDigit _ _ e) (by decide)
        · exact absurd (decStr_isDigit _ _ hv) (by decide)
      cases l with
      | pixel v => exact hi v hm
      | percent v =>
        simp only [Len.toStr, List.mem_append, List.mem_singleton] at hm
        rcases hm with e | e
        · exact hi v e
        · omega
    have hsp := splitOn_joinWith 44 ((a :: c).map Len.toStr) (by simp) hnc
    have hne : joinWith 44 ((a :: c).map Len.toStr) ≠ [] := by
      intro he
      rw [he] at hsp
      have ha : a.toStr ≠ [] := by
        have := decStr_ne_nil
        cases a with
        | pixel v => simp only [Len.toStr, intStr]; split <;> simp [this]
        | percent v => simp [Len.toStr]
      simp only [splitOn, List.map_cons, List.cons.injEq] at hsp
      exact ha hsp.1.symm
    rw [if_neg hne, hsp]
    clear hsp hne hnc
    generalize a :: c = c at h ⊢
    induction c with
    | nil => rfl
    | cons b c ih =>
      simp only [List.map_cons, List.mapM_cons]
      rw [strip_clean b.toStr_ws, C98_length_round_trip b (h b (by simp)), ih (fun l hl => h l (by simp [hl]))]
      rfl

example : coordsFromStr (txt "0,0, 10 ,50%") = some [.pixel 0, .pixel 0, .pixel 10, .percent 50] := by decide +kernel

/-! ### the other shapes of C99 -/

/-- html401.py:452-480 `Coords.test_circle`. -/
def testCircle (c : List Len) (x y : Int) (w h : Option Int) : Option Bool :=
  match c with
  | a :: b :: r :: _ => do
    let rmax := match w, h with
      | none, none => none
      | none, some h => some h
      | some w, none => some w
      | some w, some h => if w < h then some w else some h
    let x0 ← a.resolve w
    let y0 ← b.resolve h
    let rv ← r.resolve rmax
    pure (decide ((x - x0) * (x - x0) + (y - y0) * (y - y0) ≤ rv * rv))
  | _ => none

/-- C99: a circle area is the disc, edge included, about the centre; a radius given as a percentage is
a part of the smaller of width and height. -/
theorem C99_circle (cx cy r : Int) (p : Int) (more : List Len) (x y w h : Int) :
    testCircle (.pixel cx :: .pixel cy :: .pixel r :: more) x y (some w) (some h) =
      some (decide ((x - cx) ^ 2 + (y - cy) ^ 2 ≤ r ^ 2)) ∧
    testCircle (.pixel cx :: .pixel cy :: .percent p :: more) x y (some w) (some h) =
      ((Len.percent p).resolve (some (min w h))).map (fun r => decide ((x - cx) ^ 2 + (y - cy) ^ 2 ≤ r ^ 2)) := by
  have hsq : ∀ a : Int, a ^ 2 = a * a := fun a => pow_two a
  constructor
  · simp only [hsq]; rfl
  · have hm : (if w < h then some w else some h) = some (min w h) := by
      split
      · rw [Int.min_eq_left (by omega)]
      · rw [Int.min_eq_right (by omega)]
    unfold testCircle
    simp only [hm, hsq]
    rfl

/-- C99: any two opposite corners of a rectangle, in either order, give the same area. -/
theorem C99_rect_corners (a b c d : Len) (more : List Len) (x y : Int) (w h : Option Int) :
    testRect (a :: b :: c :: d :: more) x y w h = testRect (c :: b :: a :: d :: more) x y w h ∧
    testRect (a :: b :: c :: d :: more) x y w h = testRect (a :: d :: c :: b :: more) x y w h := by
  have key : ∀ p q : Int, (if p > q then (q, p) else (p, q)) = (if q > p then (p, q) else (q, p)) := by
    intro p q
    split <;> split <;> first | rfl | (exfalso; omega) | (have : p = q := by omega
                                                          subst this; rfl)
  unfold testRect
  dsimp only
  generalize a.resolve w = a'
  generalize b.resolve h = b'
  generalize c.resolve w = c'
  generalize d.resolve h = d'
  rcases a' with _ | p
  · cases b' <;> cases c' <;> cases d' <;> exact ⟨rfl, rfl⟩
  rcases b' with _ | q
  · cases c' <;> cases d' <;> exact ⟨rfl, rfl⟩
  rcases c' with _ | r
  · cases d' <;> exact ⟨rfl, rfl⟩
  rcases d' with _ | t
  · exact ⟨rfl, rfl⟩
  simp only [Option.bind_eq_bind, Option.bind_some]
  rw [key p r, key q t]
  exact ⟨rfl, rfl⟩

example : testCircle [.percent 50, .percent 50, .percent 50] 10 5 (some 20) (some 10) = some true := by decide +kernel
example : testCircle [.percent 50, .percent 50, .percent 50] 16 5 (some 20) (some 10) = some false := by decide +kernel

/-! ### colours -/

theorem lowerC_idem (c : Nat) : lowerC (lowerC c) = lowerC c := by
  unfold lowerC; repeat' split
  all_goals omega

theorem lowerC_ws (c : Nat) : isWs (lowerC c) = isWs c := by
  unfold lowerC
  split
  · rename_i h
    have h1 : isWs c = false := by
      simp only [isWs, Bool.or_eq_false_iff, Bool.and_eq_false_iff, decide_eq_false_iff_not, beq_eq_false_iff_ne]; omega
    have h2 : isWs (c + 32) = false := by
      simp only [isWs, Bool.or_eq_false_iff, Bool.and_eq_false_iff, decide_eq_false_iff_not, beq_eq_false_iff_ne]; omega
    rw [h1, h2]
  · rfl

theorem lower_strip (s : Str) : lower (strip s) = strip (lower s) := by
  have hd : ∀ l : Str, (l.map lowerC).dropWhile isWs = (l.dropWhile isWs).map lowerC := by
    intro l
    rw [List.dropWhile_map]
    congr 2
    funext c; exact lowerC_ws c
  unfold strip lower
  rw [hd, ← List.map_reverse, hd, ← List.map_reverse]

/-- C98: colours are read without regard to the case of letters. -/
theorem C98_color_case (s t : Str) (h : lower s = lower t) : Color.fromStr s = Color.fromStr t := by
  unfold Color.fromStr
  rw [lower_strip, lower_strip, h]

theorem hexLower_isHex {n : Nat} (h : n < 16) : isHex (lowerC (hexDigit n)) = true := by
  revert h; revert n; decide
theorem hexLower_val {n : Nat} (h : n < 16) : hexVal (lowerC (hexDigit n)) = n := by
  revert h; revert n; decide
theorem hexDigit_ws {n : Nat} (h : n < 16) : isWs (hexDigit n) = false := by
  revert h; revert n; decide

/-- C98: a colour with components of one byte each is read back from its text. -/
theorem C98_color_round_trip (r g b : Nat) (hr : r < 256) (hg : g < 256) (hb : b < 256) :
    Color.fromStr (Color.toStr (r, g, b)) = (r, g, b) := by
  have hs : strip (Color.toStr (r, g, b)) = Color.toStr (r, g, b) := by
    apply strip_clean
    intro c hc
    simp only [Color.toStr, hex2, List.cons_append, List.nil_append, List.mem_cons, List.not_mem_nil, or_false] at hc
    rcases hc with h | h | h | h | h | h | h <;> subst h
    · decide
    all_goals (apply hexDigit_ws; omega)
  unfold Color.fromStr
  rw [hs]
  have hn : knownColors.find? (fun e => e.1 = lower (Color.toStr (r, g, b))) = none := by
    rw [List.find?_eq_none]
    intro e he
    have hh : e.1.head? ≠ some 35 := by
      revert e; decide +kernel
    intro hc
    simp only [decide_eq_true_eq] at hc
    rw [hc] at hh
    exact hh (by simp [lower, Color.toStr, lowerC])
  rw [hn]
  have h1 : r / 16 < 16 := by omega
  have h2 : r % 16 < 16 := by omega
  have h3 : g / 16 < 16 := by omega
  have h4 : g % 16 < 16 := by omega
  have h5 : b / 16 < 16 := by omega
  have h6 : b % 16 < 16 := by omega
  have hf : (lower (Color.toStr (r, g, b))).filter isHex = (hex2 r ++ hex2 g ++ hex2 b).map lowerC := by
    have : isHex (lowerC 35) = false := by decide
    simp only [lower, Color.toStr, hex2, List.cons_append, List.nil_append, List.map_cons, List.map_nil,
      List.filter_cons, this, hexLower_isHex h1, hexLower_isHex h2, hexLower_isHex h3, hexLower_isHex h4,
      hexLower_isHex h5, hexLower_isHex h6]
    simp
  simp only [hf]
  have hl : ((hex2 r ++ hex2 g ++ hex2 b).map lowerC).length = 6 := by simp [hex2]
  rw [if_pos (by omega)]
  have hv : hexNum ((hex2 r ++ hex2 g ++ hex2 b).map lowerC) = r * 65536 + g * 256 + b := by
    simp only [hexNum, hex2, List.cons_append, List.nil_append, List.map_cons, List.map_nil, List.foldl_cons, List.foldl_nil,
      hexLower_val h1, hexLower_val h2, hexLower_val h3, hexLower_val h4, hexLower_val h5, hexLower_val h6]
    omega
  rw [hv]
  refine Prod.ext ?_ (Prod.ext ?_ ?_) <;> simp only <;> omega

/-- C98: the sixteen names are read, in any case and with white space around them, as their colours. -/
theorem C98_color_names (n : Str) (c : Color) (h : (n, c) ∈ knownColors) (s : Str) (hs : strip (lower s) = n) :
    Color.fromStr s = c := by
  have hk : ∀ e ∈ knownColors, knownColors.find? (fun e' => e'.1 = e.1) = some e := by decide +kernel
  unfold Color.fromStr
  rw [lower_strip, hs, hk _ h]

example : Color.fromStr (txt " Olive") = (0x80, 0x80, 0) := by decide +kernel
example : Color.toStr (0x80, 0x0a, 0xff) = txt "#800AFF" := by decide +kernel

/-! ### media descriptors -/

theorem reduceStr_media (m : Str) : ∀ c ∈ reduceStr m, isMedia c = true ∧ lowerC c = c := by
  intro c hc
  unfold reduceStr lower at hc
  obtain ⟨d, hd, rfl⟩ := List.mem_map.1 hc
  have hm : isMedia d = true := List.all_eq_true.1 List.all_takeWhile d hd
  refine ⟨?_, lowerC_idem d⟩
  unfold lowerC
  split
  · simp only [isMedia, Bool.or_eq_true, Bool.and_eq_true, decide_eq_true_eq]; left; left; left; omega
  · exact hm

theorem media_ws {c : Nat} (h : isMedia c = true) : isWs c = false := by
  simp only [isMedia, Text.isDigit, Bool.or_eq_true, Bool.and_eq_true, decide_eq_true_eq, beq_iff_eq] at h
  simp only [isWs, Bool.or_eq_false_iff, Bool.and_eq_false_iff, decide_eq_false_iff_not, beq_eq_false_iff_ne]
  omega

theorem reduceStr_of {m : Str} (h : ∀ c ∈ m, isMedia c = true ∧ lowerC c = c) : reduceStr m = m := by
  unfold reduceStr
  have hT : m.takeWhile isMedia = m := by
    have := List.takeWhile_append_of_pos (l₂ := []) (fun c hc => (h c hc).1)
    simpa using this
  rw [strip_clean (fun c hc => media_ws (h c hc).1), hT]
  unfold lower
  conv => rhs; rw [← List.map_id m]
  exact List.map_congr_left fun c hc => (h c hc).2

/-- What a set of media descriptors holds: names of lower case letters, digits and hyphens. -/
def MediaName (m : Str) : Prop :=
  m ≠ [] ∧ ∀ c ∈ m, (97 ≤ c ∧ c ≤ 122) ∨ (48 ≤ c ∧ c ≤ 57) ∨ c = 45

theorem mediaName_iff (m : Str) : MediaName m ↔ m ≠ [] ∧ ∀ c ∈ m, isMedia c = true ∧ lowerC c = c := by
  unfold MediaName
  refine and_congr_right fun _ => forall_congr' fun c => imp_congr_right fun _ => ?_
  simp only [isMedia, lowerC, Text.isDigit, Bool.or_eq_true, Bool.and_eq_true, decide_eq_true_eq, beq_iff_eq]
  constructor
  · intro h
    refine ⟨by omega, ?_⟩
    rw [if_neg (by omega)]
  · rintro ⟨h, h2⟩
    split at h2
    · omega
    · omega

/-- C98: whatever it is made from, a set of media descriptors holds nothing but such names. -/
theorem C98_media_names (l : List Str) : ∀ m ∈ mediaInit l, MediaName m := by
  intro m hm
  unfold mediaInit at hm
  simp only [List.mem_filter, List.mem_map, decide_eq_true_eq] at hm
  obtain ⟨⟨a, _, rfl⟩, hne⟩ := hm
  exact (mediaName_iff _).2 ⟨hne, reduceStr_media a⟩

theorem mem_mediaInit_of {l : List Str} (h : ∀ m ∈ l, MediaName m) (m : Str) : m ∈ mediaInit l ↔ m ∈ l := by
  unfold mediaInit
  simp only [List.mem_filter, List.mem_map, decide_eq_true_eq]
  constructor
  · rintro ⟨⟨a, ha, rfl⟩, _⟩
    rw [reduceStr_of ((mediaName_iff a).1 (h a ha)).2]; exact ha
  · intro hm
    exact ⟨⟨m, hm, reduceStr_of ((mediaName_iff m).1 (h m hm)).2⟩, (h m hm).1⟩

/-- C98: the union and the intersection of sets of media descriptors. -/
theorem C98_media_ops (a b : List Str) (ha : ∀ m ∈ a, MediaName m) (hb : ∀ m ∈ b, MediaName m) (m : Str) :
    (m ∈ mediaOr a b ↔ m ∈ a ∨ m ∈ b) ∧ (m ∈ mediaAnd a b ↔ m ∈ a ∧ m ∈ b) := by
  constructor
  · unfold mediaOr
    rw [mem_mediaInit_of (by intro m hm; rcases List.mem_append.1 hm with h | h; exact ha m h; exact hb m h)]
    exact List.mem_append
  · unfold mediaAnd
    rw [mem_mediaInit_of (by intro m hm; exact ha m (List.mem_filter.1 hm).1)]
    simp

/-- C98: a set of media descriptors is read back from its text, whatever order it is written in. -/
theorem C98_media_round_trip (sort : List Str → List Str) (hsort : ∀ l, (sort l).Perm l)
    (m : List Str) (h : ∀ x ∈ m, MediaName x) (x : Str) :
    x ∈ mediaFromStr (mediaToStr sort m) ↔ x ∈ m := by
  unfold mediaFromStr mediaToStr
  have hs : ∀ w ∈ sort m, MediaName w := fun w hw => h w ((hsort m).mem_iff.1 hw)
  by_cases hne : sort m = []
  · have hm : m = [] := by
      have := hsort m; rw [hne] at this; exact this.symm.eq_nil
    rw [hne, hm]
    simp [joinWith, splitOn, mediaInit, reduceStr, strip, lower]
  · rw [splitOn_joinWith 44 _ hne (by
      intro w hw hc
      rcases (hs w hw).2 44 hc with h | h | h <;> omega)]
    have : (sort m).map reduceStr = sort m := by
      conv => rhs; rw [← List.map_id (sort m)]
      exact List.map_congr_left fun w hw => reduceStr_of ((mediaName_iff w).1 (hs w hw)).2
    rw [this, mem_mediaInit_of hs]
    exact (hsort m).mem_iff

/-- C98: which names a text gives. -/
theorem C98_media_parse (s x : Str) :
    x ∈ mediaFromStr s ↔ x ≠ [] ∧ ∃ w ∈ splitOn 44 s, x = lower ((strip w).takeWhile isMedia) := by
  have hid : ∀ w, reduceStr (reduceStr w) = reduceStr w := fun w => reduceStr_of (reduceStr_media w)
  unfold mediaFromStr mediaInit
  simp only [List.mem_filter, List.mem_map, decide_eq_true_eq, exists_exists_and_eq_and, hid]
  constructor
  · rintro ⟨⟨w, hw, rfl⟩, hne⟩; exact ⟨hne, w, hw, rfl⟩
  · rintro ⟨hne, w, hw, rfl⟩; exact ⟨⟨w, hw, rfl⟩, hne⟩

example : mediaFromStr (txt "screen, 3d-glasses, PRINT and resolution > 90dpi,,")
    = [txt "screen", txt "3d-glasses", txt "print"] := by decide +kernel

end Verif.Html

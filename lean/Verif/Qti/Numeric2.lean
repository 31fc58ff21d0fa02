import Verif.Qti.Numeric
/-
C94, continued: `equal` with its tolerances, rounding, and the random numbers.
-/
namespace Verif.Qti

/-- C94, `equal` in exact mode. -/
theorem C94_equal_exact (st : State) (tol : List (Ref Rat)) (lo up : Bool) (a b w : Val)
    (ha : a.wf) (hb : b.wf) (h : opN st (.equal .exact tol lo up) [a, b] = .ok w) :
    (a.isSet = false ∨ b.isSet = false → w = boolVal none) ∧
    (a.isSet = true → b.isSet = true → w = boolVal (some (decide (a.number = b.number)))) := by
  simp only [opN, two, bind_ok, Except.ok.injEq] at h
  obtain ⟨_, rfl, o, ho, h⟩ := h
  obtain ⟨h1, h2⟩ := twoNums_spec ha hb ho
  cases o with
  | none =>
    cases h
    refine ⟨fun _ => rfl, fun x y => ?_⟩
    have := h1.1 rfl
    simp [x, y] at this
  | some p =>
    obtain ⟨na, nb, rfl⟩ := h2 p rfl
    cases h
    refine ⟨fun hx => ?_, fun _ _ => rfl⟩
    have := h1.2 hx; cases this

/-- The inclusion of the bounds. -/
def lowerOk (incl : Bool) (l b : Rat) : Prop := if incl then l ≤ b else l < b

def upperOk (incl : Bool) (b u : Rat) : Prop := if incl then b ≤ u else b < u

instance (i : Bool) (l b : Rat) : Decidable (lowerOk i l b) := by unfold lowerOk; infer_instance
instance (i : Bool) (l b : Rat) : Decidable (upperOk i l b) := by unfold upperOk; infer_instance

theorem within_eq (lo up : Bool) (l u b : Rat) :
    withinBounds lo up l u b = decide (lowerOk lo l b ∧ upperOk up b u) := by
  cases lo <;> cases up <;> simp [withinBounds, lowerOk, upperOk]

/-- C94, `equal` with absolute tolerances t0 and t1 and with relative tolerances in percent: the
second operand lies between the bounds about the first one, each bound included or not as the
author says.  For a relative tolerance the bounds are a(1 - t0/100) and a(1 + t1/100); see
`C94_equal_relative_partial`. -/
theorem C94_equal_tolerance (st : State) (mode : Tol) (hm : mode ≠ .exact) (t0 t1 : Rat)
    (tol : List (Ref Rat)) (htol : tol = [.lit t0, .lit t1] ∨ (t1 = t0 ∧ tol = [.lit t0]))
    (lo up : Bool) (a b w : Val)
    (ha : a.wf) (hb : b.wf) (h : opN st (.equal mode tol lo up) [a, b] = .ok w) :
    (a.isSet = false ∨ b.isSet = false → w = boolVal none) ∧
    (a.isSet = true → b.isSet = true → w = boolVal (some (decide (
      lowerOk lo (if mode = .absolute then a.number - t0 else a.number * (1 - t0 / 100)) b.number ∧
      upperOk up b.number
        (if mode = .absolute then a.number + t1 else a.number * (1 + t1 / 100)))))) := by
  simp only [opN, two, bind_ok, Except.ok.injEq] at h
  obtain ⟨_, rfl, o, ho, h⟩ := h
  obtain ⟨h1, h2⟩ := twoNums_spec ha hb ho
  cases o with
  | none =>
    cases h
    refine ⟨fun _ => rfl, fun x y => ?_⟩
    have := h1.1 rfl
    simp [x, y] at this
  | some p =>
    obtain ⟨na, nb, rfl⟩ := h2 p rfl
    refine ⟨fun hx => ?_, fun _ _ => ?_⟩
    · have := h1.2 hx; cases this
    · dsimp only at h
      simp only [equalNums, if_neg hm] at h
      have : w = boolVal (some (withinBounds lo up (bounds mode a.number t0 t1).1
          (bounds mode a.number t0 t1).2 b.number)) := by
        rcases htol with rfl | ⟨rfl, rfl⟩ <;> (cases h; rfl)
      rw [this, within_eq]
      simp only [bounds]
      split <;> rfl

/-- C94, `equal` with a relative tolerance, for a first operand that is not negative: the second
operand differs from it by no more than t percent of it. -/
theorem C94_equal_relative_partial (st : State) (t : Rat) (a b w : Val)
    (ha : a.wf) (hb : b.wf) (h : opN st (.equal .relative [.lit t] true true) [a, b] = .ok w)
    (sa : a.isSet = true) (sb : b.isSet = true) (hn : 0 ≤ a.number) :
    w = boolVal (some (decide (|b.number - a.number| ≤ |a.number| * (t / 100)))) := by
  rw [(C94_equal_tolerance st .relative (by decide) t t _ (Or.inr ⟨rfl, rfl⟩) true true a b w ha hb
    h).2 sa sb]
  congr 2
  rw [decide_eq_decide, abs_of_nonneg hn, abs_le]
  simp only [lowerOk, upperOk, reduceCtorEq, if_false, if_true]
  constructor
  · rintro ⟨h1, h2⟩; constructor <;> linarith
  · rintro ⟨h1, h2⟩; constructor <;> linarith

/-- The full statement fails: with a tolerance of 10 percent, -10 is not equal to itself. -/
theorem C94_violation_equal_relative (st : State) :
    opN st (.equal .relative [.lit 10] true true) [floatVal (some (-10)), floatVal (some (-10))] =
      .ok (boolVal (some false)) := by
  have : withinBounds true true (bounds .relative (-10) 10 10).1 (bounds .relative (-10) 10 10).2 (-10)
      = false := by decide +kernel
  simp only [opN, two, twoNums, floatVal, Val.bt, Val.card, Val.isSet, toNum]
  simp only [equalNums, reduceCtorEq, if_false]
  change Except.ok (boolVal (some (withinBounds true true (bounds .relative (-10) 10 10).1 (bounds .relative (-10) 10 10).2 (-10)))) = _
  rw [this]

theorem float_single {v : Val} {x y} (hw : v.wf) (h1 : checkBaseTypes [v.bt, some .float] = .ok x)
    (h2 : checkCards [v.card, some .single] = .ok y) :
    v.isSet = false ∨ ∃ q, v = floatVal (some q) := by
  cases v with
  | null => simp [Val.isSet]
  | container t => simp [Val.isSet]
  | ordered t l => simp [checkCards, checkCards.go, Val.card] at h2
  | multiple t l => simp [checkCards, checkCards.go, Val.card] at h2
  | record l => simp [checkCards, checkCards.go, Val.card] at h2
  | single t o =>
    cases o with
    | none => simp [Val.isSet]
    | some d =>
      obtain ⟨bt, rfl, hd⟩ := hw d rfl
      cases bt <;> simp [checkBaseTypes, checkBaseTypes.go, Val.bt] at h1
      cases d <;> simp only [Datum.ok] at hd
      exact Or.inr ⟨_, rfl⟩

theorem truncRat_spec (q : Rat) : |(truncRat q : Rat)| ≤ |q| ∧ |q| < |(truncRat q : Rat)| + 1 ∧
    0 ≤ (truncRat q : Rat) * q := by
  have hd : (0:Rat) < q.den := by exact_mod_cast q.den_pos
  have hdi : (0:Int) < q.den := by exact_mod_cast q.den_pos
  have e : q = q.num / q.den := (Rat.num_div_den q).symm
  rcases le_or_gt 0 q.num with hn | hn
  · have h1 : truncRat q = q.num / q.den := Int.tdiv_eq_ediv_of_nonneg hn
    have h0 : 0 ≤ q.num / (q.den : Int) := Int.ediv_nonneg hn hdi.le
    have hq : 0 ≤ q := Rat.num_nonneg.1 hn
    have l1 : (q.num / (q.den : Int)) * q.den ≤ q.num := Int.ediv_mul_le _ hdi.ne'
    have l2 : q.num < (q.num / (q.den : Int) + 1) * q.den := Int.lt_ediv_add_one_mul_self _ hdi
    have m1 : ((q.num / (q.den : Int) : Int) : Rat) ≤ q := by
      conv_rhs => rw [e]
      rw [le_div_iff₀ hd]; exact_mod_cast l1
    have m2 : q < ((q.num / (q.den : Int) : Int) : Rat) + 1 := by
      conv_lhs => rw [e]
      rw [div_lt_iff₀ hd]; exact_mod_cast l2
    have h0' : (0:Rat) ≤ ((q.num / (q.den : Int) : Int) : Rat) := by exact_mod_cast h0
    rw [h1, abs_of_nonneg h0', abs_of_nonneg hq]
    exact ⟨m1, m2, mul_nonneg h0' hq⟩
  · have h1 : truncRat q = -((-q.num) / q.den) := by
      have hh := Int.tdiv_eq_ediv_of_nonneg (a := -q.num) (b := (q.den : Int)) (by omega)
      rw [Int.neg_tdiv] at hh
      unfold truncRat
      omega
    have h0 : 0 ≤ (-q.num) / (q.den : Int) := Int.ediv_nonneg (by omega) hdi.le
    have hq : q < 0 := Rat.num_neg.1 hn
    have l1 : ((-q.num) / (q.den : Int)) * q.den ≤ (-q.num) := Int.ediv_mul_le _ hdi.ne'
    have l2 : (-q.num) < ((-q.num) / (q.den : Int) + 1) * q.den := Int.lt_ediv_add_one_mul_self _ hdi
    have e' : -q = ((-q.num : Int) : Rat) / q.den := by
      push_cast; rw [neg_div, Rat.num_div_den]
    have m1 : (((-q.num) / (q.den : Int) : Int) : Rat) ≤ -q := by
      rw [e', le_div_iff₀ hd]; exact_mod_cast l1
    have m2 : -q < (((-q.num) / (q.den : Int) : Int) : Rat) + 1 := by
      rw [e', div_lt_iff₀ hd]; exact_mod_cast l2
    have h0' : (0:Rat) ≤ (((-q.num) / (q.den : Int) : Int) : Rat) := by exact_mod_cast h0
    rw [h1, Int.cast_neg, abs_neg, abs_of_nonneg h0', abs_of_neg hq]
    refine ⟨m1, m2, ?_⟩
    nlinarith [mul_nonneg h0' (neg_nonneg.2 hq.le)]

/-- C94, `truncate`: the integer next to the number on the side of 0. -/
theorem C94_truncate (v w : Val) (hw : v.wf) (h : op1 .truncate v = .ok w) :
    (v.isSet = false → w = intNull) ∧
    (v.isSet = true → ∃ n : Int, w = .single (some .integer) (some (.int n)) ∧
      |(n : Rat)| ≤ |v.number| ∧ |v.number| < |(n : Rat)| + 1 ∧ 0 ≤ (n : Rat) * v.number) := by
  simp only [op1, bind_ok] at h
  obtain ⟨_, h1, _, h2, h⟩ := h
  rcases float_single hw h1 h2 with hs | ⟨q, rfl⟩
  · refine ⟨fun _ => ?_, fun hx => by rw [hs] at hx; cases hx⟩
    cases v with
    | single t o => cases o with
      | none => cases h; rfl
      | some d => cases hs
    | _ => cases h; rfl
  · refine ⟨fun hx => (by cases hx), fun _ => ?_⟩
    exact ⟨_, (intVal_ok h).1, truncRat_spec q⟩

/-- C94, `round`: the integer n with n - 1/2 ≤ x < n + 1/2; a half goes up. -/
theorem C94_round (v w : Val) (hw : v.wf) (h : op1 .round v = .ok w) :
    (v.isSet = false → w = intNull) ∧
    (v.isSet = true → ∃ n : Int, w = .single (some .integer) (some (.int n)) ∧
      (n : Rat) - 1 / 2 ≤ v.number ∧ v.number < (n : Rat) + 1 / 2) := by
  simp only [op1, bind_ok] at h
  obtain ⟨_, h1, _, h2, h⟩ := h
  rcases float_single hw h1 h2 with hs | ⟨q, rfl⟩
  · refine ⟨fun _ => ?_, fun hx => by rw [hs] at hx; cases hx⟩
    cases v with
    | single t o => cases o with
      | none => cases h; rfl
      | some d => cases hs
    | _ => cases h; rfl
  · refine ⟨fun hx => (by cases hx), fun _ => ?_⟩
    refine ⟨_, (intVal_ok h).1, ?_, ?_⟩
    · have := Int.floor_le (q + 1 / 2)
      have e : (floatVal (some q)).number = q := rfl
      rw [e]
      have e2 : (q + 1/2).floor = ⌊q + 1/2⌋ := rfl
      rw [e2]; linarith
    · have := Int.lt_floor_add_one (q + 1 / 2)
      have e : (floatVal (some q)).number = q := rfl
      rw [e]
      have e2 : (q + 1/2).floor = ⌊q + 1/2⌋ := rfl
      rw [e2]; linarith

/-- C94, `integerToFloat`. -/
theorem C94_integer_to_float (i : Int) :
    op1 .integerToFloat (.single (some .integer) (some (.int i))) = .ok (floatVal (some (i : Rat))) :=
  rfl

theorem toNum_duration {v : Val} (hw : v.wf) (hs : v.isSet = true)
    (hc : v.card = none ∨ v.card = some .single) (hb : v.bt = none ∨ v.bt = some .duration) :
    ∃ q, v = .single (some .duration) (some (.num q)) := by
  cases v with
  | null => simp [Val.isSet] at hs
  | container t => simp [Val.isSet] at hs
  | ordered t l => simp [Val.card] at hc
  | multiple t l => simp [Val.card] at hc
  | record l => simp [Val.card] at hc
  | single t o =>
    cases o with
    | none => simp [Val.isSet] at hs
    | some d =>
      obtain ⟨bt, rfl, hd⟩ := hw d rfl
      simp only [Val.bt, reduceCtorEq, Option.some.injEq, false_or] at hb
      subst hb
      cases d <;> simp only [Datum.ok] at hd
      exact ⟨_, rfl⟩

theorem twoDurations_spec {a b : Val} {o : Option (Rat × Rat)} (ha : a.wf) (hb : b.wf)
    (h : twoDurations a b = .ok o) :
    (o = none ↔ a.isSet = false ∨ b.isSet = false) ∧ ∀ p, o = some p → p = (a.number, b.number) := by
  simp only [twoDurations, bind_ok] at h
  obtain ⟨t, ht, _, hc, h⟩ := h
  have hc := cards2 hc
  have hbt := bts2 ht
  split at h
  · rename_i hs
    simp only [Bool.and_eq_true] at hs
    obtain ⟨q, rfl⟩ := toNum_duration ha hs.1 hc.1 hbt.1
    obtain ⟨q', rfl⟩ := toNum_duration hb hs.2 hc.2 hbt.2
    cases h
    refine ⟨by simp [Val.isSet], ?_⟩
    intro p hp; cases hp; rfl
  · rename_i hs
    rw [pure_ok] at h
    subst h
    refine ⟨?_, by intro p hp; cases hp⟩
    simp only [true_iff]
    cases h1 : a.isSet <;> cases h2 : b.isSet <;> simp_all

/-- C94, `durationLT` and `durationGTE`: NULL when an operand is NULL, otherwise each is the
negation of the other and they compare the durations. -/
theorem C94_duration (st : State) (a b w w' : Val) (ha : a.wf) (hb : b.wf)
    (h : opN st .durationLT [a, b] = .ok w) (h' : opN st .durationGTE [a, b] = .ok w') :
    (a.isSet = false ∨ b.isSet = false → w = boolVal none ∧ w' = boolVal none) ∧
    (a.isSet = true → b.isSet = true → w = boolVal (some (decide (a.number < b.number))) ∧
      w' = boolVal (some (!decide (a.number < b.number)))) := by
  simp only [opN, two, bind_ok, Except.ok.injEq] at h h'
  obtain ⟨_, rfl, o, ho, h⟩ := h
  obtain ⟨_, rfl, o', ho', h'⟩ := h'
  rw [ho] at ho'; cases ho'
  obtain ⟨h1, h2⟩ := twoDurations_spec ha hb ho
  cases o with
  | none =>
    cases h; cases h'
    refine ⟨fun _ => ⟨rfl, rfl⟩, fun x y => ?_⟩
    have := h1.1 rfl
    simp [x, y] at this
  | some p =>
    obtain rfl := h2 p rfl
    cases h; cases h'
    refine ⟨fun hx => ?_, fun _ _ => ⟨rfl, ?_⟩⟩
    · have := h1.2 hx; cases this
    · simp only [Cmp.test]
      congr 2
      by_cases hl : a.number < b.number
      · simp [hl, not_le.2 hl]
      · simp [hl, not_lt.1 hl]

/-- C94, `randomInteger` with a positive step: the number drawn is min + k·step for some k ≥ 0 and
does not exceed max. -/
theorem C94_random_integer (st : State) (mn mx stp : Int) (hs : 0 < stp) (draw : Nat) (w : Val)
    (h : evalLeaf st (.randomInteger (.lit mn) (.lit mx) (.lit stp) draw) = .ok w) :
    ∃ k : Nat, w = .single (some .integer) (some (.int (mn + stp * k))) ∧ mn + stp * k ≤ mx := by
  simp only [evalLeaf, deref, bind_ok, Except.ok.injEq] at h
  obtain ⟨_, rfl, _, rfl, _, rfl, h⟩ := h
  rw [if_neg hs.ne'] at h
  simp only [bind_ok, randint] at h
  obtain ⟨k, hk, h⟩ := h
  split at hk
  · cases hk
  · rename_i hn
    cases hk
    refine ⟨_, (intVal_ok h).1, ?_⟩
    have hlt := Nat.mod_lt draw (Nat.succ_pos (((mx - mn).fdiv stp).toNat))
    have hle : ((draw % (((mx - mn).fdiv stp).toNat + 1) : Nat) : Int) ≤ (mx - mn).fdiv stp := by
      have : ((((mx - mn).fdiv stp).toNat : Nat) : Int) = (mx - mn).fdiv stp := Int.toNat_of_nonneg (by omega)
      rw [← this]
      exact_mod_cast Nat.lt_succ_iff.1 hlt
    have e := Int.mul_fdiv_add_fmod (mx - mn) stp
    have e2 := Int.fmod_nonneg_of_pos (mx - mn) hs
    have := Int.mul_le_mul_of_nonneg_left hle hs.le
    linarith

/-- Every such number can be drawn. -/
theorem C94_random_integer_all (st : State) (mn mx stp : Int) (hs : 0 < stp) (k : Nat)
    (hk : mn + stp * k ≤ mx) : ∃ draw,
    evalLeaf st (.randomInteger (.lit mn) (.lit mx) (.lit stp) draw) = intVal (mn + stp * k) := by
  have hq : (k : Int) ≤ (mx - mn).fdiv stp := by
    rw [Int.fdiv_eq_ediv_of_nonneg _ hs.le]
    exact Int.le_ediv_of_mul_le hs (by linarith)
  refine ⟨k, ?_⟩
  have h1 : ¬ ((mx - mn).fdiv stp < 0) := by omega
  have h2 : k % (((mx - mn).fdiv stp).toNat + 1) = k := Nat.mod_eq_of_lt (by omega)
  change (if stp = 0 then _ else _) = _
  rw [if_neg hs.ne']
  simp only [randint, if_neg h1, h2]
  rfl

/-- C94, `randomFloat`: for a draw r with 0 ≤ r < 1 the number lies in [min, max). -/
theorem C94_random_float (st : State) (mn mx r : Rat) (hm : mn < mx) (h0 : 0 ≤ r) (h1 : r < 1) (w : Val)
    (h : evalLeaf st (.randomFloat (.lit mn) (.lit mx) r) = .ok w) :
    ∃ q, w = floatVal (some q) ∧ mn ≤ q ∧ q < mx := by
  cases h
  refine ⟨_, rfl, ?_, ?_⟩ <;> nlinarith

/-- A negative step would be a ValueError or leave the range. -/
example (st : State) : evalLeaf st (.randomInteger (.lit 2) (.lit 11) (.lit 3) 7) =
    .ok (.single (some .integer) (some (.int 11))) := rfl

example (st : State) : opN st .sum [floatVal (some 2), .single (some .integer) (some (.int 3))] =
    .ok (floatVal (some (0 + 2 + 3))) := rfl

example (st : State) : opN st .integerDivide [.single (some .integer) (some (.int (-7))),
    .single (some .integer) (some (.int 2))] = .ok (.single (some .integer) (some (.int (-4)))) := rfl

example (st : State) : opN st .integerModulus [.single (some .integer) (some (.int (-7))),
    .single (some .integer) (some (.int 2))] = .ok (.single (some .integer) (some (.int 1))) := rfl

example (st : State) : opN st .divide [.single (some .integer) (some (.int (-7))),
    .single (some .integer) (some (.int 0))] = .ok (floatVal none) := rfl

example : op1 .round (floatVal (some (5/2))) = .ok (.single (some .integer) (some (.int 3))) := by
  have : (5 / 2 + 1 / 2 : Rat).floor = 3 := by decide +kernel
  change intVal (5 / 2 + 1 / 2 : Rat).floor = _
  rw [this]; rfl

example : op1 .truncate (floatVal (some (-5/2))) = .ok (.single (some .integer) (some (.int (-2)))) := by
  have : truncRat (-5/2) = -2 := by decide +kernel
  change intVal (truncRat (-5/2)) = _
  rw [this]; rfl

end Verif.Qti

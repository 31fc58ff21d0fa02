import Verif.Qti.Logic
import Mathlib.Data.Rat.Floor
import Mathlib.Tactic.Linarith
import Mathlib.Tactic.Ring
import Mathlib.Algebra.BigOperators.Group.List.Basic
/-
C94: arithmetic and comparison.
-/
namespace Verif.Qti

/-! ## Specification -/

/-- The number a value stands for. -/
def Val.number (v : Val) : Rat := (toNum v).getD 0

/-- A single value of base type float or integer. -/
def Numeric (v : Val) : Prop := (∃ q, v = floatVal (some q)) ∨ ∃ i, v = .single (some .integer) (some (.int i))

/-! ## Lemmas -/

theorem goNum_float : ∀ {l : List (Option BaseType)} {x : Option BaseType},
    checkNum.go (some .float) l = .ok x → x = some .float
  | [], x, h => by simp only [checkNum.go] at h; cases h; rfl
  | none :: l, x, h => by simp only [checkNum.go] at h; exact goNum_float h
  | some b :: l, x, h => by
    simp only [checkNum.go] at h
    split at h
    · split at h
      · exact goNum_float h
      · exact goNum_float h
    · cases h

theorem goNum_ok : ∀ {l : List (Option BaseType)} {acc x : Option BaseType},
    checkNum.go acc l = .ok x → ∀ o ∈ l, o = none ∨ o = some .float ∨ o = some .integer
  | [], _, x, h, o, ho => by simp at ho
  | none :: l, acc, x, h, o, ho => by
    simp only [checkNum.go] at h
    rcases List.mem_cons.1 ho with rfl | ho
    · exact Or.inl rfl
    · exact goNum_ok h o ho
  | some b :: l, acc, x, h, o, ho => by
    simp only [checkNum.go] at h
    split at h
    · rename_i hb
      rcases List.mem_cons.1 ho with rfl | ho
      · rcases hb with rfl | rfl <;> simp
      · cases acc with
        | none => exact goNum_ok h o ho
        | some a =>
          dsimp only at h
          split at h
          · exact goNum_ok h o ho
          · exact goNum_ok h o ho
    · cases h

theorem goNum_int : ∀ {l : List (Option BaseType)} {acc x : Option BaseType},
    (acc = none ∨ acc = some .integer) → checkNum.go acc l = .ok x →
    x = if some .float ∈ l then some .float
      else if acc = some .integer ∨ some .integer ∈ l then some .integer else none
  | [], acc, x, ha, h => by
    simp only [checkNum.go] at h; cases h
    rcases ha with rfl | rfl <;> simp
  | none :: l, acc, x, ha, h => by
    simp only [checkNum.go] at h
    simpa using goNum_int ha h
  | some b :: l, acc, x, ha, h => by
    simp only [checkNum.go] at h
    split at h
    · rename_i hb
      rcases hb with rfl | rfl
      · have : x = some .float := by
          rcases ha with rfl | rfl
          · exact goNum_float h
          · simp only [reduceCtorEq, if_false] at h; exact goNum_float h
        simp [this]
      · have h' : checkNum.go (some .integer) l = .ok x := by
          rcases ha with rfl | rfl
          · exact h
          · simpa using h
        rw [goNum_int (Or.inr rfl) h']
        simp
    · cases h

theorem numeric_of {v : Val} (hw : v.wf) (hs : v.isSet = true)
    (hc : v.card = none ∨ v.card = some .single)
    (hb : v.bt = none ∨ v.bt = some .float ∨ v.bt = some .integer) : Numeric v := by
  cases v with
  | null => simp [Val.isSet] at hs
  | container t => simp [Val.isSet] at hs
  | ordered t l => simp [Val.card] at hc
  | multiple t l => simp [Val.card] at hc
  | record l => simp [Val.card] at hc
  | single t o =>
    cases o with
    | none => simp [Val.isSet] at hs
    | some d =>
      obtain ⟨bt, rfl, hd⟩ := hw d rfl
      simp only [Val.bt, reduceCtorEq, Option.some.injEq, false_or] at hb
      rcases hb with rfl | rfl <;> cases d <;> simp only [Datum.ok] at hd
      · exact Or.inl ⟨_, rfl⟩
      · exact Or.inr ⟨_, rfl⟩

theorem numeric_toNum {v : Val} (h : Numeric v) : toNum v = some v.number := by
  rcases h with ⟨q, rfl⟩ | ⟨i, rfl⟩ <;> rfl

theorem foldF_spec {f : Rat → Rat → Rat} : ∀ (vs : List Val) (acc : Rat),
    (∀ v ∈ vs, v.isSet = true → Numeric v) →
    foldF f vs acc = .ok (floatVal (if ∃ v ∈ vs, v.isSet = false then none
      else some (vs.foldl (fun a v => f a v.number) acc)))
  | [], acc, _ => by simp [foldF]
  | v :: vs, acc, h => by
    simp only [foldF]
    cases hv : v.isSet with
    | false => simp [hv]
    | true =>
      rw [if_pos rfl, numeric_toNum (h v (by simp) hv)]
      dsimp only
      rw [foldF_spec vs _ fun v hv => h v (by simp [hv])]
      simp [hv]

theorem foldI_spec {f : Int → Int → Int} : ∀ (vs : List Val) (acc : Int),
    (∀ v ∈ vs, v.isSet = true → ∃ i, v = .single (some .integer) (some (.int i))) →
    foldI f vs acc = if ∃ v ∈ vs, v.isSet = false then .ok intNull
      else intVal (vs.foldl (fun a v => f a v.number.num) acc)
  | [], acc, _ => by simp [foldI]
  | v :: vs, acc, h => by
    simp only [foldI]
    cases hv : v.isSet with
    | false => simp [hv]
    | true =>
      obtain ⟨i, rfl⟩ := h v (by simp) hv
      rw [if_pos rfl]
      dsimp only
      rw [foldI_spec vs _ fun v hv => h v (by simp [hv])]
      have e : (Val.single (some BaseType.integer) (some (Datum.int i))).number.num = i := by
        simp [Val.number, toNum]
      have e2 : (∃ v ∈ Val.single (some BaseType.integer) (some (Datum.int i)) :: vs, v.isSet = false) ↔
          ∃ v ∈ vs, v.isSet = false := by simp [hv]
      simp only [e2, List.foldl_cons, e]

/-- What a sum or product of numeric operands should be. -/
def FoldSpec (f : Rat → Rat → Rat) (u : Rat) (vs : List Val) (w : Val) : Prop :=
  ((∃ v ∈ vs, v.isSet = false) → w.isSet = false ∧ w.card = some .single) ∧
  ((∀ v ∈ vs, v.isSet = true) →
    (∀ v ∈ vs, Numeric v) ∧
    ((∃ v ∈ vs, v.bt = some .float) →
      w = floatVal (some ((vs.map Val.number).foldl f u))) ∧
    ((∀ v ∈ vs, v.bt = some .integer) → ∃ i : Int,
      w = .single (some .integer) (some (.int i)) ∧ (i : Rat) = (vs.map Val.number).foldl f u))

theorem foldl_cast {f : Rat → Rat → Rat} {g : Int → Int → Int}
    (hfg : ∀ a b : Int, ((g a b : Int) : Rat) = f a b) : ∀ (vs : List Val) (acc : Int),
    (∀ v ∈ vs, ∃ i, v = .single (some .integer) (some (.int i))) →
    ((vs.foldl (fun a v => g a v.number.num) acc : Int) : Rat) = (vs.map Val.number).foldl f acc
  | [], acc, _ => rfl
  | v :: vs, acc, h => by
    obtain ⟨i, rfl⟩ := h v (by simp)
    simp only [List.foldl_cons, List.map_cons]
    rw [foldl_cast hfg vs _ fun v hv => h v (by simp [hv]), hfg]
    simp [Val.number, toNum]

theorem foldOp_spec {f : Rat → Rat → Rat} {g : Int → Int → Int} {u : Int}
    (hfg : ∀ a b : Int, ((g a b : Int) : Rat) = f a b) {vs : List Val} {w : Val}
    (hw : ∀ v ∈ vs, v.wf) (h : foldOp f g u vs = .ok w) : FoldSpec f u vs w := by
  simp only [foldOp] at h
  split at h
  · cases h
  · rename_i hne
    simp only [bind_ok] at h
    obtain ⟨_, hc, t, ht, h⟩ := h
    have hcard : ∀ v ∈ vs, v.card = none ∨ v.card = some .single := fun v hv =>
      goCard_ok (l := vs.map Val.card) hc _ (List.mem_map_of_mem hv)
    have hbt : ∀ v ∈ vs, v.bt = none ∨ v.bt = some .float ∨ v.bt = some .integer := fun v hv =>
      goNum_ok (l := vs.map Val.bt) ht _ (List.mem_map_of_mem hv)
    have hnum : ∀ v ∈ vs, v.isSet = true → Numeric v := fun v hv hs =>
      numeric_of (hw v hv) hs (hcard v hv) (hbt v hv)
    have htv := goNum_int (l := vs.map Val.bt) (Or.inl rfl) ht
    simp only [reduceCtorEq, false_or, List.mem_map] at htv
    cases t with
    | none =>
      rw [pure_ok] at h
      subst h
      refine ⟨fun _ => ⟨rfl, rfl⟩, fun hall => ⟨fun v hv => hnum v hv (hall v hv), ?_, ?_⟩⟩
      · rintro ⟨v, hv, hb⟩
        rw [if_pos ⟨v, hv, hb⟩] at htv; cases htv
      · intro hi
        exfalso
        obtain ⟨v, hv⟩ := List.exists_mem_of_ne_nil vs hne
        split at htv
        · cases htv
        · rw [if_pos ⟨v, hv, hi v hv⟩] at htv; cases htv
    | some t =>
      dsimp only at h
      split at h
      · rename_i hf
        subst hf
        rw [foldF_spec vs _ hnum] at h
        cases h
        refine ⟨?_, ?_⟩
        · intro hn
          rw [if_pos hn]
          exact ⟨rfl, rfl⟩
        · intro hall
          have hn : ¬ ∃ v ∈ vs, v.isSet = false := by
            rintro ⟨v, hv, h⟩; rw [hall v hv] at h; cases h
          rw [if_neg hn]
          refine ⟨fun v hv => hnum v hv (hall v hv), fun _ => ?_, ?_⟩
          · rw [List.foldl_map]
          · intro hi
            exfalso
            split at htv
            · rename_i hx
              obtain ⟨v, hv, hb⟩ := hx
              rw [hi v hv] at hb; cases hb
            · split at htv <;> cases htv
      · rename_i hf
        have hnf : ¬ ∃ a ∈ vs, a.bt = some .float := by
          intro hx; rw [if_pos hx] at htv; exact hf (Option.some.inj htv)
        have hint : ∀ v ∈ vs, v.isSet = true → ∃ i, v = .single (some .integer) (some (.int i)) := by
          intro v hv hs
          rcases hnum v hv hs with ⟨q, rfl⟩ | h
          · exact absurd ⟨_, hv, rfl⟩ hnf
          · exact h
        rw [foldI_spec vs _ hint] at h
        refine ⟨?_, ?_⟩
        · intro hn
          rw [if_pos hn] at h
          cases h
          exact ⟨rfl, rfl⟩
        · intro hall
          have hn : ¬ ∃ v ∈ vs, v.isSet = false := by
            rintro ⟨v, hv, h⟩; rw [hall v hv] at h; cases h
          rw [if_neg hn] at h
          refine ⟨fun v hv => hnum v hv (hall v hv), fun hx => absurd hx hnf, fun _ => ?_⟩
          obtain ⟨rfl, _⟩ := intVal_ok h
          exact ⟨_, rfl, foldl_cast hfg vs u fun v hv => hint v hv (hall v hv)⟩

theorem foldl_add_sum (l : List Rat) (a : Rat) : l.foldl (· + ·) a = a + l.sum := by
  induction l generalizing a with
  | nil => simp
  | cons x l ih => simp only [List.foldl_cons, List.sum_cons, ih]; ring

theorem foldl_mul_prod (l : List Rat) (a : Rat) : l.foldl (· * ·) a = a * l.prod := by
  induction l generalizing a with
  | nil => simp
  | cons x l ih => simp only [List.foldl_cons, List.prod_cons, ih]; ring

/-- The result of an n-ary arithmetic operator: NULL when an operand is NULL, otherwise the
number, as a float when an operand is a float and as an integer when all are integers. -/
def Arith (op : List Rat → Rat) (vs : List Val) (w : Val) : Prop :=
  ((∃ v ∈ vs, v.isSet = false) → w.isSet = false ∧ w.card = some .single) ∧
  ((∀ v ∈ vs, v.isSet = true) →
    (∀ v ∈ vs, Numeric v) ∧
    ((∃ v ∈ vs, v.bt = some .float) → w = floatVal (some (op (vs.map Val.number)))) ∧
    ((∀ v ∈ vs, v.bt = some .integer) → ∃ i : Int,
      w = .single (some .integer) (some (.int i)) ∧ (i : Rat) = op (vs.map Val.number)))

/-- C94, `sum`. -/
theorem C94_sum (st : State) (vs : List Val) (w : Val) (hw : ∀ v ∈ vs, v.wf)
    (h : opN st .sum vs = .ok w) : Arith List.sum vs w := by
  have := foldOp_spec (f := (· + ·)) (g := (· + ·)) (u := 0) (by intros; push_cast; rfl) hw h
  simp only [FoldSpec, foldl_add_sum, Int.cast_zero, zero_add] at this
  exact this

/-- C94, `product`. -/
theorem C94_product (st : State) (vs : List Val) (w : Val) (hw : ∀ v ∈ vs, v.wf)
    (h : opN st .product vs = .ok w) : Arith List.prod vs w := by
  have := foldOp_spec (f := (· * ·)) (g := (· * ·)) (u := 1) (by intros; push_cast; rfl) hw h
  simp only [FoldSpec, foldl_mul_prod, Int.cast_one, one_mul] at this
  exact this

theorem cards2 {a b : Val} {x : Option Card} (h : checkCards [a.card, b.card, some .single] = .ok x) :
    (a.card = none ∨ a.card = some .single) ∧ (b.card = none ∨ b.card = some .single) := by
  cases ha : a.card with
  | none =>
    cases hb : b.card with
    | none => simp
    | some c =>
      rw [ha, hb] at h
      simp only [checkCards, checkCards.go] at h
      split at h
      · rename_i he; simp [he]
      · cases h
  | some c =>
    cases hb : b.card with
    | none =>
      rw [ha, hb] at h
      simp only [checkCards, checkCards.go] at h
      split at h
      · rename_i he; simp [he]
      · cases h
    | some c' =>
      rw [ha, hb] at h
      simp only [checkCards, checkCards.go] at h
      split at h
      · rename_i he
        split at h
        · rename_i he'; simp [he, ← he']
        · cases h
      · cases h

theorem bts2 {a b : Val} {t : BaseType} {x : Option BaseType}
    (h : checkBaseTypes [a.bt, b.bt, some t] = .ok x) :
    (a.bt = none ∨ a.bt = some t) ∧ (b.bt = none ∨ b.bt = some t) := by
  cases ha : a.bt with
  | none =>
    cases hb : b.bt with
    | none => simp
    | some c =>
      rw [ha, hb] at h
      simp only [checkBaseTypes, checkBaseTypes.go] at h
      split at h
      · rename_i he; simp [he]
      · cases h
  | some c =>
    cases hb : b.bt with
    | none =>
      rw [ha, hb] at h
      simp only [checkBaseTypes, checkBaseTypes.go] at h
      split at h
      · rename_i he; simp [he]
      · cases h
    | some c' =>
      rw [ha, hb] at h
      simp only [checkBaseTypes, checkBaseTypes.go] at h
      split at h
      · rename_i he
        split at h
        · rename_i he'; simp [he, ← he']
        · cases h
      · cases h

theorem twoNums_spec {a b : Val} {o : Option (Rat × Rat)} (ha : a.wf) (hb : b.wf)
    (h : twoNums a b = .ok o) :
    (o = none ↔ a.isSet = false ∨ b.isSet = false) ∧
      ∀ p, o = some p → Numeric a ∧ Numeric b ∧ p = (a.number, b.number) := by
  simp only [twoNums, bind_ok] at h
  obtain ⟨t, ht, _, hc, h⟩ := h
  have hc := cards2 hc
  have hbt := goNum_ok (l := [a.bt, b.bt]) ht
  split at h
  · rename_i hs
    simp only [Bool.and_eq_true] at hs
    have na := numeric_of ha hs.1 hc.1 (hbt _ (by simp))
    have nb := numeric_of hb hs.2 hc.2 (hbt _ (by simp))
    rw [numeric_toNum na, numeric_toNum nb] at h
    cases h
    refine ⟨by simp [hs.1, hs.2], ?_⟩
    intro p hp; cases hp
    exact ⟨na, nb, rfl⟩
  · rename_i hs
    rw [pure_ok] at h
    subst h
    refine ⟨?_, by intro p hp; cases hp⟩
    simp only [true_iff]
    cases h1 : a.isSet <;> cases h2 : b.isSet <;> simp_all

/-- C94, comparisons: NULL when an operand is NULL, otherwise the order of the numbers. -/
theorem C94_compare (st : State) (c : Cmp) (a b w : Val) (ha : a.wf) (hb : b.wf)
    (h : opN st (.cmp c) [a, b] = .ok w) :
    (a.isSet = false ∨ b.isSet = false → w = boolVal none) ∧
    (a.isSet = true → b.isSet = true → w = boolVal (some (match c with
      | .lt => decide (a.number < b.number)
      | .gt => decide (b.number < a.number)
      | .lte => decide (a.number ≤ b.number)
      | .gte => decide (b.number ≤ a.number)))) := by
  simp only [opN, two, bind_ok, Except.ok.injEq] at h
  obtain ⟨_, rfl, o, ho, h⟩ := h
  obtain ⟨h1, h2⟩ := twoNums_spec ha hb ho
  cases o with
  | none =>
    cases h
    refine ⟨fun _ => rfl, fun x y => ?_⟩
    have := h1.1 rfl
    simp [x, y] at this
  | some p =>
    obtain ⟨na, nb, rfl⟩ := h2 p rfl
    cases h
    refine ⟨fun hx => ?_, fun _ _ => ?_⟩
    · have := h1.2 hx; cases this
    · cases c <;> rfl

/-- C94, `subtract`. -/
theorem C94_subtract (st : State) (a b w : Val) (ha : a.wf) (hb : b.wf)
    (h : opN st .subtract [a, b] = .ok w) :
    Arith (fun l => match l with | [x, y] => x - y | _ => 0) [a, b] w := by
  simp only [opN, two, bind_ok, Except.ok.injEq, subtractOp] at h
  obtain ⟨_, rfl, t, ht, _, hc, h⟩ := h
  have hc := cards2 hc
  have hbt := goNum_ok (l := [a.bt, b.bt]) ht
  have htv := goNum_int (l := [a.bt, b.bt]) (Or.inl rfl) ht
  have na : a.isSet = true → Numeric a := fun hs => numeric_of ha hs hc.1 (hbt _ (by simp))
  have nb : b.isSet = true → Numeric b := fun hs => numeric_of hb hs hc.2 (hbt _ (by simp))
  refine ⟨?_, ?_⟩
  · intro hn
    have hn : a.isSet = false ∨ b.isSet = false := by simpa using hn
    cases t with
    | none => cases h; exact ⟨rfl, rfl⟩
    | some t =>
      dsimp only at h
      split at h
      · rename_i hs
        simp only [Bool.and_eq_true] at hs
        simp [hs.1, hs.2] at hn
      · split at h <;> (cases h; exact ⟨rfl, rfl⟩)
  · intro hall
    have sa := hall a (by simp)
    have sb := hall b (by simp)
    have na := na sa
    have nb := nb sb
    refine ⟨by simpa using ⟨na, nb⟩, ?_, ?_⟩
    · intro hx
      have hmem : some BaseType.float ∈ [a.bt, b.bt] := by
        obtain ⟨v, hv, he⟩ := hx
        exact he ▸ (List.mem_map_of_mem (f := Val.bt) hv : v.bt ∈ [a, b].map Val.bt)
      rw [if_pos hmem] at htv
      subst htv
      dsimp only at h
      rw [sa, sb] at h
      simp only [Bool.and_self, if_true, numeric_toNum na, numeric_toNum nb] at h
      cases h; rfl
    · intro hi
      have ia := hi a (by simp)
      have ib := hi b (by simp)
      rw [ia, ib] at htv
      simp at htv
      subst htv
      rcases na with ⟨q, rfl⟩ | ⟨i, rfl⟩
      · cases ia
      rcases nb with ⟨q, rfl⟩ | ⟨j, rfl⟩
      · cases ib
      simp [Val.isSet] at h
      obtain ⟨rfl, _⟩ := intVal_ok h
      exact ⟨_, rfl, by simp [Val.number, toNum]⟩

/-- C94, `divide`: NULL when an operand is NULL or the divisor is 0, otherwise the quotient, as a
float. -/
theorem C94_divide (st : State) (a b w : Val) (ha : a.wf) (hb : b.wf)
    (h : opN st .divide [a, b] = .ok w) :
    (a.isSet = false ∨ b.isSet = false ∨ b.number = 0 → w = floatVal none) ∧
    (a.isSet = true → b.isSet = true → b.number ≠ 0 → ∃ q, w = floatVal (some q) ∧
      q * b.number = a.number) := by
  simp only [opN, two, bind_ok, Except.ok.injEq] at h
  obtain ⟨_, rfl, o, ho, h⟩ := h
  obtain ⟨h1, h2⟩ := twoNums_spec ha hb ho
  cases o with
  | none =>
    cases h
    refine ⟨fun _ => rfl, fun x y => ?_⟩
    have := h1.1 rfl
    simp [x, y] at this
  | some p =>
    obtain ⟨na, nb, rfl⟩ := h2 p rfl
    cases h
    refine ⟨fun hx => ?_, fun _ _ hz => ?_⟩
    · by_cases hz : b.number = 0
      · simp [hz]
      · have := h1.2 (by tauto)
        cases this
    · refine ⟨a.number / b.number, by simp [hz], ?_⟩
      field_simp

theorem intOp_spec {f : Int → Int → Int} {a b w : Val} (ha : a.wf) (hb : b.wf)
    (h : intOp f a b = .ok w) :
    (a.isSet = false ∨ b.isSet = false → w = intNull) ∧
    (a.isSet = true → b.isSet = true → ∃ i j : Int, a = .single (some .integer) (some (.int i)) ∧
      b = .single (some .integer) (some (.int j)) ∧ (j = 0 → w = intNull) ∧
      (j ≠ 0 → w = .single (some .integer) (some (.int (f i j))))) := by
  simp only [intOp, bind_ok] at h
  obtain ⟨_, ht, _, hc, h⟩ := h
  have hc := cards2 hc
  have hbt := bts2 ht
  have key : ∀ v : Val, v.wf → v.isSet = true → (v.card = none ∨ v.card = some .single) →
      (v.bt = none ∨ v.bt = some .integer) → ∃ i, v = .single (some .integer) (some (.int i)) := by
    intro v hw hs hc hb
    rcases numeric_of hw hs hc (by tauto) with ⟨q, rfl⟩ | h
    · simp [floatVal, Val.bt] at hb
    · exact h
  split at h
  · rename_i hs
    simp only [Bool.and_eq_true] at hs
    obtain ⟨i, rfl⟩ := key a ha hs.1 hc.1 hbt.1
    obtain ⟨j, rfl⟩ := key b hb hs.2 hc.2 hbt.2
    refine ⟨by simp [Val.isSet], fun _ _ => ⟨i, j, rfl, rfl, ?_, ?_⟩⟩
    · intro hj; subst hj; simp at h; cases h; rfl
    · intro hj; simp [hj] at h; exact (intVal_ok h).1
  · rename_i hs
    rw [pure_ok] at h
    subst h
    refine ⟨fun _ => rfl, fun x y => by simp [x, y] at hs⟩

theorem fmod_neg (i : Int) {j : Int} (hj : j < 0) : j < i.fmod j ∧ i.fmod j ≤ 0 := by
  have h := Int.neg_fmod_neg (a := -i) (b := -j)
  rw [neg_neg, neg_neg] at h
  have hp : 0 < -j := by omega
  have h1 := Int.fmod_nonneg_of_pos (-i) hp
  have h2 := Int.fmod_lt_of_pos (-i) hp
  omega

/-- C94, `integerDivide` and `integerModulus`: for a divisor that is not 0 the quotient is the
greatest integer not above the exact quotient, and quotient and remainder make up the dividend;
a divisor 0 or a NULL operand gives NULL. -/
theorem C94_integer_division (st : State) (a b q r : Val) (ha : a.wf) (hb : b.wf)
    (hq : opN st .integerDivide [a, b] = .ok q) (hr : opN st .integerModulus [a, b] = .ok r) :
    (a.isSet = false ∨ b.isSet = false → q = intNull ∧ r = intNull) ∧
    (a.isSet = true → b.isSet = true → ∃ i j : Int,
      a = .single (some .integer) (some (.int i)) ∧ b = .single (some .integer) (some (.int j)) ∧
      (j = 0 → q = intNull ∧ r = intNull) ∧
      (j ≠ 0 → ∃ k m : Int, q = .single (some .integer) (some (.int k)) ∧
        r = .single (some .integer) (some (.int m)) ∧ i = j * k + m ∧
        (0 < j → 0 ≤ m ∧ m < j) ∧ (j < 0 → j < m ∧ m ≤ 0) ∧
        (k : Rat) ≤ (i : Rat) / j ∧ (i : Rat) / j < k + 1)) := by
  simp only [opN, two, bind_ok, Except.ok.injEq] at hq hr
  obtain ⟨_, rfl, hq⟩ := hq
  obtain ⟨_, rfl, hr⟩ := hr
  obtain ⟨q1, q2⟩ := intOp_spec ha hb hq
  obtain ⟨r1, r2⟩ := intOp_spec ha hb hr
  refine ⟨fun h => ⟨q1 h, r1 h⟩, fun sa sb => ?_⟩
  obtain ⟨i, j, rfl, rfl, z1, n1⟩ := q2 sa sb
  obtain ⟨i', j', hi, hj, z2, n2⟩ := r2 sa sb
  cases hi; cases hj
  refine ⟨i, j, rfl, rfl, fun h => ⟨z1 h, z2 h⟩, fun h => ⟨i.fdiv j, i.fmod j, n1 h, n2 h, ?_, ?_, ?_, ?_⟩⟩
  · exact (Int.mul_fdiv_add_fmod i j).symm
  · intro hj
    exact ⟨Int.fmod_nonneg_of_pos i hj, Int.fmod_lt_of_pos i hj⟩
  · intro hj
    exact fmod_neg i hj
  · have e : (i : Rat) = j * (i.fdiv j : Int) + (i.fmod j : Int) := by
      exact_mod_cast (Int.mul_fdiv_add_fmod i j).symm
    have hjr : (j : Rat) ≠ 0 := by exact_mod_cast h
    have e2 : (i : Rat) / j = (i.fdiv j : Int) + ((i.fmod j : Int) : Rat) / j := by
      rw [e]; field_simp
    rcases lt_or_gt_of_ne h with hneg | hpos
    · have hm := fmod_neg i hneg
      have hjn : (j : Rat) < 0 := by exact_mod_cast hneg
      have h1 : (0:Rat) ≤ ((i.fmod j : Int) : Rat) / j := div_nonneg_of_nonpos (by exact_mod_cast hm.2) hjn.le
      have h2 : ((i.fmod j : Int) : Rat) / j < 1 := by
        rw [div_lt_one_of_neg hjn]; exact_mod_cast hm.1
      rw [e2]; constructor <;> linarith
    · have hjp : (0:Rat) < j := by exact_mod_cast hpos
      have h1 : (0:Rat) ≤ ((i.fmod j : Int) : Rat) / j :=
        div_nonneg (by exact_mod_cast Int.fmod_nonneg_of_pos i hpos) hjp.le
      have h2 : ((i.fmod j : Int) : Rat) / j < 1 := by
        rw [div_lt_one hjp]; exact_mod_cast Int.fmod_lt_of_pos i hpos
      rw [e2]; constructor <;> linarith

end Verif.Qti

import Verif.Qti.Types
import Mathlib.Data.List.Forall2
/-
C92: `and`, `or`, `not` and `anyN` are three-valued: a NULL operand is an unknown truth value,
and the result is known exactly when it is the same for all truth values of the unknowns.
-/
namespace Verif.Qti

/-! ## Specification -/

/-- `b` is a possible truth value of the operand: its own value, or anything for NULL. -/
def Possible (v : Val) (b : Bool) : Prop := v.isSet = false ∨ v = boolVal (some b)

/-- A choice of a truth value for every operand. -/
def Choice (vs : List Val) (bs : List Bool) : Prop := List.Forall₂ Possible vs bs

/-- The result `w` of an operator is what can be known about `f` of the operands. -/
def Known (f : List Bool → Bool) (vs : List Val) (w : Val) : Prop :=
  (∃ r, w = boolVal r) ∧ ∀ b, w = boolVal (some b) ↔ ∀ bs, Choice vs bs → f bs = b

/-! ## Lemmas -/

theorem goBase_ok {a : BaseType} {x : Option BaseType} : ∀ {l : List (Option BaseType)},
    checkBaseTypes.go (some a) l = .ok x → ∀ o ∈ l, o = none ∨ o = some a
  | [], _, o, ho => by simp at ho
  | none :: l, h, o, ho => by
    simp only [checkBaseTypes.go] at h
    rcases List.mem_cons.1 ho with rfl | ho
    · exact Or.inl rfl
    · exact goBase_ok h o ho
  | some b :: l, h, o, ho => by
    simp only [checkBaseTypes.go] at h
    split at h
    · rename_i he
      rcases List.mem_cons.1 ho with rfl | ho
      · exact Or.inr (by rw [he])
      · exact goBase_ok h o ho
    · cases h

theorem goCard_ok {a : Card} {x : Option Card} : ∀ {l : List (Option Card)},
    checkCards.go (some a) l = .ok x → ∀ o ∈ l, o = none ∨ o = some a
  | [], _, o, ho => by simp at ho
  | none :: l, h, o, ho => by
    simp only [checkCards.go] at h
    rcases List.mem_cons.1 ho with rfl | ho
    · exact Or.inl rfl
    · exact goCard_ok h o ho
  | some b :: l, h, o, ho => by
    simp only [checkCards.go] at h
    split at h
    · rename_i he
      rcases List.mem_cons.1 ho with rfl | ho
      · exact Or.inr (by rw [he])
      · exact goCard_ok h o ho
    · cases h

/-- An operand of a logical operator. -/
def Boolish (v : Val) : Prop := v.isSet = false ∨ ∃ b, v = boolVal (some b)

theorem boolish_of {v : Val} (hw : v.wf) (hc : v.card = none ∨ v.card = some .single)
    (hb : v.bt = none ∨ v.bt = some .boolean) : Boolish v := by
  cases v with
  | null => exact Or.inl rfl
  | container t => exact Or.inl rfl
  | ordered t l => simp [Val.card] at hc
  | multiple t l => simp [Val.card] at hc
  | record l => simp [Val.card] at hc
  | single t o =>
    cases o with
    | none => exact Or.inl rfl
    | some d =>
      obtain ⟨bt, rfl, hd⟩ := hw d rfl
      simp only [Val.bt, reduceCtorEq, Option.some.injEq, false_or] at hb
      subst hb
      cases d <;> simp only [Datum.ok] at hd
      exact Or.inr ⟨_, rfl⟩

theorem checkBools_ok {vs : List Val} (hw : ∀ v ∈ vs, v.wf) (h : checkBools vs = .ok ()) :
    ∀ v ∈ vs, Boolish v := by
  simp only [checkBools, bind_ok] at h
  obtain ⟨x, hx, y, hy, _⟩ := h
  intro v hv
  refine boolish_of (hw v hv) ?_ ?_
  · exact goCard_ok (l := vs.map Val.card) hx _ (List.mem_map_of_mem hv)
  · exact goBase_ok (l := vs.map Val.bt) hy _ (List.mem_map_of_mem hv)

theorem boolVal_inj {a b : Option Bool} : boolVal a = boolVal b ↔ a = b := by
  constructor
  · intro h
    cases a <;> cases b <;> simp [boolVal] at h ⊢
    exact h
  · rintro rfl; rfl

theorem boolVal_set {b : Bool} : (boolVal (some b)).isSet = true := rfl

theorem exists_choice : ∀ (vs : List Val), (∀ v ∈ vs, Boolish v) → ∃ bs, Choice vs bs
  | [], _ => ⟨[], .nil⟩
  | v :: vs, h => by
    obtain ⟨bs, hbs⟩ := exists_choice vs fun v hv => h v (by simp [hv])
    rcases h v (by simp) with hv | ⟨b, hb⟩
    · exact ⟨true :: bs, .cons (Or.inl hv) hbs⟩
    · exact ⟨b :: bs, .cons (Or.inr hb) hbs⟩

theorem andLoop_null {vs : List Val} (h : ∀ v ∈ vs, Boolish v) :
    andLoop vs none = if boolVal (some false) ∈ vs then some false else none := by
  induction vs with
  | nil => simp [andLoop]
  | cons v vs ih =>
    have ih := ih fun v hv => h v (by simp [hv])
    rcases h v (by simp) with hv | ⟨b, rfl⟩
    · have hne : boolVal (some false) ≠ v := by rintro rfl; simp [boolVal_set] at hv
      simp only [andLoop]
      split
      · simp [Val.isSet] at hv
      · simp [hv, ih, hne]
    · cases b with
      | false => simp [andLoop, boolVal]
      | true =>
        have hne : boolVal (some false) ≠ boolVal (some true) := by decide
        simp only [List.mem_cons, hne, false_or]
        rw [← ih]; rfl

theorem andLoop_true {vs : List Val} (h : ∀ v ∈ vs, Boolish v) :
    andLoop vs (some true) = if boolVal (some false) ∈ vs then some false
      else if ∃ v ∈ vs, v.isSet = false then none else some true := by
  induction vs with
  | nil => simp [andLoop]
  | cons v vs ih =>
    have h' : ∀ v ∈ vs, Boolish v := fun v hv => h v (by simp [hv])
    have ih := ih h'
    rcases h v (by simp) with hv | ⟨b, rfl⟩
    · have hne : boolVal (some false) ≠ v := by rintro rfl; simp [boolVal_set] at hv
      simp only [andLoop]
      split
      · simp [Val.isSet] at hv
      · simp [hv, andLoop_null h', hne]
    · cases b with
      | false => simp [andLoop, boolVal]
      | true =>
        have hne : boolVal (some false) ≠ boolVal (some true) := by decide
        simp only [List.mem_cons, hne, false_or, exists_eq_or_imp, boolVal_set]
        simp only [reduceCtorEq, false_or]
        rw [← ih]; rfl

theorem orLoop_null {vs : List Val} (h : ∀ v ∈ vs, Boolish v) :
    orLoop vs none = if boolVal (some true) ∈ vs then some true else none := by
  induction vs with
  | nil => simp [orLoop]
  | cons v vs ih =>
    have ih := ih fun v hv => h v (by simp [hv])
    rcases h v (by simp) with hv | ⟨b, rfl⟩
    · have hne : boolVal (some true) ≠ v := by rintro rfl; simp [boolVal_set] at hv
      simp only [orLoop]
      split
      · simp [Val.isSet] at hv
      · simp [hv, ih, hne]
    · cases b with
      | true => simp [orLoop, boolVal]
      | false =>
        have hne : boolVal (some true) ≠ boolVal (some false) := by decide
        simp only [List.mem_cons, hne, false_or]
        rw [← ih]; rfl

theorem orLoop_false {vs : List Val} (h : ∀ v ∈ vs, Boolish v) :
    orLoop vs (some false) = if boolVal (some true) ∈ vs then some true
      else if ∃ v ∈ vs, v.isSet = false then none else some false := by
  induction vs with
  | nil => simp [orLoop]
  | cons v vs ih =>
    have h' : ∀ v ∈ vs, Boolish v := fun v hv => h v (by simp [hv])
    have ih := ih h'
    rcases h v (by simp) with hv | ⟨b, rfl⟩
    · have hne : boolVal (some true) ≠ v := by rintro rfl; simp [boolVal_set] at hv
      simp only [orLoop]
      split
      · simp [Val.isSet] at hv
      · simp [hv, orLoop_null h', hne]
    · cases b with
      | true => simp [orLoop, boolVal]
      | false =>
        have hne : boolVal (some true) ≠ boolVal (some false) := by decide
        simp only [List.mem_cons, hne, false_or, exists_eq_or_imp, boolVal_set]
        simp only [reduceCtorEq, false_or]
        rw [← ih]; rfl

/-- The numbers of true operands and of NULL operands. -/
def nTrue (vs : List Val) : Nat := vs.countP fun v => decide (v = boolVal (some true))
def nNull (vs : List Val) : Nat := vs.countP fun v => !v.isSet

theorem choice_count {vs : List Val} {bs : List Bool} (h : Choice vs bs) :
    nTrue vs ≤ bs.count true ∧ bs.count true ≤ nTrue vs + nNull vs := by
  induction h with
  | nil => simp [nTrue, nNull]
  | @cons v b vs bs hv _ ih =>
    simp only [nTrue, nNull, List.countP_cons, List.count_cons] at *
    rcases hv with hv | rfl
    · have : v ≠ boolVal (some true) := by rintro rfl; simp [boolVal_set] at hv
      cases b <;> simp [hv, this] <;> omega
    · cases b <;> simp [boolVal_set, boolVal_inj] <;> omega

/-- Every number of true operands between the two extremes is possible. -/
theorem choice_exists : ∀ {vs : List Val}, (∀ v ∈ vs, Boolish v) → ∀ k, nTrue vs ≤ k →
    k ≤ nTrue vs + nNull vs → ∃ bs, Choice vs bs ∧ bs.count true = k
  | [], _, k, h1, h2 => by
    simp [nTrue, nNull] at h2; subst h2; exact ⟨[], .nil, rfl⟩
  | v :: vs, h, k, h1, h2 => by
    have h' : ∀ v ∈ vs, Boolish v := fun v hv => h v (by simp [hv])
    simp only [nTrue, nNull, List.countP_cons] at h1 h2
    rcases h v (by simp) with hv | ⟨b, rfl⟩
    · have hne : v ≠ boolVal (some true) := by rintro rfl; simp [boolVal_set] at hv
      simp only [hv, hne, decide_false, Bool.false_eq_true, if_false, Bool.not_false, if_true] at h1 h2
      by_cases hk : k ≤ nTrue vs + nNull vs
      · obtain ⟨bs, hc, hn⟩ := choice_exists h' k h1 hk
        exact ⟨false :: bs, .cons (Or.inl hv) hc, by simpa using hn⟩
      · obtain ⟨bs, hc, hn⟩ := choice_exists h' (nTrue vs + nNull vs) (by omega) (by omega)
        refine ⟨true :: bs, .cons (Or.inl hv) hc, ?_⟩
        simp only [nTrue, nNull] at hn hk
        simp [hn]; omega
    · cases b with
      | true =>
        simp only [decide_true, if_true, boolVal_set, Bool.not_true, Bool.false_eq_true, if_false] at h1 h2
        obtain ⟨bs, hc, hn⟩ := choice_exists h' (k - 1) (by simp only [nTrue]; omega)
          (by simp only [nTrue, nNull]; omega)
        refine ⟨true :: bs, .cons (Or.inr rfl) hc, ?_⟩
        simp [hn]; omega
      | false =>
        have hne : boolVal (some false) ≠ boolVal (some true) := by decide
        simp only [hne, decide_false, boolVal_set, Bool.not_true, Bool.false_eq_true, if_false] at h1 h2
        obtain ⟨bs, hc, hn⟩ := choice_exists h' k (by simp only [nTrue]; omega)
          (by simp only [nTrue, nNull]; omega)
        refine ⟨false :: bs, .cons (Or.inr rfl) hc, ?_⟩
        simpa using hn

theorem known_of {f : List Bool → Bool} {vs : List Val} {r : Option Bool}
    (hv : ∀ v ∈ vs, Boolish v)
    (h1 : ∀ b, r = some b → ∀ bs, Choice vs bs → f bs = b)
    (h2 : r = none → ∃ bs bs', Choice vs bs ∧ Choice vs bs' ∧ f bs = true ∧ f bs' = false) :
    Known f vs (boolVal r) := by
  refine ⟨⟨r, rfl⟩, ?_⟩
  intro b
  rw [boolVal_inj]
  constructor
  · exact h1 b
  · intro h
    cases r with
    | none =>
      obtain ⟨bs, bs', hc, hc', ht, hf⟩ := h2 rfl
      have := h bs hc
      have := h bs' hc'
      simp_all
    | some c =>
      obtain ⟨bs, hc⟩ := exists_choice vs hv
      rw [← h1 c rfl bs hc, h bs hc]

theorem nTrue_le (vs : List Val) (hv : ∀ v ∈ vs, Boolish v) (hf : boolVal (some false) ∉ vs) :
    nTrue vs + nNull vs = vs.length := by
  induction vs with
  | nil => rfl
  | cons v vs ih =>
    have ih := ih (fun v h => hv v (by simp [h])) (fun h => hf (by simp [h]))
    simp only [nTrue, nNull, List.countP_cons, List.length_cons] at *
    rcases hv v (by simp) with h | ⟨b, rfl⟩
    · have hne : v ≠ boolVal (some true) := by rintro rfl; simp [boolVal_set] at h
      simp [h, hne]; omega
    · cases b with
      | false => simp at hf
      | true => simp [boolVal_set]; omega

theorem all_iff_count (bs : List Bool) : bs.all id = true ↔ bs.count true = bs.length := by
  rw [List.count_eq_length]
  simp

theorem any_iff_count (bs : List Bool) : bs.any id = true ↔ 0 < bs.count true := by
  rw [List.count_pos_iff]
  simp

theorem choice_length {vs : List Val} {bs : List Bool} (h : Choice vs bs) :
    bs.length = vs.length := h.length_eq.symm

theorem choice_mem_false {vs : List Val} {bs : List Bool} (h : Choice vs bs)
    (hm : boolVal (some false) ∈ vs) : false ∈ bs := by
  induction h with
  | nil => simp at hm
  | @cons v b vs bs hv _ ih =>
    rcases List.mem_cons.1 hm with rfl | hm
    · rcases hv with hv | hv
      · simp [boolVal_set] at hv
      · rw [boolVal_inj] at hv; cases hv; simp
    · simp [ih hm]

theorem nNull_pos {vs : List Val} (h : ∃ v ∈ vs, v.isSet = false) : 0 < nNull vs := by
  rw [nNull, List.countP_pos_iff]
  obtain ⟨v, hv, h⟩ := h
  exact ⟨v, hv, by simp [h]⟩

theorem nNull_zero {vs : List Val} (h : ¬ ∃ v ∈ vs, v.isSet = false) : nNull vs = 0 := by
  rw [nNull, List.countP_eq_zero]
  intro v hv hn
  exact h ⟨v, hv, by simpa using hn⟩

/-- C92, `and`: the result is false (true) exactly when "all operands are true" is false (true)
for every choice of the unknown operands, NULL otherwise. -/
theorem C92_and (st : State) (vs : List Val) (w : Val) (hw : ∀ v ∈ vs, v.wf)
    (h : opN st .and vs = .ok w) : Known (fun bs => bs.all id) vs w := by
  simp only [opN, bind_ok, pure_ok] at h
  obtain ⟨_, hc, rfl⟩ := h
  have hb := checkBools_ok hw hc
  rw [andLoop_true hb]
  apply known_of hb
  · intro b hr bs hbs
    split at hr
    · rename_i hf
      cases hr
      have := choice_mem_false hbs hf
      simp [List.all_eq_false]
      exact this
    · rename_i hf
      split at hr
      · cases hr
      · rename_i hn
        cases hr
        rw [all_iff_count]
        have h1 := choice_count hbs
        have h2 := nTrue_le vs hb hf
        have h3 := nNull_zero hn
        have h4 := choice_length hbs
        omega
  · intro hr
    split at hr
    · cases hr
    · rename_i hf
      split at hr
      · rename_i hn
        have h2 := nTrue_le vs hb hf
        have h3 := nNull_pos hn
        obtain ⟨bs, hc1, hn1⟩ := choice_exists hb (nTrue vs + nNull vs) (by omega) (by omega)
        obtain ⟨bs', hc2, hn2⟩ := choice_exists hb (nTrue vs) (by omega) (by omega)
        refine ⟨bs, bs', hc1, hc2, ?_, ?_⟩
        · rw [all_iff_count, hn1, h2, choice_length hc1]
        · rw [Bool.eq_false_iff, Ne, all_iff_count, hn2, choice_length hc2]
          omega
      · cases hr

theorem nTrue_pos {vs : List Val} (h : boolVal (some true) ∈ vs) : 0 < nTrue vs := by
  rw [nTrue, List.countP_pos_iff]
  exact ⟨_, h, by simp⟩

theorem nTrue_zero {vs : List Val} (h : boolVal (some true) ∉ vs) : nTrue vs = 0 := by
  rw [nTrue, List.countP_eq_zero]
  intro v hv hn
  simp at hn
  subst hn
  exact h hv

/-- C92, `or`. -/
theorem C92_or (st : State) (vs : List Val) (w : Val) (hw : ∀ v ∈ vs, v.wf)
    (h : opN st .or vs = .ok w) : Known (fun bs => bs.any id) vs w := by
  simp only [opN, bind_ok, pure_ok] at h
  obtain ⟨_, hc, rfl⟩ := h
  have hb := checkBools_ok hw hc
  rw [orLoop_false hb]
  apply known_of hb
  · intro b hr bs hbs
    have h1 := choice_count hbs
    split at hr
    · rename_i hf
      cases hr
      rw [any_iff_count]
      have := nTrue_pos hf
      omega
    · rename_i hf
      split at hr
      · cases hr
      · rename_i hn
        cases hr
        rw [Bool.eq_false_iff, Ne, any_iff_count]
        have h2 := nTrue_zero hf
        have h3 := nNull_zero hn
        omega
  · intro hr
    split at hr
    · cases hr
    · rename_i hf
      split at hr
      · rename_i hn
        have h2 := nTrue_zero hf
        have h3 := nNull_pos hn
        obtain ⟨bs, hc1, hn1⟩ := choice_exists hb (nTrue vs + nNull vs) (by omega) (by omega)
        obtain ⟨bs', hc2, hn2⟩ := choice_exists hb (nTrue vs) (by omega) (by omega)
        refine ⟨bs, bs', hc1, hc2, ?_, ?_⟩
        · rw [any_iff_count]; omega
        · rw [Bool.eq_false_iff, Ne, any_iff_count]; omega
      · cases hr

/-- C92, `not`. -/
theorem C92_not (v w : Val) (hv : v.wf) (h : op1 .not v = .ok w) :
    Known (fun bs => bs.all (!·)) [v] w := by
  simp only [op1, bind_ok] at h
  obtain ⟨_, hb, _, hc, h⟩ := h
  have hB : Boolish v := by
    refine boolish_of hv ?_ ?_
    · cases hvc : v.card with
      | none => exact Or.inl rfl
      | some c =>
        right
        rw [hvc] at hc
        simp only [checkCards, checkCards.go] at hc
        split at hc
        · rename_i he; rw [he]
        · cases hc
    · exact checkBool_ok hb
  have hB' : ∀ x ∈ [v], Boolish x := by simpa using hB
  rcases hB with hn | ⟨b, rfl⟩
  · have : w = boolVal none := by
      split at h
      · simp [Val.isSet] at hn
      · simp [Val.isSet] at hn
      · exact (pure_ok.1 h).symm
    subst this
    apply known_of hB' (by intro b hb; cases hb)
    intro _
    exact ⟨[false], [true], .cons (Or.inl hn) .nil, .cons (Or.inl hn) .nil, rfl, rfl⟩
  · have : w = boolVal (some !b) := (pure_ok.1 h).symm
    subst this
    apply known_of hB'
    · intro c hc bs hbs
      cases hc
      cases hbs with
      | cons h1 h2 =>
        cases h2
        rcases h1 with h1 | h1
        · simp [boolVal_set] at h1
        · rw [boolVal_inj] at h1; cases h1; simp
    · intro hc; cases hc

/-- `min` to `max` of the operands are true. -/
def between (mn mx : Int) (bs : List Bool) : Bool :=
  decide (mn ≤ bs.count true) && decide ((bs.count true : Int) ≤ mx)

/-- C92, `anyN`, when `min` does not exceed `max`. -/
theorem C92_anyN_partial (st : State) (mn mx : Int) (hle : mn ≤ mx) (vs : List Val) (w : Val)
    (hw : ∀ v ∈ vs, v.wf) (h : opN st (.anyN (.lit mn) (.lit mx)) vs = .ok w) :
    Known (between mn mx) vs w := by
  simp only [opN, deref, bind_ok, pure_ok, Except.ok.injEq] at h
  obtain ⟨_, rfl, _, rfl, _, hc, rfl⟩ := h
  have hb := checkBools_ok hw hc
  have e1 : countTrue vs = nTrue vs := rfl
  have e2 : countNull vs = nNull vs := rfl
  rw [e1, e2]
  apply known_of hb
  · intro b hr bs hbs
    have h1 := choice_count hbs
    simp only [anyNResult] at hr
    simp only [between]
    split at hr
    · split at hr
      · cases hr; simp; omega
      · split at hr
        · cases hr
        · cases hr; simp; omega
    · split at hr
      · cases hr
      · cases hr; simp; omega
  · intro hr
    simp only [anyNResult] at hr
    obtain ⟨bs, hc1, hn1⟩ := choice_exists hb (nTrue vs + nNull vs) (by omega) (by omega)
    obtain ⟨bs', hc2, hn2⟩ := choice_exists hb (nTrue vs) (by omega) (by omega)
    split at hr
    · split at hr
      · cases hr
      · split at hr
        · refine ⟨bs', bs, hc2, hc1, ?_, ?_⟩ <;> simp [between] <;> omega
        · cases hr
    · split at hr
      · obtain ⟨bs'', hc3, hn3⟩ := choice_exists hb mn.toNat (by omega) (by omega)
        refine ⟨bs'', bs', hc3, hc2, ?_, ?_⟩ <;> simp [between] <;> omega
      · cases hr

/-- C92, violation: with `min` above `max` no choice satisfies `anyN`, and yet the result may be
NULL in place of false. -/
theorem C92_violation_anyN (st : State) :
    opN st (.anyN (.lit 1) (.lit 0)) [.null] = .ok (boolVal none) ∧
      ∀ bs, Choice [.null] bs → between 1 0 bs = false := by
  refine ⟨rfl, ?_⟩
  intro bs h
  simp [between]
  omega

/-- C92, evaluation: the operands of a logical operator inside an expression are well-formed, so
the theorems above apply to every evaluation. -/
theorem C92_operands (st : State) (hs : st.wf) : ∀ (es : List Expr) (vs : List Val),
    Expr.litsAll es → evalList st es = .ok vs → ∀ v ∈ vs, v.wf
  | [], vs, _, h, v, hv => by simp only [evalList] at h; cases h; simp at hv
  | e :: es, vs, hl, h, v, hv => by
    simp only [evalList, bind_ok, pure_ok] at h
    obtain ⟨w, hw, ws, hws, rfl⟩ := h
    rcases List.mem_cons.1 hv with rfl | hv
    · exact (eval_wf hs e _ hl.1 hw).1
    · exact C92_operands st hs es ws hl.2 hws v hv

/-! ### Concrete cases -/

example (st : State) : opN st .and [boolVal (some true), .null] = .ok (boolVal none) := rfl
example (st : State) : opN st .and [.null, boolVal (some false)] = .ok (boolVal (some false)) := rfl
example (st : State) : opN st .or [.single none none, boolVal (some true)] =
    .ok (boolVal (some true)) := rfl
example (st : State) : opN st (.anyN (.lit 1) (.lit 2)) [boolVal (some true), .null, .null] =
    .ok (boolVal none) := rfl
example (st : State) : opN st (.anyN (.lit 1) (.lit 2)) [boolVal (some true), .null] =
    .ok (boolVal (some true)) := rfl

end Verif.Qti

import Verif.Qti.Expr
/-
C91: evaluating an expression gives a well-formed value of the kind the operator promises.
-/
namespace Verif.Qti

/-! ## Specification -/

/-- A Python value that a single value of base type `t` may hold when it is not NULL: integers
and coordinates of 32 bits, the two names of a `pair` in order, strings that are not empty. -/
def Datum.ok : BaseType → Datum → Prop
  | .boolean, .bool _ => True
  | .directedPair, .pair _ _ => True
  | .duration, .num _ => True
  | .float, .num _ => True
  | .identifier, .str _ => True
  | .integer, .int i => -2147483648 ≤ i ∧ i ≤ 2147483647
  | .pair, .pair a b => strGt a b = false
  | .point, .point x y =>
      (-2147483648 ≤ x ∧ x ≤ 2147483647) ∧ -2147483648 ≤ y ∧ y ≤ 2147483647
  | .string, .str s => s ≠ []
  | .uri, .str _ => True
  | _, _ => False

/-- A well-formed value.  Containers that are not NULL are not empty and hold only values of
their base type; a multiple container lists each value once, with a positive count. -/
def Val.wf : Val → Prop
  | .null => True
  | .single t v => ∀ d, v = some d → ∃ bt, t = some bt ∧ d.ok bt
  | .ordered t v => ∀ l, v = some l → l ≠ [] ∧ ∃ bt, t = some bt ∧ ∀ d ∈ l, d.ok bt
  | .multiple t v => ∀ m, v = some m → m ≠ [] ∧ (m.map (·.1)).Nodup ∧
      ∃ bt, t = some bt ∧ ∀ p ∈ m, p.1.ok bt ∧ 0 < p.2
  | .record v => ∀ r, v = some r → r ≠ [] ∧ (r.map (·.1)).Nodup ∧ ∀ p ∈ r, p.2.2.ok p.2.1
  | .container _ => True

/-- Every value of the state is well-formed. -/
def State.wf (st : State) : Prop := ∀ n v, dget n st.map = some v → v.wf

/-- Every literal of the expression is well-formed (a text such as "99999999999" is accepted as
an integer, so this is not automatic). -/
def Leaf.lits : Leaf → Prop
  | .baseValue t (some d) => d.ok t
  | _ => True

mutual
def Expr.lits : Expr → Prop
  | .leaf l => l.lits
  | .un _ e => e.lits
  | .nary _ es => Expr.litsAll es
def Expr.litsAll : List Expr → Prop
  | [] => True
  | e :: es => e.lits ∧ Expr.litsAll es
end

/-- The cardinality and base type that the operator promises for its result, when these do not
depend on the operands. -/
def Expr.promise : Expr → Option (Card × BaseType)
  | .leaf (.baseValue t _) => some (.single, t)
  | .leaf (.mapResponse _) => some (.single, .float)
  | .leaf (.mapResponsePoint _) => some (.single, .float)
  | .leaf (.randomInteger _ _ _ _) => some (.single, .integer)
  | .leaf (.randomFloat _ _ _) => some (.single, .float)
  | .un .containerSize _ => some (.single, .integer)
  | .un .isNull _ => some (.single, .boolean)
  | .un .not _ => some (.single, .boolean)
  | .un (.inside _) _ => some (.single, .boolean)
  | .un .truncate _ => some (.single, .integer)
  | .un .round _ => some (.single, .integer)
  | .un .integerToFloat _ => some (.single, .float)
  | .nary .member _ => some (.single, .boolean)
  | .nary .contains _ => some (.single, .boolean)
  | .nary (.substring _) _ => some (.single, .boolean)
  | .nary .and _ => some (.single, .boolean)
  | .nary .or _ => some (.single, .boolean)
  | .nary (.anyN _ _) _ => some (.single, .boolean)
  | .nary .matches _ => some (.single, .boolean)
  | .nary (.stringMatch _ _) _ => some (.single, .boolean)
  | .nary (.equal _ _ _ _) _ => some (.single, .boolean)
  | .nary (.cmp _) _ => some (.single, .boolean)
  | .nary .durationLT _ => some (.single, .boolean)
  | .nary .durationGTE _ => some (.single, .boolean)
  | .nary .divide _ => some (.single, .float)
  | .nary .integerDivide _ => some (.single, .integer)
  | .nary .integerModulus _ => some (.single, .integer)
  | _ => none

/-! ## Lemmas -/

theorem bind_ok {α β : Type} {x : R α} {f : α → R β} {b : β} :
    (x >>= f) = .ok b ↔ ∃ a, x = .ok a ∧ f a = .ok b := by
  cases x with
  | error e =>
    constructor
    · intro h; cases h
    · rintro ⟨a, h, _⟩; cases h
  | ok a => exact ⟨fun h => ⟨a, rfl, h⟩, fun ⟨a', h, h'⟩ => by cases h; exact h'⟩

theorem pure_ok {α : Type} {a b : α} : (pure a : R α) = .ok b ↔ a = b := by
  constructor
  · intro h; cases h; rfl
  · rintro rfl; rfl

theorem key_ok {α : Type} {x : R α} {a : α} : keyToProcessing x = .ok a ↔ x = .ok a := by
  cases x with
  | error e => cases e <;> simp [keyToProcessing]
  | ok b => simp [keyToProcessing]

theorem inRange_iff {i : Int} : inRange i = true ↔ -2147483648 ≤ i ∧ i ≤ 2147483647 := by
  simp [inRange]

theorem strGt_asymm : ∀ {a b : Str}, strGt a b = true → strGt b a = false
  | [], b, h => by simp [strGt] at h
  | _ :: _, [], _ => by simp [strGt]
  | a :: s, b :: t, h => by
    simp only [strGt] at h ⊢
    split at h
    · rename_i he; rw [if_pos he.symm]; exact strGt_asymm h
    · rename_i he; rw [if_neg (fun h' => he h'.symm)]; simp at h ⊢; omega

theorem coerce_ok {t : BaseType} {d d' : Datum} (h : coerce t d = .ok (some d')) : d'.ok t := by
  cases t <;> cases d <;> simp only [coerce] at h <;>
    first
      | (cases h; trivial)
      | (cases h; done)
      | skip
  · split at h
    · cases h; rename_i hr; exact inRange_iff.1 hr
    · cases h
  · cases h
    split
    · rename_i hg; exact strGt_asymm hg
    · rename_i hg; simpa [Datum.ok] using hg
  · split at h
    · cases h; rename_i hr; simp only [Bool.and_eq_true] at hr
      exact ⟨inRange_iff.1 hr.1, inRange_iff.1 hr.2⟩
    · cases h
  · split at h
    · cases h
    · cases h; assumption

theorem coerce_id {t : BaseType} {d : Datum} (h : d.ok t) : coerce t d = .ok (some d) := by
  cases t <;> cases d <;> simp only [Datum.ok] at h <;> simp only [coerce]
  · rw [if_pos (inRange_iff.2 h)]
  · rw [h]; rfl
  · rw [if_pos]; simp only [Bool.and_eq_true]; exact ⟨inRange_iff.2 h.1, inRange_iff.2 h.2⟩
  · rw [if_neg h]

theorem coerceAll_ok {t : Option BaseType} : ∀ {l r : List Datum}, coerceAll t l = .ok r →
    r = [] ∨ ∃ bt, t = some bt ∧ ∀ d ∈ r, d.ok bt
  | [], r, h => by simp only [coerceAll] at h; cases h; exact Or.inl rfl
  | d :: l, r, h => by
    simp only [coerceAll] at h
    cases t with
    | none => cases h
    | some bt =>
      simp only [bind_ok] at h
      obtain ⟨o, ho, h⟩ := h
      cases o with
      | none => cases h
      | some d' =>
        simp only [bind_ok, pure_ok] at h
        obtain ⟨r', hr', rfl⟩ := h
        right
        refine ⟨bt, rfl, ?_⟩
        have hd := coerce_ok ho
        rcases coerceAll_ok hr' with rfl | ⟨bt', hb, hall⟩
        · simpa using hd
        · cases hb
          simpa using ⟨hd, hall⟩

theorem coerceAll_id {bt : BaseType} : ∀ {l : List Datum}, (∀ d ∈ l, d.ok bt) →
    coerceAll (some bt) l = .ok l
  | [], _ => rfl
  | d :: l, h => by
    simp only [coerceAll, coerce_id (h d (by simp))]
    have := coerceAll_id (l := l) fun d hd => h d (by simp [hd])
    rw [this]; rfl

theorem dget_eq_none {α β : Type} [DecidableEq α] {k : α} : ∀ {m : List (α × β)},
    dget k m = none ↔ k ∉ m.map (·.1)
  | [] => by simp [dget]
  | (a, b) :: l => by
    simp only [dget]
    split
    · rename_i h; simp [h]
    · rename_i h
      rw [dget_eq_none]; simp [Ne.symm h]

theorem dget_mem {α β : Type} [DecidableEq α] {k : α} {b : β} : ∀ {m : List (α × β)},
    dget k m = some b → (k, b) ∈ m
  | [], h => by simp [dget] at h
  | (a, c) :: l, h => by
    simp only [dget] at h
    split at h
    · rename_i he; cases h; rw [he]; simp
    · exact List.mem_cons_of_mem _ (dget_mem h)

theorem dget_of_mem {α β : Type} [DecidableEq α] {k : α} {b : β} : ∀ {m : List (α × β)},
    (m.map (·.1)).Nodup → (k, b) ∈ m → dget k m = some b
  | [], _, h => by simp at h
  | (a, c) :: l, hn, h => by
    simp only [List.map_cons, List.nodup_cons] at hn
    simp only [dget]
    rcases List.mem_cons.1 h with h | h
    · cases h; simp
    · split
      · rename_i he
        subst he
        exact absurd (List.mem_map_of_mem (f := (·.1)) h) hn.1
      · exact dget_of_mem hn.2 h

theorem dget_dset {α β : Type} [DecidableEq α] (k : α) (v : β) (j : α) : ∀ (m : List (α × β)),
    dget j (dset k v m) = if k = j then some v else dget j m
  | [] => by simp [dset, dget]
  | (a, b) :: l => by
    simp only [dset]
    split
    · rename_i h; subst h
      simp only [dget]
      split <;> rfl
    · rename_i h
      simp only [dget, dget_dset k v j l]
      by_cases haj : a = j
      · subst haj
        have : ¬ k = a := fun e => h e.symm
        simp [this]
      · simp [haj]

theorem dset_keys {α β : Type} [DecidableEq α] (k : α) (v : β) : ∀ (m : List (α × β)),
    (dset k v m).map (·.1) = if k ∈ m.map (·.1) then m.map (·.1) else m.map (·.1) ++ [k]
  | [] => by simp [dset]
  | (a, b) :: l => by
    simp only [dset]
    split
    · rename_i h; simp [h]
    · rename_i h
      simp only [List.map_cons, dset_keys k v l]
      by_cases hk : k ∈ l.map (·.1)
      · simp [hk]
      · simp only [hk, if_false]
        rw [if_neg]
        · rfl
        · simp only [List.mem_cons, not_or]; exact ⟨Ne.symm h, hk⟩

theorem dset_nodup {α β : Type} [DecidableEq α] (k : α) (v : β) (m : List (α × β))
    (h : (m.map (·.1)).Nodup) : ((dset k v m).map (·.1)).Nodup := by
  rw [dset_keys]
  split
  · exact h
  · rename_i hk
    rw [List.nodup_append]
    refine ⟨h, by simp, ?_⟩
    intro a ha b hb
    simp at hb
    subst hb
    rintro rfl
    exact hk ha

theorem dset_ne_nil {α β : Type} [DecidableEq α] (k : α) (v : β) : ∀ (m : List (α × β)),
    dset k v m ≠ []
  | [] => by simp [dset]
  | (a, b) :: l => by simp only [dset]; split <;> simp

theorem dset_mem {α β : Type} [DecidableEq α] {k : α} {v : β} {p : α × β} :
    ∀ {m : List (α × β)}, p ∈ dset k v m → p = (k, v) ∨ p ∈ m
  | [], h => by simp [dset] at h; exact Or.inl h
  | (a, b) :: l, h => by
    simp only [dset] at h
    split at h
    · rcases List.mem_cons.1 h with h | h
      · exact Or.inl h
      · exact Or.inr (List.mem_cons_of_mem _ h)
    · rcases List.mem_cons.1 h with h | h
      · exact Or.inr (by simp [h])
      · rcases dset_mem h with h | h
        · exact Or.inl h
        · exact Or.inr (List.mem_cons_of_mem _ h)

theorem countFold_wf : ∀ (l : List Datum) (m : List (Datum × Nat)) (P : Datum → Prop),
    (m.map (·.1)).Nodup → (∀ p ∈ m, P p.1 ∧ 0 < p.2) → (∀ d ∈ l, P d) →
    ((l.foldl (fun m d => bump d m) m).map (·.1)).Nodup ∧
      ∀ p ∈ l.foldl (fun m d => bump d m) m, P p.1 ∧ 0 < p.2
  | [], m, P, h1, h2, _ => ⟨h1, h2⟩
  | d :: l, m, P, h1, h2, h3 => by
    simp only [List.foldl_cons]
    apply countFold_wf l (bump d m) P
    · exact dset_nodup _ _ _ h1
    · intro p hp
      rcases dset_mem hp with rfl | hp
      · exact ⟨h3 d (by simp), by simp⟩
      · exact h2 p hp
    · intro d hd; exact h3 d (by simp [hd])

theorem countAll_wf {l : List Datum} {P : Datum → Prop} (h : ∀ d ∈ l, P d) :
    ((countAll l).map (·.1)).Nodup ∧ ∀ p ∈ countAll l, P p.1 ∧ 0 < p.2 :=
  countFold_wf l [] P (by simp) (by simp) h

theorem countFold_ne {l : List Datum} {m : List (Datum × Nat)} (h : m ≠ []) :
    l.foldl (fun m d => bump d m) m ≠ [] := by
  induction l generalizing m with
  | nil => exact h
  | cons d l ih => exact ih (dset_ne_nil _ _ _)

theorem countAll_nil {l : List Datum} : countAll l = [] ↔ l = [] := by
  cases l with
  | nil => simp [countAll]
  | cons d l =>
    simp only [reduceCtorEq, iff_false]
    exact countFold_ne (l := l) (m := bump d []) (dset_ne_nil _ _ _)

theorem boolVal_wf (b : Option Bool) : (boolVal b).wf := by
  intro d hd
  cases b with
  | none => simp at hd
  | some b => simp at hd; subst hd; exact ⟨_, rfl, trivial⟩

theorem floatVal_wf (b : Option Rat) : (floatVal b).wf := by
  intro d hd
  cases b with
  | none => simp at hd
  | some b => simp at hd; subst hd; exact ⟨_, rfl, trivial⟩

theorem singleNull_wf (t : Option BaseType) : (Val.single t none).wf := by
  intro d hd; cases hd

theorem intVal_ok {i : Int} {v : Val} (h : intVal i = .ok v) :
    v = .single (some .integer) (some (.int i)) ∧ -2147483648 ≤ i ∧ i ≤ 2147483647 := by
  simp only [intVal] at h
  split at h
  · cases h; rename_i hr; exact ⟨rfl, inRange_iff.1 hr⟩
  · cases h

theorem intVal_wf {i : Int} {v : Val} (h : intVal i = .ok v) : v.wf := by
  obtain ⟨rfl, hr⟩ := intVal_ok h
  intro d hd; cases hd
  exact ⟨_, rfl, hr⟩

theorem newSingle_wf {t : Option BaseType} {d : Option Datum} {v : Val}
    (h : newSingle t d = .ok v) : v.wf := by
  cases t with
  | none => simp only [newSingle] at h; cases h; exact singleNull_wf _
  | some t =>
    cases d with
    | none => simp only [newSingle] at h; cases h; exact singleNull_wf _
    | some d =>
      simp only [newSingle] at h
      cases hc : coerce t d with
      | error e => rw [hc] at h; cases h
      | ok o =>
        rw [hc] at h
        cases h
        intro d' hd
        subst hd
        exact ⟨t, rfl, coerce_ok hc⟩

theorem setOrdered_wf {t : Option BaseType} {l : List Datum} {v : Val}
    (h : setOrdered t l = .ok v) : v.wf := by
  simp only [setOrdered, bind_ok, pure_ok] at h
  obtain ⟨r, hr, rfl⟩ := h
  intro l' hl'
  split at hl'
  · cases hl'
  · rename_i hne
    cases hl'
    refine ⟨hne, ?_⟩
    rcases coerceAll_ok hr with rfl | h
    · exact absurd rfl hne
    · exact h

theorem setMultiple_wf {t : Option BaseType} {l : List Datum} {v : Val}
    (h : setMultiple t l = .ok v) : v.wf := by
  simp only [setMultiple, bind_ok, pure_ok] at h
  obtain ⟨r, hr, rfl⟩ := h
  intro l' hl'
  split at hl'
  · cases hl'
  · rename_i hne
    cases hl'
    rcases coerceAll_ok hr with rfl | ⟨bt, rfl, hall⟩
    · exact absurd (countAll_nil.2 rfl) hne
    · have := countAll_wf hall
      exact ⟨hne, this.1, bt, rfl, this.2⟩

theorem newContainer_wf {c : Option Card} {t : Option BaseType} {v : Val}
    (h : newContainer c t = .ok v) : v.wf := by
  cases c with
  | none => simp only [newContainer] at h; cases h; trivial
  | some c =>
    cases c <;> simp only [newContainer] at h <;> cases h <;> intro l hl <;> cases hl

theorem checkBool_ok {v : Val} {x : Option BaseType} {t : BaseType}
    (h : checkBaseTypes [v.bt, some t] = .ok x) : v.bt = none ∨ v.bt = some t := by
  cases hb : v.bt with
  | none => exact Or.inl rfl
  | some b =>
    rw [hb] at h
    simp only [checkBaseTypes, checkBaseTypes.go] at h
    split at h
    · rename_i he; exact Or.inr (by rw [he])
    · cases h

/-- The kind of result of the unary operators. -/
theorem op1_wf {op : Op1} {v w : Val} (hv : v.wf) (h : op1 op v = .ok w) : w.wf := by
  cases op with
  | containerSize =>
    cases v <;> simp only [op1] at h <;> first | exact intVal_wf h | cases h
  | isNull => simp only [op1] at h; cases h; exact boolVal_wf _
  | index n =>
    simp only [op1] at h
    split at h
    · exact newSingle_wf h
    · split at h
      · cases h
      · split at h
        · exact newSingle_wf h
        · exact newSingle_wf h
    · cases h
  | fieldValue f =>
    simp only [op1] at h
    split at h
    · rename_i r
      split at h
      · rename_i t d hd
        cases h
        intro d' hd'; cases hd'
        refine ⟨t, rfl, ?_⟩
        cases r with
        | none => simp [dget] at hd
        | some r => exact (hv r rfl).2.2 _ (dget_mem hd)
      · cases h; exact singleNull_wf _
    · cases h
  | random draw =>
    simp only [op1] at h
    split at h <;> first | exact newSingle_wf h | (cases h; first | exact singleNull_wf _ | done)
  | not =>
    simp only [op1, bind_ok] at h
    obtain ⟨_, _, _, _, h⟩ := h
    split at h <;> first | (rw [pure_ok] at h; subst h; exact boolVal_wf _) | cases h
  | inside s =>
    simp only [op1, bind_ok] at h
    obtain ⟨_, _, h⟩ := h
    split at h <;>
      first
      | (rw [pure_ok] at h; subst h; exact boolVal_wf _)
      | (simp only [bind_ok, pure_ok] at h; obtain ⟨_, _, rfl⟩ := h; exact boolVal_wf _)
      | cases h
  | truncate =>
    simp only [op1, bind_ok] at h
    obtain ⟨_, _, _, _, h⟩ := h
    split at h <;> first | exact intVal_wf h | (rw [pure_ok] at h; subst h; exact singleNull_wf _) | cases h
  | round =>
    simp only [op1, bind_ok] at h
    obtain ⟨_, _, _, _, h⟩ := h
    split at h <;> first | exact intVal_wf h | (rw [pure_ok] at h; subst h; exact singleNull_wf _) | cases h
  | integerToFloat =>
    simp only [op1, bind_ok] at h
    obtain ⟨_, _, _, _, h⟩ := h
    split at h <;> first | (rw [pure_ok] at h; subst h; exact floatVal_wf _) | cases h

theorem foldF_wf {f : Rat → Rat → Rat} : ∀ {vs : List Val} {acc : Rat} {v : Val},
    foldF f vs acc = .ok v → v.wf ∧ v.card = some .single ∧ v.bt = some .float
  | [], acc, v, h => by
    simp only [foldF] at h; cases h; exact ⟨floatVal_wf _, rfl, rfl⟩
  | w :: vs, acc, v, h => by
    simp only [foldF] at h
    split at h
    · split at h
      · exact foldF_wf h
      · cases h
    · cases h; exact ⟨floatVal_wf _, rfl, rfl⟩

theorem foldI_wf {f : Int → Int → Int} : ∀ {vs : List Val} {acc : Int} {v : Val},
    foldI f vs acc = .ok v → v.wf ∧ v.card = some .single ∧ v.bt = some .integer
  | [], acc, v, h => by
    simp only [foldI] at h
    refine ⟨intVal_wf h, ?_⟩
    obtain ⟨rfl, _⟩ := intVal_ok h
    exact ⟨rfl, rfl⟩
  | w :: vs, acc, v, h => by
    simp only [foldI] at h
    split at h
    · split at h
      · exact foldI_wf h
      · cases h
    · cases h; exact ⟨singleNull_wf _, rfl, rfl⟩

theorem foldOp_wf {f : Rat → Rat → Rat} {g : Int → Int → Int} {u : Int} {vs : List Val} {v : Val}
    (h : foldOp f g u vs = .ok v) : v.wf ∧ v.card = some .single := by
  simp only [foldOp] at h
  split at h
  · cases h
  · simp only [bind_ok] at h
    obtain ⟨_, _, t, _, h⟩ := h
    cases t with
    | none => rw [pure_ok] at h; subst h; exact ⟨singleNull_wf _, rfl⟩
    | some t =>
      dsimp only at h
      split at h
      · exact ⟨(foldF_wf h).1, (foldF_wf h).2.1⟩
      · exact ⟨(foldI_wf h).1, (foldI_wf h).2.1⟩

theorem memberOp_ok {s c v : Val} (h : memberOp s c = .ok v) : ∃ b, v = boolVal b := by
  simp only [memberOp] at h
  repeat' split at h
  all_goals first | (cases h; exact ⟨_, rfl⟩) | cases h

theorem containsOp_ok {s c v : Val} (h : containsOp s c = .ok v) : ∃ b, v = boolVal b := by
  simp only [containsOp, bind_ok] at h
  obtain ⟨_, _, _, _, h⟩ := h
  repeat' split at h
  all_goals first | (rw [pure_ok] at h; exact ⟨_, h.symm⟩) | cases h

theorem textOp_ok {st : State} {cs : Bool} {t : Str → Str → Bool} {s c v : Val}
    (h : textOp st cs t s c = .ok v) : ∃ b, v = boolVal b := by
  simp only [textOp, bind_ok] at h
  obtain ⟨_, _, _, _, h⟩ := h
  repeat' split at h
  all_goals first | (rw [pure_ok] at h; exact ⟨_, h.symm⟩) | cases h

theorem equalNums_ok {mode : Tol} {tol : List (Ref Rat)} {lo up : Bool} {a b : Rat} {v : Val}
    (h : equalNums mode tol lo up a b = .ok v) : ∃ b, v = boolVal b := by
  simp only [equalNums] at h
  split at h
  · cases h; exact ⟨_, rfl⟩
  · split at h
    · cases h
    · rw [bind_ok] at h
      obtain ⟨_, _, h⟩ := h
      split at h <;>
        (rw [bind_ok] at h; obtain ⟨_, _, h⟩ := h; rw [pure_ok] at h; exact ⟨_, h.symm⟩)

theorem deleteOp_wf {s c v : Val} (h : deleteOp s c = .ok v) : v.wf := by
  simp only [deleteOp] at h
  repeat' split at h
  all_goals first
    | exact newContainer_wf h
    | exact setOrdered_wf h
    | exact setMultiple_wf h
    | cases h

theorem subtractOp_wf {s c v : Val} (h : subtractOp s c = .ok v) :
    v.wf ∧ v.card = some .single := by
  simp only [subtractOp, bind_ok] at h
  obtain ⟨_, _, _, _, h⟩ := h
  repeat' split at h
  all_goals first
    | (rw [pure_ok] at h; subst h; first | exact ⟨singleNull_wf _, rfl⟩ | exact ⟨floatVal_wf _, rfl⟩)
    | exact ⟨intVal_wf h, by obtain ⟨rfl, _⟩ := intVal_ok h; rfl⟩
    | cases h

theorem intOp_wf {f : Int → Int → Int} {s c v : Val} (h : intOp f s c = .ok v) :
    v.wf ∧ v.card = some .single ∧ v.bt = some .integer := by
  simp only [intOp, bind_ok] at h
  obtain ⟨_, _, _, _, h⟩ := h
  repeat' split at h
  all_goals first
    | (rw [pure_ok] at h; subst h; exact ⟨singleNull_wf _, rfl, rfl⟩)
    | exact ⟨intVal_wf h, by obtain ⟨rfl, _⟩ := intVal_ok h; exact ⟨rfl, rfl⟩⟩
    | cases h

theorem boolVal_type (b : Option Bool) :
    (boolVal b).wf ∧ (boolVal b).card = some .single ∧ (boolVal b).bt = some .boolean :=
  ⟨boolVal_wf b, rfl, rfl⟩

theorem floatVal_type (b : Option Rat) :
    (floatVal b).wf ∧ (floatVal b).card = some .single ∧ (floatVal b).bt = some .float :=
  ⟨floatVal_wf b, rfl, rfl⟩

/-- The result of an n-ary operator is well-formed, whatever the operands. -/
theorem opN_wf {st : State} {op : OpN} {vs : List Val} {v : Val} (h : opN st op vs = .ok v) :
    v.wf ∧ ∀ es c t, Expr.promise (.nary op es) = some (c, t) → v.card = some c ∧ v.bt = some t := by
  cases op <;> simp only [opN, bind_ok, pure_ok] at h
  case multiple =>
    obtain ⟨_, _, h⟩ := h
    exact ⟨setMultiple_wf h, fun _ _ _ hp => by cases hp⟩
  case ordered =>
    obtain ⟨_, _, h⟩ := h
    exact ⟨setOrdered_wf h, fun _ _ _ hp => by cases hp⟩
  case member =>
    obtain ⟨_, _, h⟩ := h
    obtain ⟨b, rfl⟩ := memberOp_ok h
    exact ⟨boolVal_wf _, fun _ _ _ hp => by cases hp; exact ⟨rfl, rfl⟩⟩
  case delete =>
    obtain ⟨_, _, h⟩ := h
    exact ⟨deleteOp_wf h, fun _ _ _ hp => by cases hp⟩
  case contains =>
    obtain ⟨_, _, h⟩ := h
    obtain ⟨b, rfl⟩ := containsOp_ok h
    exact ⟨boolVal_wf _, fun _ _ _ hp => by cases hp; exact ⟨rfl, rfl⟩⟩
  case substring =>
    obtain ⟨_, _, h⟩ := h
    obtain ⟨b, rfl⟩ := textOp_ok h
    exact ⟨boolVal_wf _, fun _ _ _ hp => by cases hp; exact ⟨rfl, rfl⟩⟩
  case and =>
    obtain ⟨_, _, rfl⟩ := h
    exact ⟨boolVal_wf _, fun _ _ _ hp => by cases hp; exact ⟨rfl, rfl⟩⟩
  case or =>
    obtain ⟨_, _, rfl⟩ := h
    exact ⟨boolVal_wf _, fun _ _ _ hp => by cases hp; exact ⟨rfl, rfl⟩⟩
  case anyN =>
    obtain ⟨_, _, _, _, _, _, rfl⟩ := h
    exact ⟨boolVal_wf _, fun _ _ _ hp => by cases hp; exact ⟨rfl, rfl⟩⟩
  case «matches» =>
    obtain ⟨_, _, _, _, rfl⟩ := h
    exact ⟨boolVal_wf _, fun _ _ _ hp => by cases hp; exact ⟨rfl, rfl⟩⟩
  case stringMatch =>
    obtain ⟨_, _, h⟩ := h
    obtain ⟨b, rfl⟩ := textOp_ok h
    exact ⟨boolVal_wf _, fun _ _ _ hp => by cases hp; exact ⟨rfl, rfl⟩⟩
  case equal =>
    obtain ⟨_, _, o, _, h⟩ := h
    cases o with
    | none => cases h; exact ⟨boolVal_wf _, fun _ _ _ hp => by cases hp; exact ⟨rfl, rfl⟩⟩
    | some p =>
      obtain ⟨b, rfl⟩ := equalNums_ok h
      exact ⟨boolVal_wf _, fun _ _ _ hp => by cases hp; exact ⟨rfl, rfl⟩⟩
  case cmp =>
    obtain ⟨_, _, o, _, h⟩ := h
    cases o <;> cases h <;> exact ⟨boolVal_wf _, fun _ _ _ hp => by cases hp; exact ⟨rfl, rfl⟩⟩
  case durationLT =>
    obtain ⟨_, _, o, _, h⟩ := h
    cases o <;> cases h <;> exact ⟨boolVal_wf _, fun _ _ _ hp => by cases hp; exact ⟨rfl, rfl⟩⟩
  case durationGTE =>
    obtain ⟨_, _, o, _, h⟩ := h
    cases o <;> cases h <;> exact ⟨boolVal_wf _, fun _ _ _ hp => by cases hp; exact ⟨rfl, rfl⟩⟩
  case sum => exact ⟨(foldOp_wf h).1, fun _ _ _ hp => by cases hp⟩
  case product => exact ⟨(foldOp_wf h).1, fun _ _ _ hp => by cases hp⟩
  case subtract =>
    obtain ⟨_, _, h⟩ := h
    exact ⟨(subtractOp_wf h).1, fun _ _ _ hp => by cases hp⟩
  case divide =>
    obtain ⟨_, _, o, _, h⟩ := h
    cases o <;> cases h <;> exact ⟨floatVal_wf _, fun _ _ _ hp => by cases hp; exact ⟨rfl, rfl⟩⟩
  case integerDivide =>
    obtain ⟨_, _, h⟩ := h
    exact ⟨(intOp_wf h).1, fun _ _ _ hp => by cases hp; exact (intOp_wf h).2⟩
  case integerModulus =>
    obtain ⟨_, _, h⟩ := h
    exact ⟨(intOp_wf h).1, fun _ _ _ hp => by cases hp; exact (intOp_wf h).2⟩
  case custom => cases h

theorem op1_type {op : Op1} {v w : Val} (h : op1 op v = .ok w) (e : Expr) (c : Card) (t : BaseType)
    (hp : Expr.promise (.un op e) = some (c, t)) : w.card = some c ∧ w.bt = some t := by
  cases op <;> simp only [Expr.promise] at hp <;> cases hp <;> simp only [op1, bind_ok] at h
  case containerSize =>
    split at h
    · obtain ⟨rfl, _⟩ := intVal_ok h; exact ⟨rfl, rfl⟩
    · obtain ⟨rfl, _⟩ := intVal_ok h; exact ⟨rfl, rfl⟩
    · cases h
  case isNull => cases h; exact ⟨rfl, rfl⟩
  case not =>
    obtain ⟨_, _, _, _, h⟩ := h
    split at h <;> cases h <;> exact ⟨rfl, rfl⟩
  case inside =>
    obtain ⟨_, _, h⟩ := h
    split at h <;>
      first
      | (rw [pure_ok] at h; subst h; exact ⟨rfl, rfl⟩)
      | (simp only [bind_ok, pure_ok] at h; obtain ⟨_, _, rfl⟩ := h; exact ⟨rfl, rfl⟩)
      | cases h
  case truncate =>
    obtain ⟨_, _, _, _, h⟩ := h
    split at h
    · obtain ⟨rfl, _⟩ := intVal_ok h; exact ⟨rfl, rfl⟩
    · cases h
    · cases h; exact ⟨rfl, rfl⟩
  case round =>
    obtain ⟨_, _, _, _, h⟩ := h
    split at h
    · obtain ⟨rfl, _⟩ := intVal_ok h; exact ⟨rfl, rfl⟩
    · cases h
    · cases h; exact ⟨rfl, rfl⟩
  case integerToFloat =>
    obtain ⟨_, _, _, _, h⟩ := h
    split at h <;> cases h <;> exact ⟨rfl, rfl⟩

theorem get_ok {st : State} {n : Str} {v : Val} : st.get n = .ok v ↔ dget n st.map = some v := by
  simp only [State.get]
  cases dget n st.map <;> simp

theorem evalLeaf_type {st : State} {l : Leaf} {v : Val} (hs : st.wf) (hl : l.lits)
    (h : evalLeaf st l = .ok v) : v.wf ∧
      ∀ c t, Expr.promise (.leaf l) = some (c, t) → v.card = some c ∧ v.bt = some t := by
  cases l <;> simp only [evalLeaf, key_ok, bind_ok, get_ok] at h
  case baseValue t d =>
    cases h
    refine ⟨?_, fun _ _ hp => by cases hp; exact ⟨rfl, rfl⟩⟩
    intro d' hd
    subst hd
    exact ⟨t, rfl, hl⟩
  case «variable» n => exact ⟨hs _ _ h, fun _ _ hp => by cases hp⟩
  case default n =>
    obtain ⟨_, _, h⟩ := h
    exact ⟨hs _ _ h, fun _ _ hp => by cases hp⟩
  case correct n =>
    obtain ⟨o, _, h⟩ := h
    refine ⟨?_, fun _ _ hp => by cases hp⟩
    split at h
    · split at h
      · exact hs _ _ (get_ok.1 h)
      · cases h
    · cases h
  case mapResponse n =>
    obtain ⟨o, _, h⟩ := h
    split at h
    · split at h
      · split at h
        · cases h
        · simp only [bind_ok, pure_ok] at h
          obtain ⟨_, _, _, _, rfl⟩ := h
          exact ⟨floatVal_wf _, fun _ _ hp => by cases hp; exact ⟨rfl, rfl⟩⟩
      · cases h
    · cases h
  case mapResponsePoint n =>
    obtain ⟨o, _, h⟩ := h
    split at h
    · split at h
      · split at h
        · cases h
        · split at h
          · cases h
          · simp only [bind_ok, pure_ok] at h
            obtain ⟨_, _, _, _, rfl⟩ := h
            exact ⟨floatVal_wf _, fun _ _ hp => by cases hp; exact ⟨rfl, rfl⟩⟩
      · cases h
    · cases h
  case null => cases h; exact ⟨trivial, fun _ _ hp => by cases hp⟩
  case randomInteger =>
    obtain ⟨_, _, _, _, _, _, h⟩ := h
    split at h
    · cases h
    · simp only [bind_ok] at h
      obtain ⟨_, _, h⟩ := h
      refine ⟨intVal_wf h, fun _ _ hp => ?_⟩
      obtain ⟨rfl, _⟩ := intVal_ok h
      cases hp
      exact ⟨rfl, rfl⟩
  case randomFloat =>
    simp only [pure_ok] at h
    obtain ⟨_, _, _, _, rfl⟩ := h
    exact ⟨floatVal_wf _, fun _ _ hp => by cases hp; exact ⟨rfl, rfl⟩⟩

mutual
theorem eval_wf {st : State} (hs : st.wf) : ∀ (e : Expr) (v : Val), e.lits → eval st e = .ok v →
    v.wf ∧ ∀ c t, e.promise = some (c, t) → v.card = some c ∧ v.bt = some t
  | .leaf l, v, hl, h => by
    simp only [eval] at h
    exact evalLeaf_type hs hl h
  | .un op e, v, hl, h => by
    simp only [eval, bind_ok] at h
    obtain ⟨w, hw, h⟩ := h
    exact ⟨op1_wf (eval_wf hs e w hl hw).1 h, op1_type h e⟩
  | .nary op es, v, hl, h => by
    simp only [eval, bind_ok] at h
    obtain ⟨_, _, vs, _, h⟩ := h
    exact ⟨(opN_wf h).1, (opN_wf h).2 es⟩
end

/-- C91, well-formedness: in a state whose values are well-formed, whatever an expression
evaluates to is well-formed: a value holds data of its own base type, integers and points stay
within 32 bits, the names of a pair are in order, no string and no container is empty. -/
theorem C91_evaluate_wf (st : State) (e : Expr) (v : Val) (hs : st.wf) (hl : e.lits)
    (h : eval st e = .ok v) : v.wf := (eval_wf hs e v hl h).1

/-- C91, result kind: cardinality and base type of the result are the ones the operator promises
in the QTI specification. -/
theorem C91_evaluate_type (st : State) (e : Expr) (v : Val) (c : Card) (t : BaseType)
    (hs : st.wf) (hl : e.lits) (hp : e.promise = some (c, t)) (h : eval st e = .ok v) :
    v.card = some c ∧ v.bt = some t := (eval_wf hs e v hl h).2 c t hp

end Verif.Qti

import Verif.Qti.Logic
import Verif.Qti.Process
import Verif.Qti.Region
/-
C168: migration of the tests of QTI version 1 response conditions to version 2 expressions
(pyslet/qtiv1/common.py:1403-1945).

Not modelled: `varinside`.  The text of an element is taken without the surrounding space.  The
conversion of a text to a value of a base type is a parameter (`read`, none for NULL); texts that
the base type refuses are not modelled.
-/
namespace Verif.Qti1
open Verif.Qti

/-! ## Model -/

/-- common.py:1432-1448, 1506-1945: the condition elements.  `unsupported` stands for varsubset,
varsubstring, the dur elements, unanswered and var_extension, which have no migration. -/
inductive Cond1
  | varequal (r : Str) (index : Option Int) (caseYes : Bool) (text : Str)
  | compare (c : Cmp) (r : Str) (index : Option Int) (text : Str)
  | unsupported
  | other
  | emptyNot
  | not (c : Cond1)
  | and (l : List Cond1)
  | or (l : List Cond1)

/-- The declarations of the version 2 item and the conversion of texts. -/
structure Ctx where
  decls : List (Str × Decl)
  read : BaseType → Str → Option Datum

/-- common.py:1477-1491 `migrate_variable_to_v2`. -/
def migrateVariable (d : Decl) (id : Str) (index : Option Int) : Expr :=
  match index with
  | none => .leaf (.variable id)
  | some n =>
    if n = 0 then .leaf (.variable id)
    else if d.card = .multiple then .leaf (.variable id)
    else if d.card = .single then .leaf (.variable id)
    else .un (.index n) (.leaf (.variable id))

/-- common.py:1493-1503 `migrate_value_to_v2`. -/
def migrateValue (K : Ctx) (t : BaseType) (text : Str) : Expr :=
  let value :=
    if t = .pair ∨ t = .directedPair ∨ t = .point then text.map fun c => if c = 44 then 32 else c
    else if t = .identifier then Region.validateIdentifier text [95]
    else text
  .leaf (.baseValue t (K.read t value))

/-- common.py:1525-1581 `VarEqual.migrate_expression_to_v2`; `none` for an exception.  The test
in 1559-1560 is always true, so no base type is refused for a container. -/
def migrateVarequal (K : Ctx) (r : Str) (index : Option Int) (caseYes : Bool) (text : Str) :
    Option Expr :=
  let id := Region.validateIdentifier r [95]
  match dget id K.decls with
  | none => some (.leaf .null)
  | some d =>
    match d.bt with
    | none => none
    | some t =>
      if d.card = .single then
        let args := [migrateVariable d id index, migrateValue K t text]
        if t = .identifier ∨ t = .pair then some (.nary .matches args)
        else if t = .integer then some (.nary .matches args)
        else if t = .string then some (.nary (.stringMatch caseYes false) args)
        else if t = .float then some (.nary (.equal .exact [] true true) args)
        else none
      else some (.nary .member [migrateValue K t text, migrateVariable d id index])

/-- common.py:1592-1616 `VarInequality.migrate_expression_to_v2`, 1632-1684. -/
def migrateCompare (K : Ctx) (c : Cmp) (r : Str) (index : Option Int) (text : Str) :
    Option Expr :=
  let id := Region.validateIdentifier r [95]
  match dget id K.decls with
  | none => some (.leaf .null)
  | some d =>
    match d.bt with
    | none => none
    | some t =>
      if d.card = .single then
        if t = .integer ∨ t = .float then
          some (.nary (.cmp c) [migrateVariable d id index, migrateValue K t text])
        else none
      else none

mutual
/-- The `migrate_expression_to_v2` methods: common.py:1436-1438, 1525-1616, 1844-1851,
1874-1882, 1905-1913, 1936-1942. -/
def Cond1.migrate (K : Ctx) : Cond1 → Option Expr
  | .varequal r i cs text => migrateVarequal K r i cs text
  | .compare c r i text => migrateCompare K c r i text
  | .unsupported => none
  | .other => some (.leaf (.baseValue .boolean (some (.bool true))))
  | .emptyNot => some (.leaf .null)
  | .not c => (c.migrate K).map (.un .not)
  | .and l => if l.isEmpty then some (.leaf .null) else (migrateList K l).map (.nary .and)
  | .or l => if l.isEmpty then some (.leaf .null) else (migrateList K l).map (.nary .or)
def migrateList (K : Ctx) : List Cond1 → Option (List Expr)
  | [] => some []
  | c :: l =>
    match c.migrate K with
    | none => none
    | some e => (migrateList K l).map (e :: ·)
end

/-- common.py:1418-1429 `ConditionVar.migrate_expression_to_v2`. -/
def migrateConditionVar (K : Ctx) (l : List Cond1) : Option Expr :=
  match l with
  | [] => some (.leaf .null)
  | [c] => c.migrate K
  | _ => (migrateList K l).map (.nary .and)

/-! ## Specification -/

/-- The value that the text of an element stands for.  A pair or a point may be written with a
comma; a name is written the way the migration writes names. -/
def litOf (K : Ctx) (t : BaseType) (text : Str) : Option Datum :=
  match t with
  | .pair | .directedPair | .point => K.read t (text.map fun c => if c = 44 then 32 else c)
  | .identifier => K.read t (Region.validateIdentifier text [95])
  | _ => K.read t text

/-- Two values count as equal: strings without regard to case, unless the element says
`case="Yes"`.  (Names are compared as they are; the migration writes a warning about it.) -/
def sameDatum (lower : Str → Str) (t : BaseType) (caseYes : Bool) (x y : Datum) : Bool :=
  match x, y with
  | .str a, .str b =>
    if t = .string ∧ caseYes = false then decide (lower a = lower b) else decide (a = b)
  | _, _ => decide (x = y)

/-- Is the value among the answers?  With an index, is it the answer in that place? -/
def eqHolds (lower : Str → Str) (t : BaseType) (index : Option Int) (caseYes : Bool)
    (answer : Val) (y : Datum) : Bool :=
  match answer with
  | .single _ (some x) => sameDatum lower t caseYes x y
  | .ordered _ (some l) =>
    match index with
    | none => l.any fun x => sameDatum lower t caseYes x y
    | some n =>
      if n = 0 then l.any fun x => sameDatum lower t caseYes x y
      else match l[(n - 1).toNat]? with
        | some x => sameDatum lower t caseYes x y
        | none => false
  | .multiple _ (some m) => m.any fun p => sameDatum lower t caseYes p.1 y
  | _ => false

/-- The number that a value is. -/
def numOf : Datum → Option Rat
  | .int i => some (i : Rat)
  | .num q => some q
  | _ => none

/-- The comparison that the name of the element says. -/
def Says (c : Cmp) (a b : Rat) : Bool :=
  match c with
  | .lt => decide (a < b)
  | .gt => decide (b < a)
  | .lte => decide (a ≤ b)
  | .gte => decide (b ≤ a)

/-- The answer to the response `r` and the base type it was declared with. -/
def answerTo (K : Ctx) (st : State) (r : Str) : Option (Val × BaseType) :=
  match dget (Region.validateIdentifier r [95]) K.decls,
      dget (Region.validateIdentifier r [95]) st.map with
  | some d, some v => d.bt.map fun t => (v, t)
  | _, _ => none

/-- varequal, with two truth values: no answer, or no such response, is "not equal". -/
def varequalHolds (K : Ctx) (st : State) (r : Str) (index : Option Int) (caseYes : Bool)
    (text : Str) : Bool :=
  match answerTo K st r with
  | none => false
  | some (v, t) =>
    match litOf K t text with
    | none => false
    | some y => eqHolds st.lower t index caseYes v y

/-- varlt and so on, with two truth values. -/
def compareHolds (K : Ctx) (st : State) (c : Cmp) (r : Str) (text : Str) : Bool :=
  match answerTo K st r with
  | some (.single _ (some x), t) =>
    match litOf K t text with
    | none => false
    | some y =>
      match numOf x, numOf y with
      | some a, some b => Says c a b
      | _, _ => false
  | _ => false

mutual
/-- Version 1 conditions are true or false. -/
def Cond1.holds (K : Ctx) (st : State) : Cond1 → Bool
  | .varequal r i cs text => varequalHolds K st r i cs text
  | .compare c r _ text => compareHolds K st c r text
  | .unsupported => false
  | .other => true
  | .emptyNot => false
  | .not c => !c.holds K st
  | .and l => !l.isEmpty && allHold K st l
  | .or l => anyHolds K st l
def allHold (K : Ctx) (st : State) : List Cond1 → Bool
  | [] => true
  | c :: l => c.holds K st && allHold K st l
def anyHolds (K : Ctx) (st : State) : List Cond1 → Bool
  | [] => false
  | c :: l => c.holds K st || anyHolds K st l
end

/-- The response has been answered, and the text stands for a value. -/
def Answered (K : Ctx) (st : State) (r text : Str) : Prop :=
  ∃ v t, answerTo K st r = some (v, t) ∧ v.isSet = true ∧ (litOf K t text).isSome = true

/-- What a test of a response must respect: no index into an ordered response, and no test of a
container of strings without regard to case. -/
def PlainEqual (K : Ctx) (r : Str) (index : Option Int) (caseYes : Bool) : Prop :=
  ∀ d, dget (Region.validateIdentifier r [95]) K.decls = some d →
    (d.card = .ordered → index = none ∨ index = some 0) ∧
    (d.card ≠ .single → d.bt = some .string → caseYes = true)

mutual
def Cond1.plain (K : Ctx) : Cond1 → Prop
  | .varequal r i cs _ => PlainEqual K r i cs
  | .not c => c.plain K
  | .and l => plainAll K l
  | .or l => plainAll K l
  | _ => True
def plainAll (K : Ctx) : List Cond1 → Prop
  | [] => True
  | c :: l => c.plain K ∧ plainAll K l
end

mutual
/-- Every response that the condition looks at has been answered, and nothing is empty. -/
def Cond1.answered (K : Ctx) (st : State) : Cond1 → Prop
  | .varequal r _ _ text => Answered K st r text
  | .compare _ r _ text => Answered K st r text
  | .unsupported => True
  | .other => True
  | .emptyNot => False
  | .not c => c.answered K st
  | .and l => l ≠ [] ∧ answeredAll K st l
  | .or l => l ≠ [] ∧ answeredAll K st l
def answeredAll (K : Ctx) (st : State) : List Cond1 → Prop
  | [] => True
  | c :: l => c.answered K st ∧ answeredAll K st l
end

mutual
/-- The condition uses no `not`. -/
def Cond1.positive : Cond1 → Prop
  | .not _ => False
  | .and l => positiveAll l
  | .or l => positiveAll l
  | _ => True
def positiveAll : List Cond1 → Prop
  | [] => True
  | c :: l => c.positive ∧ positiveAll l
end

/-- What holds of a session of a migrated item: each declared variable has a well-formed value of
the declared kind, no variable is a record or a duration, and texts are converted to values of
the base type. -/
structure Session (K : Ctx) (st : State) : Prop where
  value : ∀ n d, dget n K.decls = some d → ∃ v, dget n st.map = some v ∧ v.wf ∧
    v.card = some d.card ∧ v.bt = d.bt
  kinds : ∀ n d, dget n K.decls = some d → d.card ≠ .record ∧ d.bt ≠ some .duration
  texts : ∀ t s y, K.read t s = some y → y.ok t

/-! ## Three truth values -/

/-- An evaluation result that stands for true, false or unknown. -/
def IsTri (v : Val) (o : Option Bool) : Prop :=
  v = boolVal o ∨ (o = none ∧ v = .null)

def triAll (os : List (Option Bool)) : Option Bool :=
  if some false ∈ os then some false else if none ∈ os then none else some true
def triAny (os : List (Option Bool)) : Option Bool :=
  if some true ∈ os then some true else if none ∈ os then none else some false

/-- The three-valued result of a test of a response. -/
def triAtom (K : Ctx) (st : State) (r text : Str) (b : Bool) : Option Bool :=
  match answerTo K st r with
  | none => none
  | some (v, t) => if v.isSet = true ∧ (litOf K t text).isSome = true then some b else none

mutual
def Cond1.tri (K : Ctx) (st : State) : Cond1 → Option Bool
  | .varequal r i cs text => triAtom K st r text (varequalHolds K st r i cs text)
  | .compare c r _ text => triAtom K st r text (compareHolds K st c r text)
  | .unsupported => none
  | .other => some true
  | .emptyNot => none
  | .not c => (c.tri K st).map (!·)
  | .and l => if l.isEmpty then none else triAll (triList K st l)
  | .or l => if l.isEmpty then none else triAny (triList K st l)
def triList (K : Ctx) (st : State) : List Cond1 → List (Option Bool)
  | [] => []
  | c :: l => c.tri K st :: triList K st l
end

theorem IsTri.boolish {v : Val} {o : Option Bool} (h : IsTri v o) : Boolish v := by
  rcases h with rfl | ⟨_, rfl⟩
  · cases o with
    | none => exact Or.inl rfl
    | some b => exact Or.inr ⟨b, rfl⟩
  · exact Or.inl rfl

theorem IsTri.set {v : Val} {o : Option Bool} (h : IsTri v o) : v.isSet = o.isSome := by
  rcases h with rfl | ⟨rfl, rfl⟩
  · cases o <;> rfl
  · rfl

theorem IsTri.eq {v : Val} {o : Option Bool} (h : IsTri v o) (b : Bool) :
    v = boolVal (some b) ↔ o = some b := by
  rcases h with rfl | ⟨rfl, rfl⟩
  · exact boolVal_inj
  · simp [boolVal]

theorem IsTri.card {v : Val} {o : Option Bool} (h : IsTri v o) :
    v.card = none ∨ v.card = some .single := by
  rcases h with rfl | ⟨rfl, rfl⟩
  · exact Or.inr rfl
  · exact Or.inl rfl

theorem IsTri.bt {v : Val} {o : Option Bool} (h : IsTri v o) :
    v.bt = none ∨ v.bt = some .boolean := by
  rcases h with rfl | ⟨rfl, rfl⟩
  · exact Or.inr rfl
  · exact Or.inl rfl

theorem goCard_single : ∀ {l : List (Option Card)}, (∀ o ∈ l, o = none ∨ o = some .single) →
    checkCards.go (some .single) l = .ok (some .single)
  | [], _ => rfl
  | o :: l, h => by
    have ih := goCard_single (l := l) fun o ho => h o (by simp [ho])
    rcases h o (by simp) with rfl | rfl
    · simpa [checkCards.go] using ih
    · simpa [checkCards.go] using ih

theorem goBase_same (t : BaseType) : ∀ {l : List (Option BaseType)},
    (∀ o ∈ l, o = none ∨ o = some t) → checkBaseTypes.go (some t) l = .ok (some t)
  | [], _ => rfl
  | o :: l, h => by
    have ih := goBase_same t (l := l) fun o ho => h o (by simp [ho])
    rcases h o (by simp) with rfl | rfl
    · simpa [checkBaseTypes.go] using ih
    · simpa [checkBaseTypes.go] using ih

theorem tri_mem {vs : List Val} {os : List (Option Bool)} (h : List.Forall₂ IsTri vs os)
    (b : Bool) : boolVal (some b) ∈ vs ↔ some b ∈ os := by
  induction h with
  | nil => simp
  | @cons v o vs os hv _ ih =>
    simp only [List.mem_cons, ih]
    rw [show (boolVal (some b) = v) ↔ (some b = o) from
      ⟨fun e => ((hv.eq b).1 e.symm).symm, fun e => ((hv.eq b).2 e.symm).symm⟩]

theorem tri_null {vs : List Val} {os : List (Option Bool)} (h : List.Forall₂ IsTri vs os) :
    (∃ v ∈ vs, v.isSet = false) ↔ none ∈ os := by
  induction h with
  | nil => simp
  | @cons v o vs os hv _ ih =>
    simp only [List.mem_cons, exists_eq_or_imp, ih, hv.set]
    cases o <;> simp

theorem tri_all {vs : List Val} {os : List (Option Bool)} (h : List.Forall₂ IsTri vs os)
    {v : Val} (hv : v ∈ vs) : ∃ o, IsTri v o := by
  induction h with
  | nil => simp at hv
  | cons h1 _ ih =>
    rcases List.mem_cons.1 hv with rfl | hv
    · exact ⟨_, h1⟩
    · exact ih hv

theorem checkBools_tri {vs : List Val} {os : List (Option Bool)}
    (h : List.Forall₂ IsTri vs os) : checkBools vs = .ok () := by
  have h1 : checkCards (some .single :: vs.map Val.card) = .ok (some .single) := by
    apply goCard_single
    intro o ho
    obtain ⟨v, hv, rfl⟩ := List.mem_map.1 ho
    obtain ⟨o, ho⟩ := tri_all h hv
    exact ho.card
  have h2 : checkBaseTypes (some .boolean :: vs.map Val.bt) = .ok (some .boolean) := by
    apply goBase_same
    intro o ho
    obtain ⟨v, hv, rfl⟩ := List.mem_map.1 ho
    obtain ⟨o, ho⟩ := tri_all h hv
    exact ho.bt
  simp only [checkBools, h1, h2]
  rfl

theorem opN_and_tri (st : State) {vs : List Val} {os : List (Option Bool)}
    (h : List.Forall₂ IsTri vs os) : opN st .and vs = .ok (boolVal (triAll os)) := by
  have hb : ∀ v ∈ vs, Boolish v := fun v hv => (tri_all h hv).elim fun _ ho => ho.boolish
  simp only [opN, checkBools_tri h, andLoop_true hb, tri_mem h, tri_null h]
  rfl

theorem opN_or_tri (st : State) {vs : List Val} {os : List (Option Bool)}
    (h : List.Forall₂ IsTri vs os) : opN st .or vs = .ok (boolVal (triAny os)) := by
  have hb : ∀ v ∈ vs, Boolish v := fun v hv => (tri_all h hv).elim fun _ ho => ho.boolish
  simp only [opN, checkBools_tri h, orLoop_false hb, tri_mem h, tri_null h]
  rfl

theorem op1_not_tri {v : Val} {o : Option Bool} (h : IsTri v o) :
    op1 .not v = .ok (boolVal (o.map (!·))) := by
  rcases h with rfl | ⟨rfl, rfl⟩
  · rcases o with _ | _ | _ <;> rfl
  · rfl

theorem testCond_tri {st : State} {e : Expr} {v : Val} {o : Option Bool} (he : eval st e = .ok v)
    (h : IsTri v o) : testCond st (some e) = .ok (o == some true) := by
  simp only [testCond, he]
  rcases h with rfl | ⟨rfl, rfl⟩
  · rcases o with _ | _ | _ <;> rfl
  · rfl

/-! ## Tests of a response -/

theorem litOf_eq (K : Ctx) (t : BaseType) (text : Str) (st : State) :
    eval st (migrateValue K t text) = .ok (.single (some t) (litOf K t text)) := by
  cases t <;> rfl

/-- A value of a declared variable. -/
theorem value_cases {v : Val} {c : Card} {t : BaseType} (hc : v.card = some c)
    (ht : v.bt = some t) (hr : c ≠ .record) :
    (c = .single ∧ ∃ o, v = .single (some t) o) ∨ (c = .ordered ∧ ∃ o, v = .ordered (some t) o) ∨
      (c = .multiple ∧ ∃ o, v = .multiple (some t) o) := by
  cases v with
  | null => simp [Val.card] at hc
  | container => simp [Val.card] at hc
  | record => simp [Val.bt] at ht
  | single t' o =>
    simp only [Val.card, Option.some.injEq] at hc
    simp only [Val.bt] at ht
    subst ht
    exact Or.inl ⟨hc.symm, o, rfl⟩
  | ordered t' o =>
    simp only [Val.card, Option.some.injEq] at hc
    simp only [Val.bt] at ht
    subst ht
    exact Or.inr (Or.inl ⟨hc.symm, o, rfl⟩)
  | multiple t' o =>
    simp only [Val.card, Option.some.injEq] at hc
    simp only [Val.bt] at ht
    subst ht
    exact Or.inr (Or.inr ⟨hc.symm, o, rfl⟩)

theorem single_ok {t : BaseType} {x : Datum} (h : (Val.single (some t) (some x)).wf) : x.ok t := by
  obtain ⟨bt, h1, h2⟩ := h x rfl
  cases h1
  exact h2

theorem eval_variable {st : State} {n : Str} {v : Val} (h : dget n st.map = some v) :
    eval st (.leaf (.variable n)) = .ok v := by
  simp only [eval, evalLeaf, State.get, h]
  rfl

theorem eval_two {st : State} {op : OpN} {a b : Expr} {v w : Val} (ha : eval st a = .ok v)
    (hb : eval st b = .ok w) (hp : preN op = .ok ()) :
    eval st (.nary op [a, b]) = opN st op [v, w] := by
  simp only [eval, evalList, ha, hb, hp]
  rfl

theorem sameDatum_exact {lower : Str → Str} {t : BaseType} {cs : Bool} (x y : Datum)
    (h : t = .string → cs = true) : sameDatum lower t cs x y = decide (x = y) := by
  unfold sameDatum
  split
  · rw [if_neg]
    · simp
    · rintro ⟨h1, h2⟩
      rw [h h1] at h2
      cases h2
  · rfl

theorem answerTo_eq {K : Ctx} {st : State} {r : Str} {d : Decl} {v : Val} {t : BaseType}
    (h1 : dget (Region.validateIdentifier r [95]) K.decls = some d)
    (h2 : dget (Region.validateIdentifier r [95]) st.map = some v) (h3 : d.bt = some t) :
    answerTo K st r = some (v, t) := by
  simp only [answerTo, h1, h2, h3, Option.map_some]

theorem answerTo_none {K : Ctx} {st : State} {r : Str}
    (h1 : dget (Region.validateIdentifier r [95]) K.decls = none) : answerTo K st r = none := by
  simp only [answerTo, h1]

theorem matches_single (st : State) (t : BaseType) (ht : t ≠ .duration) (o p : Option Datum) :
    opN st .matches [.single (some t) o, .single (some t) p] =
      .ok (boolVal (match o, p with | some x, some y => some (decide (x = y)) | _, _ => none)) := by
  have h1 : checkBaseTypes [some t, some t] = .ok (some t) := by
    simp [checkBaseTypes, checkBaseTypes.go]
  have h2 : valEq (.single (some t) o) (.single (some t) p) =
      .ok (match o, p with | some x, some y => some (decide (x = y)) | _, _ => none) := by
    simp only [valEq, Val.card, Val.bt, h1]
    rw [show checkCards [some Card.single, some Card.single] = .ok (some .single) from rfl]
    show (if some t = some BaseType.duration then _ else _) = _
    rw [if_neg (by simpa using ht)]
    cases o <;> cases p <;> rfl
  simp only [opN, two]
  show (valEq (.single (some t) o) (.single (some t) p) >>= _) = _
  rw [h2]
  rfl

theorem member_ok (st : State) (t : BaseType) (ht : t ≠ .duration) (p : Option Datum) (c : Val)
    (hc : c.bt = some t) (l : List Datum)
    (hl : (∃ o, c = .ordered (some t) o ∧ o.getD [] = l) ∨
      (∃ o, c = .multiple (some t) o ∧ (o.getD []).map (·.1) = l)) :
    opN st .member [.single (some t) p, c] =
      .ok (boolVal (if c.isSet then p.map fun y => decide (y ∈ l) else none)) := by
  simp only [opN, two]
  show memberOp (.single (some t) p) c = _
  rcases hl with ⟨o, rfl, rfl⟩ | ⟨o, rfl, rfl⟩
  · cases o <;> cases p <;> simp [memberOp, Val.bt, Val.isSet, ht]
  · cases o <;> cases p <;> simp [memberOp, Val.bt, Val.isSet, ht]

theorem migrateVariable_plain {d : Decl} {id : Str} {index : Option Int}
    (h : d.card = .ordered → index = none ∨ index = some 0) (hr : d.card ≠ .record) :
    migrateVariable d id index = .leaf (.variable id) := by
  unfold migrateVariable
  cases index with
  | none => rfl
  | some n =>
    dsimp only
    by_cases hn : n = 0
    · rw [if_pos hn]
    · rw [if_neg hn]
      cases hc : d.card with
      | multiple => rw [if_pos rfl]
      | single => rw [if_neg (by decide), if_pos rfl]
      | ordered =>
        rcases h hc with h | h
        · cases h
        · exact absurd (Option.some.inj h) hn
      | record => exact absurd hc hr

theorem any_mem {lower : Str → Str} {t : BaseType} {cs : Bool} (h : t = .string → cs = true)
    (l : List Datum) (y : Datum) :
    (l.any fun x => sameDatum lower t cs x y) = decide (y ∈ l) := by
  rw [Bool.eq_iff_iff]
  simp only [List.any_eq_true, sameDatum_exact _ _ h, decide_eq_true_eq]
  exact ⟨fun ⟨x, h1, h2⟩ => h2 ▸ h1, fun h => ⟨y, h, rfl⟩⟩

theorem any_keys {lower : Str → Str} {t : BaseType} {cs : Bool} (h : t = .string → cs = true)
    (m : List (Datum × Nat)) (y : Datum) :
    (m.any fun p => sameDatum lower t cs p.1 y) = decide (y ∈ m.map (·.1)) := by
  rw [← any_mem (lower := lower) h, List.any_map]
  rfl

/-- Equality of two values that may be NULL. -/
def triSame (lower : Str → Str) (t : BaseType) (cs : Bool) : Option Datum → Option Datum → Option Bool
  | some x, some y => some (sameDatum lower t cs x y)
  | _, _ => none

/-- A single answer: the result of each kind of test. -/
theorem varequal_single {K : Ctx} {st : State} {r : Str} {t : BaseType} {o : Option Datum}
    {text : Str} {i : Option Int} {cs : Bool} (ha : answerTo K st r = some (.single (some t) o, t)) :
    triAtom K st r text (varequalHolds K st r i cs text) =
      triSame st.lower t cs o (litOf K t text) := by
  simp only [triAtom, varequalHolds, ha]
  cases o with
  | none => simp [Val.isSet, triSame]
  | some x =>
    cases h : litOf K t text with
    | none => simp [triSame]
    | some y => simp [Val.isSet, eqHolds, triSame]

theorem varequal_eval {K : Ctx} {st : State} (hs : Session K st) {r : Str} {i : Option Int}
    {cs : Bool} {text : Str} {e : Expr} (hp : PlainEqual K r i cs)
    (hm : migrateVarequal K r i cs text = some e) :
    ∃ v, eval st e = .ok v ∧ IsTri v (triAtom K st r text (varequalHolds K st r i cs text)) := by
  unfold migrateVarequal at hm
  dsimp only at hm
  cases hd : dget (Region.validateIdentifier r [95]) K.decls with
  | none =>
    rw [hd] at hm
    dsimp only at hm
    cases hm
    refine ⟨.null, rfl, Or.inr ⟨?_, rfl⟩⟩
    simp only [triAtom, answerTo_none hd]
  | some d =>
    rw [hd] at hm
    dsimp only at hm
    obtain ⟨v, hv, hw, hc, hb⟩ := hs.value _ _ hd
    obtain ⟨hrec, hdur⟩ := hs.kinds _ _ hd
    obtain ⟨hp1, hp2⟩ := hp d hd
    cases ht : d.bt with
    | none => rw [ht] at hm; cases hm
    | some t =>
      rw [ht] at hm
      dsimp only at hm
      have hans := answerTo_eq hd hv ht
      have htd : t ≠ .duration := by rintro rfl; exact hdur ht
      rw [migrateVariable_plain hp1 hrec] at hm
      have ev := eval_variable hv
      have el := litOf_eq K t text st
      rw [ht] at hb
      by_cases hsing : d.card = .single
      · rw [if_pos hsing] at hm
        rw [hsing] at hc
        obtain ⟨_, o, rfl⟩ | ⟨h, _⟩ | ⟨h, _⟩ := value_cases hc hb (by decide)
        rotate_left
        · cases h
        · cases h
        rw [varequal_single hans]
        by_cases h1 : t = .identifier ∨ t = .pair ∨ t = .integer
        · have hm' : e = .nary .matches [.leaf (.variable (Region.validateIdentifier r [95])),
              migrateValue K t text] := by
            rcases h1 with h1 | h1 | h1 <;> subst h1 <;> simpa using hm.symm
          subst hm'
          refine ⟨_, (eval_two ev el rfl).trans (matches_single st t htd _ _), Or.inl ?_⟩
          congr 1
          cases o with
          | none => rfl
          | some x =>
            cases litOf K t text with
            | none => rfl
            | some y =>
              dsimp only [triSame]
              rw [sameDatum_exact]
              rintro rfl
              simp at h1
        · have hn1 : t ≠ .identifier := fun h => h1 (Or.inl h)
          have hn2 : t ≠ .pair := fun h => h1 (Or.inr (Or.inl h))
          have hn3 : t ≠ .integer := fun h => h1 (Or.inr (Or.inr h))
          simp only [hn1, hn2, hn3, or_self, if_false] at hm
          by_cases h4 : t = .string
          · subst h4
            simp only [if_true, Option.some.injEq] at hm
            subst hm
            cases ho : o with
            | none => 
              subst ho
              exact ⟨boolVal none, eval_two ev el rfl, Or.inl rfl⟩
            | some x =>
              subst ho
              have hx := single_ok hw
              cases hl : litOf K .string text with
              | none =>
                rw [hl] at el
                refine ⟨boolVal none, (eval_two ev el rfl).trans ?_, Or.inl rfl⟩
                cases x <;> simp only [Datum.ok] at hx
                rfl
              | some y =>
                rw [hl] at el
                have hy : y.ok .string := hs.texts .string text y hl
                cases x <;> simp only [Datum.ok] at hx
                cases y <;> simp only [Datum.ok] at hy
                refine ⟨_, eval_two ev el rfl, Or.inl ?_⟩
                cases cs <;> rfl
          · simp only [h4, if_false] at hm
            by_cases h5 : t = .float
            · subst h5
              simp only [if_true, Option.some.injEq] at hm
              subst hm
              cases ho : o with
              | none =>
                subst ho
                exact ⟨boolVal none, eval_two ev el rfl, Or.inl rfl⟩
              | some x =>
                subst ho
                have hx := single_ok hw
                cases hl : litOf K .float text with
                | none =>
                  rw [hl] at el
                  refine ⟨boolVal none, (eval_two ev el rfl).trans ?_, Or.inl rfl⟩
                  cases x <;> simp only [Datum.ok] at hx
                  rfl
                | some y =>
                  rw [hl] at el
                  have hy : y.ok .float := hs.texts .float text y hl
                  cases x <;> simp only [Datum.ok] at hx
                  cases y <;> simp only [Datum.ok] at hy
                  rename_i a b
                  refine ⟨boolVal (some (decide (a = b))), eval_two ev el rfl, Or.inl ?_⟩
                  congr 2
                  simp [sameDatum]
            · simp [h5] at hm
      · rw [if_neg hsing] at hm
        cases hm
        have hcs : t = .string → cs = true := fun h => hp2 hsing (by rw [ht, h])
        obtain ⟨h, _⟩ | ⟨hcard, o, rfl⟩ | ⟨hcard, o, rfl⟩ := value_cases hc hb hrec
        · exact absurd h hsing
        · refine ⟨_, (eval_two el ev rfl).trans
            (member_ok st t htd _ _ rfl (o.getD []) (Or.inl ⟨o, rfl, rfl⟩)), Or.inl ?_⟩
          congr 1
          simp only [triAtom, varequalHolds, hans]
          cases o with
          | none => simp [Val.isSet]
          | some l =>
            have hi : eqHolds st.lower t i cs (.ordered (some t) (some l)) =
                fun y => decide (y ∈ l) := by
              funext y
              rcases hp1 hcard with h | h <;> subst h <;> simp only [eqHolds, if_true] <;>
                exact any_mem hcs l y
            cases hl : litOf K t text with
            | none => simp [Val.isSet]
            | some y => simp [Val.isSet, hi]
        · refine ⟨_, (eval_two el ev rfl).trans
            (member_ok st t htd _ _ rfl ((o.getD []).map (·.1)) (Or.inr ⟨o, rfl, rfl⟩)), Or.inl ?_⟩
          congr 1
          simp only [triAtom, varequalHolds, hans]
          cases o with
          | none => simp [Val.isSet]
          | some m =>
            have hi : eqHolds st.lower t i cs (.multiple (some t) (some m)) =
                fun y => decide (y ∈ m.map (·.1)) := by
              funext y
              exact any_keys hcs m y
            cases hl : litOf K t text with
            | none => simp [Val.isSet]
            | some y =>
              simp only [Val.isSet, hi, Option.isSome_some, Option.map_some, and_self, if_true]
              rfl

theorem cmp_test (c : Cmp) (a b : Rat) : c.test a b = Says c a b := by
  cases c <;> rfl

theorem compare_eval {K : Ctx} {st : State} (hs : Session K st) {c : Cmp} {r : Str}
    {i : Option Int} {text : Str} {e : Expr} (hm : migrateCompare K c r i text = some e) :
    ∃ v, eval st e = .ok v ∧ IsTri v (triAtom K st r text (compareHolds K st c r text)) := by
  unfold migrateCompare at hm
  dsimp only at hm
  cases hd : dget (Region.validateIdentifier r [95]) K.decls with
  | none =>
    rw [hd] at hm
    dsimp only at hm
    cases hm
    refine ⟨.null, rfl, Or.inr ⟨?_, rfl⟩⟩
    simp only [triAtom, answerTo_none hd]
  | some d =>
    rw [hd] at hm
    dsimp only at hm
    obtain ⟨v, hv, hw, hc, hb⟩ := hs.value _ _ hd
    cases ht : d.bt with
    | none => rw [ht] at hm; cases hm
    | some t =>
      rw [ht] at hm
      dsimp only at hm
      have hans := answerTo_eq hd hv ht
      have ev := eval_variable hv
      have el := litOf_eq K t text st
      rw [ht] at hb
      by_cases hsing : d.card = .single
      · rw [if_pos hsing] at hm
        rw [migrateVariable_plain (fun h => by rw [hsing] at h; cases h)
          (by rw [hsing]; decide)] at hm
        rw [hsing] at hc
        obtain ⟨_, o, rfl⟩ | ⟨h, _⟩ | ⟨h, _⟩ := value_cases hc hb (by decide)
        rotate_left
        · cases h
        · cases h
        by_cases h1 : t = .integer ∨ t = .float
        · rw [if_pos h1] at hm
          cases hm
          simp only [triAtom, compareHolds, hans]
          cases ho : o with
          | none =>
            subst ho
            refine ⟨boolVal none, (eval_two ev el rfl).trans ?_, Or.inl ?_⟩
            · rcases h1 with rfl | rfl <;> rfl
            · simp [Val.isSet]
          | some x =>
            subst ho
            have hx := single_ok hw
            cases hl : litOf K t text with
            | none =>
              rw [hl] at el
              refine ⟨boolVal none, (eval_two ev el rfl).trans ?_, Or.inl ?_⟩
              · rcases h1 with rfl | rfl <;> cases x <;> simp only [Datum.ok] at hx <;> rfl
              · simp
            | some y =>
              rw [hl] at el
              have hy : y.ok t := by
                rcases h1 with rfl | rfl <;> exact hs.texts _ text y hl
              rcases h1 with rfl | rfl <;> cases x <;> simp only [Datum.ok] at hx <;>
                cases y <;> simp only [Datum.ok] at hy
              · rename_i a b
                refine ⟨boolVal (some (c.test a b)), eval_two ev el rfl, Or.inl ?_⟩
                rw [cmp_test]
                simp [Val.isSet, numOf, hl]
              · rename_i a b
                refine ⟨boolVal (some (c.test a b)), eval_two ev el rfl, Or.inl ?_⟩
                rw [cmp_test]
                simp [Val.isSet, numOf, hl]
        · rw [if_neg h1] at hm
          cases hm
      · rw [if_neg hsing] at hm
        cases hm

/-! ## The whole condition -/

mutual
theorem cond_eval {K : Ctx} {st : State} (hs : Session K st) : ∀ (c : Cond1) (e : Expr),
    c.plain K → c.migrate K = some e → ∃ v, eval st e = .ok v ∧ IsTri v (c.tri K st)
  | .varequal r i cs text, e, hp, hm => by
    rw [Cond1.migrate] at hm
    rw [Cond1.tri]
    exact varequal_eval hs (by simpa [Cond1.plain] using hp) hm
  | .compare c r i text, e, _, hm => by
    rw [Cond1.migrate] at hm
    rw [Cond1.tri]
    exact compare_eval hs hm
  | .unsupported, e, _, hm => by
    rw [Cond1.migrate] at hm
    cases hm
  | .other, e, _, hm => by
    rw [Cond1.migrate] at hm
    cases hm
    rw [Cond1.tri]
    exact ⟨boolVal (some true), by rw [eval]; rfl, Or.inl rfl⟩
  | .emptyNot, e, _, hm => by
    rw [Cond1.migrate] at hm
    cases hm
    rw [Cond1.tri]
    exact ⟨.null, by rw [eval]; rfl, Or.inr ⟨rfl, rfl⟩⟩
  | .not c, e, hp, hm => by
    rw [Cond1.migrate, Option.map_eq_some_iff] at hm
    obtain ⟨e', h1, rfl⟩ := hm
    rw [Cond1.plain] at hp
    obtain ⟨v, h2, h3⟩ := cond_eval hs c e' hp h1
    rw [Cond1.tri]
    refine ⟨_, ?_, Or.inl rfl⟩
    rw [eval, h2]
    exact op1_not_tri h3
  | .and l, e, hp, hm => by
    rw [Cond1.migrate] at hm
    rw [Cond1.tri]
    by_cases hl : l.isEmpty = true
    · rw [if_pos hl] at hm ⊢
      cases hm
      exact ⟨.null, by rw [eval]; rfl, Or.inr ⟨rfl, rfl⟩⟩
    · rw [if_neg hl, Option.map_eq_some_iff] at hm
      rw [if_neg hl]
      obtain ⟨es, h1, rfl⟩ := hm
      rw [Cond1.plain] at hp
      obtain ⟨vs, h2, h3⟩ := list_eval hs l es hp h1
      refine ⟨_, ?_, Or.inl rfl⟩
      rw [eval, h2]
      exact opN_and_tri st h3
  | .or l, e, hp, hm => by
    rw [Cond1.migrate] at hm
    rw [Cond1.tri]
    by_cases hl : l.isEmpty = true
    · rw [if_pos hl] at hm ⊢
      cases hm
      exact ⟨.null, by rw [eval]; rfl, Or.inr ⟨rfl, rfl⟩⟩
    · rw [if_neg hl, Option.map_eq_some_iff] at hm
      rw [if_neg hl]
      obtain ⟨es, h1, rfl⟩ := hm
      rw [Cond1.plain] at hp
      obtain ⟨vs, h2, h3⟩ := list_eval hs l es hp h1
      refine ⟨_, ?_, Or.inl rfl⟩
      rw [eval, h2]
      exact opN_or_tri st h3
theorem list_eval {K : Ctx} {st : State} (hs : Session K st) : ∀ (l : List Cond1) (es : List Expr),
    plainAll K l → migrateList K l = some es →
    ∃ vs, evalList st es = .ok vs ∧ List.Forall₂ IsTri vs (triList K st l)
  | [], es, _, hm => by
    rw [migrateList] at hm
    cases hm
    exact ⟨[], by rw [evalList], by rw [triList]; exact .nil⟩
  | c :: l, es, hp, hm => by
    rw [migrateList] at hm
    rw [plainAll] at hp
    cases h1 : c.migrate K with
    | none => rw [h1] at hm; cases hm
    | some e =>
      rw [h1] at hm
      dsimp only at hm
      rw [Option.map_eq_some_iff] at hm
      obtain ⟨es', h2, rfl⟩ := hm
      obtain ⟨v, h3, h4⟩ := cond_eval hs c e hp.1 h1
      obtain ⟨vs, h5, h6⟩ := list_eval hs l es' hp.2 h2
      refine ⟨v :: vs, ?_, ?_⟩
      · rw [evalList, h3, h5]; rfl
      · rw [triList]; exact .cons h4 h6
end

/-! Two truth values against three. -/

theorem triAtom_answered {K : Ctx} {st : State} {r text : Str} {b : Bool}
    (h : Answered K st r text) : triAtom K st r text b = some b := by
  obtain ⟨v, t, h1, h2, h3⟩ := h
  simp only [triAtom, h1, h2, h3, and_self, if_true]

theorem eqHolds_set {lower : Str → Str} {t : BaseType} {i : Option Int} {cs : Bool} {v : Val}
    {y : Datum} (h : eqHolds lower t i cs v y = true) : v.isSet = true := by
  unfold eqHolds at h
  split at h <;> first | rfl | cases h

theorem triAtom_varequal {K : Ctx} {st : State} {r text : Str} {i : Option Int} {cs : Bool} :
    triAtom K st r text (varequalHolds K st r i cs text) = some true ↔
      varequalHolds K st r i cs text = true := by
  unfold triAtom varequalHolds
  cases answerTo K st r with
  | none => simp
  | some p =>
    obtain ⟨v, t⟩ := p
    dsimp only
    cases litOf K t text with
    | none => simp
    | some y =>
      dsimp only
      by_cases hv : v.isSet = true
      · simp [hv]
      · constructor
        · simp [hv]
        · intro h; exact absurd (eqHolds_set h) hv

theorem triAtom_compare {K : Ctx} {st : State} {c : Cmp} {r text : Str} :
    triAtom K st r text (compareHolds K st c r text) = some true ↔
      compareHolds K st c r text = true := by
  unfold triAtom
  constructor
  · intro h
    split at h
    · cases h
    · split at h
      · exact Option.some.inj h
      · cases h
  · intro h
    have h' := h
    unfold compareHolds at h'
    split at h'
    · rename_i o x t ha
      rw [ha]
      dsimp only
      cases hl : litOf K t text with
      | none => rw [hl] at h'; cases h'
      | some y => simp [Val.isSet, h]
    · cases h'

mutual
theorem tri_answered {K : Ctx} {st : State} : ∀ (c : Cond1) (e : Expr), c.migrate K = some e →
    c.answered K st → c.tri K st = some (c.holds K st)
  | .varequal r i cs text, e, _, h => by
    rw [Cond1.answered] at h
    rw [Cond1.tri, Cond1.holds, triAtom_answered h]
  | .compare c r i text, e, _, h => by
    rw [Cond1.answered] at h
    rw [Cond1.tri, Cond1.holds, triAtom_answered h]
  | .unsupported, e, hm, _ => by rw [Cond1.migrate] at hm; cases hm
  | .other, e, _, _ => by rw [Cond1.tri, Cond1.holds]
  | .emptyNot, e, _, h => by rw [Cond1.answered] at h; exact h.elim
  | .not c, e, hm, h => by
    rw [Cond1.migrate, Option.map_eq_some_iff] at hm
    obtain ⟨e', h1, rfl⟩ := hm
    rw [Cond1.answered] at h
    rw [Cond1.tri, Cond1.holds, tri_answered c e' h1 h]
    rfl
  | .and l, e, hm, h => by
    rw [Cond1.answered] at h
    have hl : l.isEmpty = false := by simpa using h.1
    rw [Cond1.migrate, if_neg (by simp [hl]), Option.map_eq_some_iff] at hm
    obtain ⟨es, h1, rfl⟩ := hm
    obtain ⟨h2, h3, h4⟩ := triList_answered l es h1 h.2
    rw [Cond1.tri, Cond1.holds, if_neg (by simp [hl]), hl, triAll, if_neg h2]
    simp only [h3, Bool.not_false, Bool.true_and]
    cases allHold K st l <;> simp
  | .or l, e, hm, h => by
    rw [Cond1.answered] at h
    have hl : l.isEmpty = false := by simpa using h.1
    rw [Cond1.migrate, if_neg (by simp [hl]), Option.map_eq_some_iff] at hm
    obtain ⟨es, h1, rfl⟩ := hm
    obtain ⟨h2, h3, h4⟩ := triList_answered l es h1 h.2
    rw [Cond1.tri, Cond1.holds, if_neg (by simp [hl]), triAny]
    simp only [h4, h2, if_false]
    cases anyHolds K st l <;> simp
theorem triList_answered {K : Ctx} {st : State} : ∀ (l : List Cond1) (es : List Expr),
    migrateList K l = some es → answeredAll K st l →
    none ∉ triList K st l ∧ (some false ∈ triList K st l ↔ allHold K st l = false) ∧
      (some true ∈ triList K st l ↔ anyHolds K st l = true)
  | [], _, _, _ => by simp [triList, allHold, anyHolds]
  | c :: l, es, hm, h => by
    rw [migrateList] at hm
    rw [answeredAll] at h
    cases h1 : c.migrate K with
    | none => rw [h1] at hm; cases hm
    | some e =>
      rw [h1] at hm
      dsimp only at hm
      rw [Option.map_eq_some_iff] at hm
      obtain ⟨es', h2, rfl⟩ := hm
      obtain ⟨h3, h4, h5⟩ := triList_answered l es' h2 h.2
      rw [triList, allHold, anyHolds, tri_answered c e h1 h.1]
      refine ⟨by simp [h3], ?_, ?_⟩
      · simp only [List.mem_cons, Option.some.injEq, h4]
        cases c.holds K st <;> simp
      · simp only [List.mem_cons, Option.some.injEq, h5]
        cases c.holds K st <;> simp
end

mutual
theorem tri_positive {K : Ctx} {st : State} : ∀ (c : Cond1), c.positive →
    (c.tri K st = some true ↔ c.holds K st = true)
  | .varequal r i cs text, _ => by rw [Cond1.tri, Cond1.holds]; exact triAtom_varequal
  | .compare c r i text, _ => by rw [Cond1.tri, Cond1.holds]; exact triAtom_compare
  | .unsupported, _ => by rw [Cond1.tri, Cond1.holds]; simp
  | .other, _ => by rw [Cond1.tri, Cond1.holds]; simp
  | .emptyNot, _ => by rw [Cond1.tri, Cond1.holds]; simp
  | .not c, h => by rw [Cond1.positive] at h; exact h.elim
  | .and l, h => by
    rw [Cond1.positive] at h
    obtain ⟨h1, h2⟩ := triList_positive (K := K) (st := st) l h
    rw [Cond1.tri, Cond1.holds]
    cases hl : l.isEmpty with
    | true => simp
    | false =>
      rw [if_neg (by simp)]
      simp only [Bool.not_false, Bool.true_and, triAll]
      rw [← h1]
      split
      · rename_i hf
        refine ⟨fun h => absurd h (by simp), fun h => absurd (h _ hf) (by simp)⟩
      · rename_i hf
        split
        · rename_i hn
          refine ⟨fun h => absurd h (by simp), fun h => absurd (h _ hn) (by simp)⟩
        · rename_i hn
          simp only [true_iff]
          intro o ho
          rcases o with _ | _ | _
          · exact absurd ho hn
          · exact absurd ho hf
          · rfl
  | .or l, h => by
    rw [Cond1.positive] at h
    obtain ⟨h1, h2⟩ := triList_positive (K := K) (st := st) l h
    rw [Cond1.tri, Cond1.holds]
    cases hl : l with
    | nil => simp [anyHolds]
    | cons a l' =>
      rw [if_neg (by simp), ← hl, ← h2, triAny]
      split
      · rename_i hf; simp [hf]
      · rename_i hf
        simp only [hf, iff_false]
        split <;> simp
theorem triList_positive {K : Ctx} {st : State} : ∀ (l : List Cond1), positiveAll l →
    ((∀ o ∈ triList K st l, o = some true) ↔ allHold K st l = true) ∧
      (some true ∈ triList K st l ↔ anyHolds K st l = true)
  | [], _ => by simp [triList, allHold, anyHolds]
  | c :: l, h => by
    rw [positiveAll] at h
    obtain ⟨h1, h2⟩ := triList_positive (K := K) (st := st) l h.2
    have h3 := tri_positive (K := K) (st := st) c h.1
    rw [triList, allHold, anyHolds]
    constructor
    · simp only [List.mem_cons, forall_eq_or_imp, h3, h1, Bool.and_eq_true]
    · simp only [List.mem_cons, h2, Bool.or_eq_true]
      rw [eq_comm, h3]
end

def triVar (K : Ctx) (st : State) : List Cond1 → Option Bool
  | [c] => c.tri K st
  | l => (Cond1.and l).tri K st

/-- The conditions of a conditionvar are joined by "and". -/
theorem conditionVar_single {K : Ctx} {st : State} (hs : Session K st) (l : List Cond1)
    (e : Expr) (hp : plainAll K l) (hm : migrateConditionVar K l = some e) :
    ∃ v, eval st e = .ok v ∧ IsTri v (triVar K st l) := by
  unfold migrateConditionVar at hm
  split at hm
  · cases hm
    exact ⟨.null, by rw [eval]; rfl, Or.inr ⟨by simp [triVar, Cond1.tri], rfl⟩⟩
  · rename_i c
    rw [plainAll] at hp
    exact cond_eval hs c e hp.1 hm
  · rename_i h1 h2
    have hl : l.isEmpty = false := by
      cases l with
      | nil => exact (h1 rfl).elim
      | cons => rfl
    obtain ⟨v, h3, h4⟩ := cond_eval hs (.and l) e (by rw [Cond1.plain]; exact hp)
      (by rw [Cond1.migrate, if_neg (by simp [hl])]; exact hm)
    refine ⟨v, h3, ?_⟩
    unfold triVar
    split
    · exact (h2 _ rfl).elim
    · exact h4

/-- C168: a condition without `not`: in every session the migrated test is taken exactly when the
version 1 condition holds, also when responses are unanswered or undeclared.  It raises no
exception. -/
theorem C168_positive_partial {K : Ctx} {st : State} (hs : Session K st) (l : List Cond1) (e : Expr)
    (hp : plainAll K l) (hpos : positiveAll l) (hm : migrateConditionVar K l = some e) :
    testCond st (some e) = .ok ((Cond1.and l).holds K st) := by
  obtain ⟨v, h1, h2⟩ := conditionVar_single hs l e hp hm
  rw [testCond_tri h1 h2]
  congr 1
  rw [Bool.eq_iff_iff, beq_iff_eq]
  unfold triVar
  split
  · rename_i c
    rw [positiveAll] at hpos
    rw [tri_positive c hpos.1]
    simp [Cond1.holds, allHold]
  · exact tri_positive (.and l) (by rw [Cond1.positive]; exact hpos)

/-- C168: any condition, with `not` at any depth, when the responses that it looks at have been
answered. -/
theorem C168_answered_partial {K : Ctx} {st : State} (hs : Session K st) (l : List Cond1) (e : Expr)
    (hp : plainAll K l) (hl : l ≠ []) (ha : answeredAll K st l)
    (hm : migrateConditionVar K l = some e) :
    testCond st (some e) = .ok ((Cond1.and l).holds K st) := by
  obtain ⟨v, h1, h2⟩ := conditionVar_single hs l e hp hm
  rw [testCond_tri h1 h2]
  congr 1
  unfold migrateConditionVar at hm
  split at hm
  · exact (hl rfl).elim
  · rename_i c
    rw [answeredAll] at ha
    dsimp only [triVar]
    rw [tri_answered c e hm ha.1]
    simp only [Cond1.holds, allHold]
    cases c.holds K st <;> rfl
  · rename_i h3 h4
    have h5 : l.isEmpty = false := by simpa using hl
    have h6 : (Cond1.and l).tri K st = some ((Cond1.and l).holds K st) :=
      tri_answered (.and l) e (by rw [Cond1.migrate, if_neg (by simp [h5])]; exact hm)
        (by rw [Cond1.answered]; exact ⟨hl, ha⟩)
    unfold triVar
    split
    · exact (h4 _ rfl).elim
    · rw [h6]
      cases (Cond1.and l).holds K st <;> rfl

/-! ### Concrete cases, and where the full claim fails -/

def exD (c : Card) (t : BaseType) : Decl :=
  { kind := .response, card := c, bt := some t, dflt := .null, correct := .null, mapping := none,
    area := none }
/-- R: a single name; S: a container of strings; O: an ordered list of names. -/
def exK : Ctx :=
  { decls := [([82], exD .single .identifier), ([83], exD .multiple .string),
      ([79], exD .ordered .identifier)]
    read := fun t s => if t = .identifier ∨ (t = .string ∧ s ≠ []) then some (.str s) else none }
/-- R unanswered, S = {"a"}, O = [A]. -/
def exSt : State :=
  { decls := exK.decls
    map := [([82], .single (some .identifier) none),
      ([83], .multiple (some .string) (some [(.str [97], 1)])),
      ([79], .ordered (some .identifier) (some [.str [65]]))]
    lower := fun s => s.map fun c => if 65 ≤ c ∧ c ≤ 90 then c + 32 else c }

theorem exSession : Session exK exSt := by
  refine ⟨?_, ?_, ?_⟩
  · intro n d h
    simp only [exK, dget] at h
    split at h
    · rename_i e; subst e; cases h
      exact ⟨_, rfl, by simp [Val.wf], rfl, rfl⟩
    · split at h
      · rename_i e; subst e; cases h
        exact ⟨_, rfl, by simp [Val.wf, Datum.ok], rfl, rfl⟩
      · split at h
        · rename_i e; subst e; cases h
          exact ⟨_, rfl, by simp [Val.wf, Datum.ok], rfl, rfl⟩
        · cases h
  · intro n d h
    simp only [exK, dget] at h
    split at h
    · cases h; decide
    · split at h
      · cases h; decide
      · split at h
        · cases h; decide
        · cases h
  · intro t s y h
    simp only [exK] at h
    split at h
    · rename_i hc
      cases h
      rcases hc with rfl | ⟨rfl, hs⟩
      · trivial
      · exact hs
    · cases h

/-- R is B, or (O has A and S has "a"): no `not`; R is unanswered. -/
def exCond : List Cond1 :=
  [.or [.varequal [82] none false [66],
    .and [.varequal [79] none true [65], .varequal [83] none true [97]]], .other]

example : plainAll exK exCond ∧ positiveAll exCond := by
  refine ⟨?_, by simp [exCond, positiveAll, Cond1.positive]⟩
  simp only [exCond, plainAll, Cond1.plain, and_true]
  refine ⟨?_, ?_, ?_⟩ <;> intro d h <;>
    simp only [exK, dget, Region.validateIdentifier, Region.fixChars] at h
  · obtain rfl : exD .single .identifier = d := Option.some.inj h
    exact ⟨fun h => by simp [exD] at h, fun h => by simp [exD] at h⟩
  · obtain rfl : exD .ordered .identifier = d := Option.some.inj h
    exact ⟨fun _ => Or.inl rfl, fun _ _ => rfl⟩
  · obtain rfl : exD .multiple .string = d := Option.some.inj h
    exact ⟨fun h => by simp [exD] at h, fun _ _ => rfl⟩

example : (migrateConditionVar exK exCond).isSome = true ∧
    (Cond1.and exCond).holds exK exSt = true ∧
    (Cond1.varequal [79] none true [66]).holds exK exSt = false := by decide +kernel

example : answeredAll exK exSt [.not (.varequal [79] none true [66])] := by
  simp only [answeredAll, Cond1.answered, and_true]
  exact ⟨_, _, rfl, rfl, rfl⟩

/-- Where the claim fails, 1: "R is not A", and R was not answered.  In version 1 the condition
holds; the migrated test is NULL and the rule is not applied. -/
theorem C168_violation_not : Session exK exSt ∧
    (Cond1.not (.varequal [82] none true [65])).holds exK exSt = true ∧
    ∃ e, migrateConditionVar exK [.not (.varequal [82] none true [65])] = some e ∧
      testCond exSt (some e) = .ok false :=
  ⟨exSession, by decide +kernel, _, rfl, by decide +kernel⟩

/-- Where the claim fails, 2: "the first answer to O is A", which it is.  The migrated test raises
a processing error: `member` is given a single value instead of a container. -/
theorem C168_violation_index : Session exK exSt ∧
    (Cond1.varequal [79] (some 1) true [65]).holds exK exSt = true ∧
    ∃ e, migrateConditionVar exK [.varequal [79] (some 1) true [65]] = some e ∧
      testCond exSt (some e) = .error .processing :=
  ⟨exSession, by decide +kernel, _, rfl, by decide +kernel⟩

/-- Where the claim fails, 3: "S has "A", whatever the case", and S has "a". -/
theorem C168_violation_case : Session exK exSt ∧
    (Cond1.varequal [83] none false [65]).holds exK exSt = true ∧
    ∃ e, migrateConditionVar exK [.varequal [83] none false [65]] = some e ∧
      testCond exSt (some e) = .ok false :=
  ⟨exSession, by decide +kernel, _, rfl, by decide +kernel⟩

end Verif.Qti1

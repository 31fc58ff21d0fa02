import Mathlib.Data.List.Basic
import Mathlib.Data.List.Nodup
/-!
# Renamed methods, `pyslet/pep8.py:88-230` (C166)

A class is the dictionary of its members; the name of a method is the key under which it is stored.  The order of dictionaries makes no difference to the
code and is not kept.  Warnings are not modelled.
-/
namespace Verif.Compat

abbrev Name := Nat

/-- Methods, class methods and static methods; all other values. -/
inductive Kind where
  | plain | cls | static | value
deriving DecidableEq, Repr

/-- The members of a class: a function, with its `old_method` if it has one; the wrapper made by `old_method` (pep8.py:202-220) of a function; any
other value. -/
inductive Val where
  | func (id : Nat) (kind : Kind) (old : Option Name)
  | wrapper (id : Nat) (kind : Kind)
  | other
deriving DecidableEq, Repr

/-- `type(m)`. -/
def Val.kind : Val → Kind
  | .func _ k _ => k
  | .wrapper _ k => k
  | .other => .value

abbrev Dict := List (Name × Val)

/-- `d[k]`. -/
def Dict.get : Dict → Name → Option Val
  | [], _ => none
  | p :: r, k => if p.1 = k then some p.2 else Dict.get r k

/-- `del d[k]`. -/
def Dict.del (d : Dict) (k : Name) : Dict := d.filter fun p => decide (p.1 ≠ k)

/-- `d[k] = v`. -/
def Dict.set (d : Dict) (k : Name) (v : Val) : Dict := (k, v) :: Dict.del d k

/-- One member `v` (with name `k`) of a base, pep8.py:101-140: `none` for an exception. -/
def override (d : Dict) (k : Name) (v : Val) : Option Dict :=
  match v with
  | .func _ kind (some o) => match d.get o with
    | some w =>
      if w.kind ≠ kind then none
      else if (d.get k).isSome then none
      else match w with
        | .func id kd _ => some ((d.set k (.func id kd (some o))).del o)
        | .wrapper id kd => some ((d.set k (.func id kd (some o))).del o)
        | .other => none
    | none => match d.get k with
      | none => some d
      | some (.func id kd _) => some (d.set k (.func id kd (some o)))
      | some (.wrapper id kd) => some (d.set k (.func id kd (some o)))
      | some .other => none
  | _ => some d

/-- The members of all the bases, in any order. -/
def overrideAll : Dict → List (Name × Val) → Option Dict
  | d, [] => some d
  | d, p :: r => match override d p.1 p.2 with
    | none => none
    | some d => overrideAll d r

/-- The old names, pep8.py:145-155. -/
def addOld (d : Dict) : List (Name × Val) → Dict
  | [] => d
  | (_, .func id kind (some o)) :: r => addOld (d.set o (.wrapper id kind)) r
  | _ :: r => addOld d r

/-- `MigratedMetaclass.__new__`, pep8.py:90-163: the dictionary of the class whose body is `raw`; `bases` are the dictionaries of all the classes in the
resolution orders of its bases. -/
def newClass (bases : List Dict) (raw : Dict) : Option Dict :=
  match overrideAll raw bases.flatten with
  | none => none
  | some d => some (addOld d d)

/-- `getattr(cls, name)`: the first class in the resolution order that has the name. -/
def lookup : List Dict → Name → Option Val
  | [], _ => none
  | d :: r, k => match d.get k with
    | some v => some v
    | none => lookup r k

/-- The function that runs when the member is called (`DeprecatedMethod.call`, pep8.py:188-196). -/
def Val.runs : Val → Option Nat
  | .func id _ _ => some id
  | .wrapper id _ => some id
  | .other => none

/-! ### specification -/

/-- Renames: `R new old`.  No name has two renames, and no name is both a new name and an old one. -/
structure Renames (R : Name → Name → Prop) : Prop where
  old : ∀ n o o', R n o → R n o' → o = o'
  new : ∀ n n' o, R n o → R n' o → n = n'
  apart : ∀ n o x y, R n o → R x y → n ≠ y

/-- A class has a renamed method under both names or under none, and both names run the same function. -/
structure Both (R : Name → Name → Prop) (d : Dict) : Prop where
  nodup : (d.map (·.1)).Nodup
  decorated : ∀ k id kind o, (k, Val.func id kind (some o)) ∈ d → R k o
  both : ∀ n o, R n o → (d.get n = none ∧ d.get o = none) ∨ ∃ id kind, d.get n = some (.func id kind (some o)) ∧ d.get o = some (.wrapper id kind)

/-- The body of a class: renamed methods are decorated as the renames say, and a renamed method that is defined, under either name, is known as such:
it is declared by a base, or it is decorated here. -/
structure Body (R : Name → Name → Prop) (bases : List Dict) (raw : Dict) : Prop where
  nodup : (raw.map (·.1)).Nodup
  decorated : ∀ k id kind o, (k, Val.func id kind (some o)) ∈ raw → R k o
  declared : ∀ n o, R n o → (∃ b ∈ bases, ∃ id kind, b.get n = some (.func id kind (some o))) ∨ (raw.get n = none ∧ raw.get o = none) ∨
    (raw.get o = none ∧ ∃ id kind, raw.get n = some (.func id kind (some o)))

/-- The definition of a renamed method in the body of a class, under either name. -/
def defined (raw : Dict) (n o : Name) : Option Nat :=
  match raw.get n with
  | some v => v.runs
  | none => match raw.get o with
    | some v => v.runs
    | none => none

/-! ### proofs -/

theorem get_del (d : Dict) (a k : Name) : (d.del a).get k = if k = a then none else d.get k := by
  induction d with
  | nil => simp [Dict.del, Dict.get]
  | cons p r ih =>
    unfold Dict.del at ih ⊢
    rw [List.filter_cons]
    by_cases h : p.1 = a
    · simp only [h, ne_eq, not_true_eq_false, decide_false, Bool.false_eq_true, if_false]
      rw [ih]
      by_cases hk : k = a
      · simp [hk]
      · have : ¬ a = k := fun e => hk e.symm
        simp [hk, Dict.get, h, this]
    · simp only [ne_eq, h, not_false_eq_true, decide_true, if_true]
      rw [Dict.get, Dict.get, ih]
      by_cases hk : p.1 = k
      · have : ¬ k = a := fun e => h (hk.trans e)
        simp [hk, this]
      · simp [hk]

theorem get_set (d : Dict) (a k : Name) (v : Val) : (d.set a v).get k = if k = a then some v else d.get k := by
  unfold Dict.set
  rw [Dict.get, get_del]
  by_cases h : k = a
  · simp [h]
  · have : ¬ a = k := fun e => h e.symm
    simp [h, this]

theorem mem_of_get {d : Dict} {k : Name} {v : Val} (h : d.get k = some v) : (k, v) ∈ d := by
  induction d with
  | nil => cases h
  | cons p r ih =>
    rw [Dict.get] at h
    by_cases hk : p.1 = k
    · rw [if_pos hk] at h
      cases h
      subst hk
      simp
    · rw [if_neg hk] at h
      simp [ih h]

theorem get_of_mem {d : Dict} (hn : (d.map (·.1)).Nodup) {k : Name} {v : Val} (h : (k, v) ∈ d) : d.get k = some v := by
  induction d with
  | nil => cases h
  | cons p r ih =>
    rw [List.map_cons, List.nodup_cons] at hn
    rw [Dict.get]
    rcases List.mem_cons.mp h with rfl | h
    · simp
    · have : p.1 ≠ k := fun e => hn.1 (List.mem_map.mpr ⟨(k, v), h, e.symm⟩)
      rw [if_neg this]
      exact ih hn.2 h

theorem mem_del {d : Dict} {a : Name} {p : Name × Val} (h : p ∈ d.del a) : p ∈ d ∧ p.1 ≠ a := by
  simpa [Dict.del] using h

theorem nodup_del {d : Dict} (h : (d.map (·.1)).Nodup) (a : Name) : ((d.del a).map (·.1)).Nodup :=
  h.sublist (List.Sublist.map _ List.filter_sublist)

theorem nodup_set {d : Dict} (h : (d.map (·.1)).Nodup) (a : Name) (v : Val) : ((d.set a v).map (·.1)).Nodup := by
  rw [Dict.set, List.map_cons, List.nodup_cons]
  refine ⟨fun hm => ?_, nodup_del h a⟩
  obtain ⟨p, hp, e⟩ := List.mem_map.mp hm
  exact (mem_del hp).2 e

/-- The decorated members are as the renames say. -/
def Good (R : Name → Name → Prop) (d : Dict) : Prop := (d.map (·.1)).Nodup ∧ ∀ k id kind o, (k, Val.func id kind (some o)) ∈ d → R k o

theorem good_set {R : Name → Name → Prop} {d : Dict} (h : Good R d) (k : Name) (v : Val) (hv : ∀ id kind o, v = .func id kind (some o) → R k o) : Good R (d.set k v) := by
  refine ⟨nodup_set h.1 k v, fun a id kind o hm => ?_⟩
  rcases List.mem_cons.mp hm with e | hm
  · cases e; exact hv _ _ _ rfl
  · exact h.2 a id kind o (mem_del hm).1

theorem good_del {R : Name → Name → Prop} {d : Dict} (h : Good R d) (k : Name) : Good R (d.del k) :=
  ⟨nodup_del h.1 k, fun a id kind o hm => h.2 a id kind o (mem_del hm).1⟩

theorem override_good {R : Name → Name → Prop} {d d' : Dict} {k : Name} {v : Val} (h : Good R d) (hv : ∀ id kind o, v = .func id kind (some o) → R k o)
    (e : override d k v = some d') : Good R d' := by
  have hs : ∀ id kd o id' kind', v = .func id' kind' (some o) → Good R (d.set k (.func id kd (some o))) := by
    intro id kd o id' kind' hvo
    apply good_set h
    intro i j o' he
    cases he
    exact hv _ _ _ hvo
  match v with
  | .func _ _ none => cases e; exact h
  | .wrapper _ _ => cases e; exact h
  | .other => cases e; exact h
  | .func i kind (some o) =>
    unfold override at e
    dsimp only at e
    cases hw : d.get o with
    | some w =>
      rw [hw] at e
      dsimp only at e
      split at e
      · cases e
      · split at e
        · cases e
        · cases w with
          | func id kd x => cases e; exact good_del (hs _ _ _ _ _ rfl) _
          | wrapper id kd => cases e; exact good_del (hs _ _ _ _ _ rfl) _
          | other => cases e
    | none =>
      rw [hw] at e
      dsimp only at e
      cases hk : d.get k with
      | none => rw [hk] at e; cases e; exact h
      | some w =>
        rw [hk] at e
        cases w with
        | func id kd x => cases e; exact hs _ _ _ _ _ rfl
        | wrapper id kd => cases e; exact hs _ _ _ _ _ rfl
        | other => cases e

/-- Members that do not declare the rename of `n` leave both its names alone. -/
theorem override_other {R : Name → Name → Prop} (hR : Renames R) {n o : Name} (hno : R n o) {d d' : Dict} {k : Name} {v : Val}
    (hv : ∀ id kind o, v = .func id kind (some o) → R k o) (hne : ∀ id kind, ¬ (k = n ∧ v = .func id kind (some o))) (e : override d k v = some d') :
    d'.get n = d.get n ∧ d'.get o = d.get o := by
  match v with
  | .func _ _ none => cases e; exact ⟨rfl, rfl⟩
  | .wrapper _ _ => cases e; exact ⟨rfl, rfl⟩
  | .other => cases e; exact ⟨rfl, rfl⟩
  | .func i kind (some y) =>
    have hky := hv _ _ _ rfl
    have hkn : n ≠ k := by
      rintro rfl
      have := hR.old _ _ _ hky hno
      subst this
      exact hne _ _ ⟨rfl, rfl⟩
    have hyo : o ≠ y := by
      rintro rfl
      exact hkn (hR.new _ _ _ hno hky)
    have hny : n ≠ y := hR.apart _ _ _ _ hno hky
    have hok : o ≠ k := fun e => hR.apart _ _ _ _ hky hno e.symm
    have key : ∀ w, ((d.set k w).get n = d.get n ∧ (d.set k w).get o = d.get o) ∧ (((d.set k w).del y).get n = d.get n ∧ ((d.set k w).del y).get o = d.get o) := by
      intro w
      simp [get_set, get_del, hkn, hyo, hny, hok]
    unfold override at e
    dsimp only at e
    cases hw : d.get y with
    | some w =>
      rw [hw] at e
      dsimp only at e
      split at e
      · cases e
      · split at e
        · cases e
        · cases w with
          | func id kd x => cases e; exact (key _).2
          | wrapper id kd => cases e; exact (key _).2
          | other => cases e
    | none =>
      rw [hw] at e
      dsimp only at e
      cases hk : d.get k with
      | none => rw [hk] at e; cases e; exact ⟨rfl, rfl⟩
      | some w =>
        rw [hk] at e
        cases w with
        | func id kd x => cases e; exact (key _).1
        | wrapper id kd => cases e; exact (key _).1
        | other => cases e

/-- A member that declares the rename of `n`. -/
theorem override_this {R : Name → Name → Prop} (hR : Renames R) {n o : Name} (hno : R n o) {d d' : Dict} {i : Nat} {kind : Kind}
    (e : override d n (.func i kind (some o)) = some d') :
    d'.get o = none ∧ ((d'.get n = none ∧ defined d n o = none ∧ d.get n = none ∧ d.get o = none) ∨ ∃ id kd, d'.get n = some (.func id kd (some o)) ∧ defined d n o = some id) := by
  have hon : o ≠ n := fun e => hR.apart _ _ _ _ hno hno e.symm
  have hnn : n ≠ o := fun e => hon e.symm
  unfold override at e
  dsimp only at e
  unfold defined
  cases hw : d.get o with
  | some w =>
    rw [hw] at e
    dsimp only at e
    split at e
    · cases e
    · split at e
      · cases e
      · rename_i h2
        have h3 : d.get n = none := by simpa using h2
        rw [h3]
        cases w with
        | func id kd x => cases e; exact ⟨by simp [get_del], .inr ⟨id, kd, by simp [get_del, get_set, hnn], rfl⟩⟩
        | wrapper id kd => cases e; exact ⟨by simp [get_del], .inr ⟨id, kd, by simp [get_del, get_set, hnn], rfl⟩⟩
        | other => cases e
  | none =>
    rw [hw] at e
    dsimp only at e
    cases hk : d.get n with
    | none => rw [hk] at e; cases e; exact ⟨hw, .inl ⟨hk, rfl, rfl, rfl⟩⟩
    | some w =>
      rw [hk] at e
      cases w with
      | func id kd x => cases e; exact ⟨by simp [get_set, hon, hw], .inr ⟨id, kd, by simp [get_set], rfl⟩⟩
      | wrapper id kd => cases e; exact ⟨by simp [get_set, hon, hw], .inr ⟨id, kd, by simp [get_set], rfl⟩⟩
      | other => cases e

/-- The state of a renamed method after its declaration has been seen: `x` is its definition. -/
def Done (d : Dict) (n o : Name) (x : Option Nat) : Prop :=
  d.get o = none ∧ ((d.get n = none ∧ x = none) ∨ ∃ id kd, d.get n = some (.func id kd (some o)) ∧ x = some id)

theorem done_this {R : Name → Name → Prop} (hR : Renames R) {n o : Name} (hno : R n o) {d d' : Dict} {i : Nat} {kind : Kind} {x : Option Nat} (h : Done d n o x)
    (e : override d n (.func i kind (some o)) = some d') : Done d' n o x := by
  obtain ⟨h1, h2⟩ := override_this hR hno e
  refine ⟨h1, ?_⟩
  have hx : defined d n o = x := by
    unfold defined
    rw [h.1]
    rcases h.2 with ⟨a, b⟩ | ⟨id, kd, a, b⟩ <;> rw [a, b] <;> rfl
  rw [hx] at h2
  rcases h2 with ⟨a, b, -⟩ | h2
  · exact .inl ⟨a, b⟩
  · exact .inr h2

theorem overrideAll_pair {R : Name → Name → Prop} (hR : Renames R) {n o : Name} (hno : R n o) : ∀ (es : List (Name × Val)) (d d' : Dict),
    (∀ k id kind o, (k, Val.func id kind (some o)) ∈ es → R k o) → overrideAll d es = some d' →
    ((∀ id kind, (n, Val.func id kind (some o)) ∉ es) → d'.get n = d.get n ∧ d'.get o = d.get o) ∧
    (∀ x, Done d n o x → Done d' n o x) ∧
    ((∃ id kind, (n, Val.func id kind (some o)) ∈ es) → Done d' n o (defined d n o)) := by
  intro es
  induction es with
  | nil =>
    intro d d' _ e
    cases e
    exact ⟨fun _ => ⟨rfl, rfl⟩, fun _ h => h, fun ⟨_, _, h⟩ => by cases h⟩
  | cons p es ih =>
    intro d d' hes e
    rw [overrideAll] at e
    cases hd : override d p.1 p.2 with
    | none => rw [hd] at e; cases e
    | some d1 =>
      rw [hd] at e
      dsimp only at e
      obtain ⟨i1, i2, i3⟩ := ih d1 d' (fun k id kind o h => hes k id kind o (by simp [h])) e
      by_cases hp : ∃ id kind, p.1 = n ∧ p.2 = .func id kind (some o)
      · obtain ⟨id, kind, e1, e2⟩ := hp
        rw [e1, e2] at hd
        refine ⟨fun h => absurd (show (n, Val.func id kind (some o)) ∈ p :: es by rw [← e1, ← e2]; simp) (h id kind), fun x hx => i2 x (done_this hR hno hx hd), fun _ => ?_⟩
        apply i2
        obtain ⟨h1, h2⟩ := override_this hR hno hd
        refine ⟨h1, ?_⟩
        rcases h2 with ⟨a, b, -⟩ | h2
        · exact .inl ⟨a, b⟩
        · exact .inr h2
      · have hsame := override_other hR hno (k := p.1) (v := p.2) (fun id kind o h => hes p.1 id kind o (by rw [← h]; simp)) (fun id kind h => hp ⟨id, kind, h.1, h.2⟩) hd
        refine ⟨fun h => ?_, fun x hx => ?_, fun h => ?_⟩
        · obtain ⟨a, b⟩ := i1 (fun id kind hm => h id kind (by simp [hm]))
          exact ⟨a.trans hsame.1, b.trans hsame.2⟩
        · apply i2
          unfold Done at hx ⊢
          rwa [hsame.1, hsame.2]
        · obtain ⟨id, kind, hm⟩ := h
          rcases List.mem_cons.mp hm with hm | hm
          · exact absurd ⟨id, kind, by rw [← hm], by rw [← hm]⟩ hp
          · have := i3 ⟨id, kind, hm⟩
            unfold defined at this ⊢
            rwa [hsame.1, hsame.2] at this

theorem overrideAll_good {R : Name → Name → Prop} : ∀ (es : List (Name × Val)) (d d' : Dict), (∀ k id kind o, (k, Val.func id kind (some o)) ∈ es → R k o) → Good R d →
    overrideAll d es = some d' → Good R d' := by
  intro es
  induction es with
  | nil => intro d d' _ h e; cases e; exact h
  | cons p es ih =>
    intro d d' hes h e
    rw [overrideAll] at e
    cases hd : override d p.1 p.2 with
    | none => rw [hd] at e; cases e
    | some d1 =>
      rw [hd] at e
      exact ih d1 d' (fun k id kind o hm => hes k id kind o (by simp [hm])) (override_good h (fun id kind o hv => hes p.1 id kind o (by rw [← hv]; simp)) hd) e

theorem addOld_good {R : Name → Name → Prop} : ∀ (es : List (Name × Val)) (d : Dict), Good R d → Good R (addOld d es) := by
  intro es
  induction es with
  | nil => intro d h; exact h
  | cons p es ih =>
    intro d h
    match p with
    | (k, .func id kind (some o)) => rw [addOld]; exact ih _ (good_set h o _ (by intro _ _ _ e; cases e))
    | (k, .func id kind none) => rw [addOld]; exact ih _ h; simp
    | (k, .wrapper id kind) => rw [addOld]; exact ih _ h; simp
    | (k, .other) => rw [addOld]; exact ih _ h; simp

theorem addOld_pair {R : Name → Name → Prop} (hR : Renames R) {n o : Name} (hno : R n o) : ∀ (es : List (Name × Val)) (d : Dict),
    (∀ k id kind o, (k, Val.func id kind (some o)) ∈ es → R k o) →
    (addOld d es).get n = d.get n ∧
    ((∀ id kind, (n, Val.func id kind (some o)) ∉ es) → (addOld d es).get o = d.get o) ∧
    (∀ id kind, (∀ id' kind', (n, Val.func id' kind' (some o)) ∈ es → id' = id ∧ kind' = kind) →
      ((n, Val.func id kind (some o)) ∈ es ∨ d.get o = some (.wrapper id kind)) → (addOld d es).get o = some (.wrapper id kind)) := by
  intro es
  induction es with
  | nil => intro d _; exact ⟨rfl, fun _ => rfl, fun id kind _ h => h.elim (fun h => by cases h) (fun h => h)⟩
  | cons p es ih =>
    intro d hes
    have skip : (∀ id kind o, p.2 ≠ .func id kind (some o)) → addOld d (p :: es) = addOld d es := by
      intro h
      match p, h with
      | (k, .func id kind (some o)), h => exact absurd rfl (h id kind o)
      | (k, .func id kind none), _ => rw [addOld]; simp
      | (k, .wrapper id kind), _ => rw [addOld]; simp
      | (k, .other), _ => rw [addOld]; simp
    by_cases hp : ∃ id kind y, p.2 = .func id kind (some y)
    · obtain ⟨id, kind, y, hp⟩ := hp
      obtain ⟨k, v⟩ := p
      dsimp only at hp
      subst hp
      rw [addOld]
      obtain ⟨i1, i2, i3⟩ := ih (d.set y (.wrapper id kind)) (fun k id kind o hm => hes k id kind o (by simp [hm]))
      have hky := hes k id kind y (by simp)
      have hny : n ≠ y := hR.apart _ _ _ _ hno hky
      refine ⟨by rw [i1, get_set, if_neg hny], fun h => ?_, fun id' kind' hu hm => ?_⟩
      · have hoy : o ≠ y := by
          rintro rfl
          have := hR.new _ _ _ hno hky
          subst this
          exact h id kind (by simp)
        rw [i2 (fun a b hm => h a b (by simp [hm])), get_set, if_neg hoy]
      · by_cases hoy : o = y
        · subst hoy
          have := hR.new _ _ _ hno hky
          subst this
          obtain ⟨rfl, rfl⟩ := hu id kind (by simp)
          exact i3 _ _ (fun a b hm => hu a b (by simp [hm])) (.inr (by rw [get_set, if_pos rfl]))
        · refine i3 _ _ (fun a b hm => hu a b (by simp [hm])) ?_
          rcases hm with hm | hm
          · rcases List.mem_cons.mp hm with e | hm
            · cases e; exact absurd rfl hoy
            · exact .inl hm
          · exact .inr (by rw [get_set, if_neg hoy]; exact hm)
    · have hs := skip (fun id kind y e => hp ⟨id, kind, y, e⟩)
      rw [hs]
      obtain ⟨i1, i2, i3⟩ := ih d (fun k id kind o hm => hes k id kind o (by simp [hm]))
      refine ⟨i1, fun h => i2 (fun a b hm => h a b (by simp [hm])), fun id kind hu hm => i3 id kind (fun a b hm => hu a b (by simp [hm])) ?_⟩
      rcases hm with hm | hm
      · rcases List.mem_cons.mp hm with e | hm
        · exact absurd ⟨id, kind, o, by rw [← e]⟩ hp
        · exact .inl hm
      · exact .inr hm

/-- **C166**: the class that is made has every renamed method under both names or under none, and both run the definition in the body of the class,
under whichever name that is written. -/
theorem C166_new_class (R : Name → Name → Prop) (hR : Renames R) (bases : List Dict) (hb : ∀ b ∈ bases, Both R b) (raw d : Dict) (hraw : Body R bases raw)
    (e : newClass bases raw = some d) :
    Both R d ∧ ∀ n o, R n o → (d.get n).bind Val.runs = defined raw n o ∧ (d.get o).bind Val.runs = defined raw n o := by
  unfold newClass at e
  cases hd : overrideAll raw bases.flatten with
  | none => rw [hd] at e; cases e
  | some d1 =>
    rw [hd] at e
    cases e
    have hes : ∀ k id kind o, (k, Val.func id kind (some o)) ∈ bases.flatten → R k o := by
      intro k id kind o hm
      obtain ⟨b, hb1, hb2⟩ := List.mem_flatten.mp hm
      exact (hb b hb1).decorated k id kind o hb2
    have hg : Good R d1 := overrideAll_good _ _ _ hes ⟨hraw.nodup, hraw.decorated⟩ hd
    have hg2 := addOld_good d1 d1 hg
    have main : ∀ n o, R n o → Done d1 n o (defined raw n o) := by
      intro n o hno
      obtain ⟨p1, p2, p3⟩ := overrideAll_pair hR hno _ _ _ hes hd
      rcases hraw.declared n o hno with ⟨b, hb1, id, kind, hb2⟩ | ⟨h1, h2⟩ | ⟨h1, id, kind, h2⟩
      · exact p3 ⟨id, kind, List.mem_flatten.mpr ⟨b, hb1, mem_of_get hb2⟩⟩
      · apply p2
        exact ⟨h2, .inl ⟨h1, by simp [defined, h1, h2]⟩⟩
      · apply p2
        exact ⟨h1, .inr ⟨id, kind, h2, by simp [defined, h2, Val.runs]⟩⟩
    have fin : ∀ n o, R n o → ((addOld d1 d1).get n = none ∧ (addOld d1 d1).get o = none ∧ defined raw n o = none) ∨
        ∃ id kind, (addOld d1 d1).get n = some (.func id kind (some o)) ∧ (addOld d1 d1).get o = some (.wrapper id kind) ∧ defined raw n o = some id := by
      intro n o hno
      obtain ⟨q1, q2, q3⟩ := addOld_pair hR hno d1 d1 hg.2
      obtain ⟨m1, m2⟩ := main n o hno
      rcases m2 with ⟨m2, m3⟩ | ⟨id, kd, m2, m3⟩
      · left
        refine ⟨by rw [q1, m2], ?_, m3⟩
        rw [q2 ?_, m1]
        intro a b hm
        rw [get_of_mem hg.1 hm] at m2
        cases m2
      · right
        refine ⟨id, kd, by rw [q1, m2], q3 id kd ?_ (.inl (mem_of_get m2)), m3⟩
        intro a b hm
        have := get_of_mem hg.1 hm
        rw [m2] at this
        cases this
        exact ⟨rfl, rfl⟩
    refine ⟨⟨hg2.1, hg2.2, fun n o hno => ?_⟩, fun n o hno => ?_⟩
    · rcases fin n o hno with ⟨a, b, -⟩ | ⟨id, kind, a, b, -⟩
      · exact .inl ⟨a, b⟩
      · exact .inr ⟨id, kind, a, b⟩
    · rcases fin n o hno with ⟨a, b, c⟩ | ⟨id, kind, a, b, c⟩ <;> rw [a, b, c] <;> exact ⟨rfl, rfl⟩

/-- **C166**: in every resolution order of such classes the old name and the new name run the same function. -/
theorem C166_lookup (R : Name → Name → Prop) (mro : List Dict) (h : ∀ d ∈ mro, Both R d) (n o : Name) (hno : R n o) :
    (lookup mro n).bind Val.runs = (lookup mro o).bind Val.runs ∧ ((lookup mro n).isSome ↔ (lookup mro o).isSome) := by
  induction mro with
  | nil => exact ⟨rfl, Iff.rfl⟩
  | cons d r ih =>
    rw [lookup, lookup]
    rcases (h d (by simp)).both n o hno with ⟨a, b⟩ | ⟨id, kind, a, b⟩
    · rw [a, b]
      exact ih (fun x hx => h x (by simp [hx]))
    · rw [a, b]
      exact ⟨rfl, by simp⟩

/-- **C166**: the new class runs its own definition under both names, and without one the inherited one. -/
theorem C166_override (R : Name → Name → Prop) (hR : Renames R) (bases : List Dict) (hb : ∀ b ∈ bases, Both R b) (raw d : Dict) (hraw : Body R bases raw)
    (e : newClass bases raw = some d) (n o : Name) (hno : R n o) (name : Name) (hname : name = n ∨ name = o) :
    (lookup (d :: bases) name).bind Val.runs = match defined raw n o with
      | some f => some f
      | none => (lookup bases n).bind Val.runs := by
  obtain ⟨h1, h2⟩ := C166_new_class R hR bases hb raw d hraw e
  have h3 := C166_lookup R bases hb n o hno
  obtain ⟨h4, h5⟩ := h2 n o hno
  rcases h1.both n o hno with ⟨a, b⟩ | ⟨id, kind, a, b⟩
  · rw [a] at h4
    rw [← h4]
    rcases hname with rfl | rfl
    · rw [lookup, a]; rfl
    · rw [lookup, b]; exact h3.1.symm
  · rw [a] at h4
    rw [← h4]
    rcases hname with rfl | rfl
    · rw [lookup, a]; rfl
    · rw [lookup, b]; rfl

/-- A renamed method in the body of a class is in order: a definition under the old name is a method of the same type as that of the base, and there is
none under the new name; a definition under the new name is a method. -/
def InOrder (raw : Dict) (n o : Name) (kind : Kind) : Prop :=
  (∀ w, raw.get o = some w → w.kind = kind ∧ raw.get n = none ∧ w ≠ .other) ∧ raw.get n ≠ some .other

theorem override_some {d : Dict} {n o : Name} {i : Nat} {kind : Kind} (h : InOrder d n o kind) : ∃ d', override d n (.func i kind (some o)) = some d' := by
  unfold override
  dsimp only
  cases hw : d.get o with
  | some w =>
    obtain ⟨h1, h2, h3⟩ := h.1 w hw
    dsimp only
    rw [if_neg (by simp [h1]), h2, if_neg (by simp)]
    cases w with
    | func id kd x => exact ⟨_, rfl⟩
    | wrapper id kd => exact ⟨_, rfl⟩
    | other => exact absurd rfl h3
  | none =>
    dsimp only
    cases hk : d.get n with
    | none => exact ⟨_, rfl⟩
    | some w =>
      cases w with
      | func id kd x => exact ⟨_, rfl⟩
      | wrapper id kd => exact ⟨_, rfl⟩
      | other => exact absurd hk h.2

theorem overrideAll_some {R : Name → Name → Prop} (hR : Renames R) : ∀ (es : List (Name × Val)) (d : Dict), (∀ k id kind o, (k, Val.func id kind (some o)) ∈ es → R k o) →
    (∀ n id kind o, (n, Val.func id kind (some o)) ∈ es → InOrder d n o kind) → ∃ d', overrideAll d es = some d' := by
  intro es
  induction es with
  | nil => intro d _ _; exact ⟨d, rfl⟩
  | cons p es ih =>
    intro d hes hin
    have hstep : ∃ d1, override d p.1 p.2 = some d1 := by
      obtain ⟨k, v⟩ := p
      match v with
      | .func _ _ none => exact ⟨d, rfl⟩
      | .wrapper _ _ => exact ⟨d, rfl⟩
      | .other => exact ⟨d, rfl⟩
      | .func i kind (some o) => exact override_some (hin k i kind o (by simp))
    obtain ⟨d1, hd⟩ := hstep
    rw [overrideAll, hd]
    refine ih d1 (fun k id kind o hm => hes k id kind o (by simp [hm])) ?_
    intro n id kind o hm
    have hno := hes n id kind o (by simp [hm])
    by_cases hp : ∃ id kind, p.1 = n ∧ p.2 = .func id kind (some o)
    · obtain ⟨id', kind', e1, e2⟩ := hp
      rw [e1, e2] at hd
      obtain ⟨h1, h2⟩ := override_this hR hno hd
      refine ⟨(fun w hw => by rw [h1] at hw; cases hw), ?_⟩
      rcases h2 with ⟨a, -⟩ | ⟨a, b, c, -⟩
      · rw [a]; simp
      · rw [c]; simp
    · have hsame := override_other hR hno (k := p.1) (v := p.2) (fun id kind o h => hes p.1 id kind o (by rw [← h]; simp)) (fun id kind h => hp ⟨id, kind, h.1, h.2⟩) hd
      have := hin n id kind o (by simp [hm])
      unfold InOrder at this ⊢
      rwa [hsame.1, hsame.2]

/-- **C166**: a class is accepted if its definitions are in order. -/
theorem C166_accepted (R : Name → Name → Prop) (hR : Renames R) (bases : List Dict) (hb : ∀ b ∈ bases, Both R b) (raw : Dict)
    (h : ∀ b ∈ bases, ∀ n id kind o, b.get n = some (.func id kind (some o)) → InOrder raw n o kind) : ∃ d, newClass bases raw = some d := by
  have hes : ∀ k id kind o, (k, Val.func id kind (some o)) ∈ bases.flatten → R k o := by
    intro k id kind o hm
    obtain ⟨b, hb1, hb2⟩ := List.mem_flatten.mp hm
    exact (hb b hb1).decorated k id kind o hb2
  obtain ⟨d, hd⟩ := overrideAll_some hR bases.flatten raw hes (by
    intro n id kind o hm
    obtain ⟨b, hb1, hb2⟩ := List.mem_flatten.mp hm
    exact h b hb1 n id kind o (get_of_mem (hb b hb1).nodup hb2))
  exact ⟨_, by rw [newClass, hd]⟩

/-- **C166**: a class that defines a renamed method of its base under both names, or under the old name as another type of method, is refused (TypeError). -/
theorem C166_refused (base raw : Dict) (n o : Name) (id : Nat) (kind : Kind) (hb : base = [(n, .func id kind (some o))]) (w : Val) (hw : raw.get o = some w)
    (h : (raw.get n).isSome ∨ w.kind ≠ kind) : newClass [base] raw = none := by
  subst hb
  rw [newClass]
  rw [show [[(n, Val.func id kind (some o))]].flatten = [(n, Val.func id kind (some o))] from rfl, overrideAll]
  unfold override
  dsimp only
  rw [hw]
  dsimp only
  rcases h with h | h
  · by_cases hk : w.kind ≠ kind
    · rw [if_pos hk]
    · rw [if_neg hk, if_pos h]
  · rw [if_pos h]

/-! ### the hypotheses are met -/

/-- The rename of 1 (old) to 2 (new). -/
def demoR (n o : Name) : Prop := n = 2 ∧ o = 1

theorem demoR_ok : Renames demoR where
  old := by rintro n o o' ⟨-, rfl⟩ ⟨-, rfl⟩; rfl
  new := by rintro n n' o ⟨rfl, -⟩ ⟨rfl, -⟩; rfl
  apart := by rintro n o x y ⟨rfl, -⟩ ⟨-, rfl⟩; decide

/-- `class Base`: `@old_method(1) def 2` is function 10. -/
def demoBase : Dict := [(2, .func 10 .plain (some 1)), (1, .wrapper 10 .plain)]

theorem demoBase_made : newClass [] [(2, .func 10 .plain (some 1))] = some [(1, .wrapper 10 .plain), (2, .func 10 .plain (some 1))] := by decide +kernel

theorem demoBase_ok : Both demoR demoBase where
  nodup := by decide
  decorated := by
    intro k id kind o hm
    simp [demoBase] at hm
    exact ⟨hm.1, hm.2.2.2⟩
  both := by rintro n o ⟨rfl, rfl⟩; right; exact ⟨10, .plain, rfl, rfl⟩

/-- A class that overrides the method under its old name, with function 20: both names run it. -/
example : Body demoR [demoBase] [(1, .func 20 .plain none)] ∧
    (newClass [demoBase] [(1, .func 20 .plain none)]).map (fun d => ((lookup [d, demoBase] 1).bind Val.runs, (lookup [d, demoBase] 2).bind Val.runs)) = some (some 20, some 20) := by
  refine ⟨⟨by decide, by intro k id kind o hm; simp at hm, ?_⟩, by decide +kernel⟩
  rintro n o ⟨rfl, rfl⟩
  left
  exact ⟨demoBase, by simp, 10, .plain, rfl⟩

/-- Both names in one class, or another type of method: TypeError. -/
example : newClass [demoBase] [(1, .func 20 .plain none), (2, .func 21 .plain none)] = none ∧ newClass [demoBase] [(1, .func 20 .static none)] = none := by decide +kernel

/-- **C166** (violation): a base that was not made from the declaring class and overrides the method under its old name: the two names run different
functions (`class Mixin: def Old…`, `class D(Mixin, Base)`). -/
theorem C166_mixin_violation : ∃ mixin d : Dict, newClass [mixin, demoBase] [] = some d ∧ (lookup [d, mixin, demoBase] 1).bind Val.runs ≠ (lookup [d, mixin, demoBase] 2).bind Val.runs :=
  ⟨[(1, .func 30 .plain none)], [], by decide +kernel, by decide +kernel⟩

end Verif.Compat

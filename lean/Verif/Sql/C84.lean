import Verif.Sql.ExprProps
import Mathlib.Data.List.Forall2
/-!
# C84 and C85: the SQL text of an OData expression
-/
namespace Verif.Sql
open Verif.OData

/-! ### Induction over expressions -/

mutual
/-- The expression with other literals. -/
def mapLit (g : Val → Val) : Expr → Expr
  | .none => .none
  | .lit v => .lit (g v)
  | .prop n => .prop n
  | .node op args => .node op (mapLits g args)
/-- The operands with other literals. -/
def mapLits (g : Val → Val) : List Expr → List Expr
  | [] => []
  | e :: es => mapLit g e :: mapLits g es
end

mutual
theorem memberPath_mapLit (g : Val → Val) : ∀ e, memberPath (mapLit g e) = memberPath e
  | .none => rfl
  | .lit v => rfl
  | .prop n => rfl
  | .node op args => by
    show nodePath op (memberPaths (mapLits g args)) = nodePath op (memberPaths args)
    rw [memberPaths_mapLits g args]
theorem memberPaths_mapLits (g : Val → Val) : ∀ es, memberPaths (mapLits g es) = memberPaths es
  | [] => rfl
  | e :: es => by
    show memberPath (mapLit g e) :: memberPaths (mapLits g es) = memberPath e :: memberPaths es
    rw [memberPath_mapLit g e, memberPaths_mapLits g es]
end

mutual
theorem mapLit_id : ∀ e, mapLit id e = e
  | .none => rfl
  | .lit v => rfl
  | .prop n => rfl
  | .node op args => by show Expr.node op (mapLits id args) = _; rw [mapLits_id args]
theorem mapLits_id : ∀ es, mapLits id es = es
  | [] => rfl
  | e :: es => by show mapLit id e :: mapLits id es = _; rw [mapLit_id e, mapLits_id es]
end

/-- A relation between translations that the constructions respect. -/
structure Cong (P Q : Params) (g : Val → Val) (R : Gen P → Gen Q → Prop) : Prop where
  none : R (fun _ _ => Option.none) (fun _ _ => Option.none)
  percent : R percent percent
  col : ∀ c : Option Str, R (fun _ ps => c.map fun c => ([.col c], ps)) (fun _ ps => c.map fun c => ([.col c], ps))
  lit : ∀ v, R (fun _ ps => some ([(P.add ps v).1], (P.add ps v).2))
    (fun _ ps => some ([(Q.add ps (g v)).1], (Q.add ps (g v)).2))
  binary : ∀ o f g f' g', R f f' → R g g' → R (binary o f g) (binary o f' g')
  call1 : ∀ m f f', R f f' → R (call1 m f) (call1 m f')
  call2 : ∀ m f g f' g', R f f' → R g g' → R (call2 m f g) (call2 m f' g')

theorem sqlNode_rel {P Q : Params} {g : Val → Val} {R : Gen P → Gen Q → Prop} (h : Cong P Q g R) (cols : Cols) (op : Op)
    (path : Option (List Str)) {fs : List (Gen P)} {gs : List (Gen Q)} (ha : List.Forall₂ R fs gs) :
    R (sqlNode cols op path fs) (sqlNode cols op path gs) := by
  cases ha with
  | nil =>
    cases op with
    | member => exact h.col _
    | call m => cases m <;> exact h.none
    | _ => exact h.none
  | @cons f f' fs gs h1 ha =>
    cases ha with
    | nil =>
      cases op with
      | member => exact h.col _
      | call m => cases m <;> first | exact h.none | exact h.call1 _ _ _ h1
      | _ => exact h.none
    | cons h2 ha =>
      cases op with
      | member => exact h.col _
      | call m =>
        cases m <;> first
          | exact h.none
          | exact h.call1 _ _ _ h1
          | exact h.binary _ _ _ _ _ h1 (h.binary _ _ _ _ _ h.percent h2)
          | exact h.binary _ _ _ _ _ h1 (h.binary _ _ _ _ _ h2 h.percent)
          | exact h.binary _ _ _ _ _ h2 (h.binary _ _ _ _ _ h.percent (h.binary _ _ _ _ _ h1 h.percent))
          | exact h.binary _ _ _ _ _ h1 h2
          | exact h.call2 _ _ _ _ _ h1 h2
      | _ => first | exact h.none | exact h.binary _ _ _ _ _ h1 h2

mutual
theorem sqlExpr_rel {P Q : Params} {g : Val → Val} {R : Gen P → Gen Q → Prop} (h : Cong P Q g R) (cols : Cols) :
    ∀ e, R (sqlExpr P cols e) (sqlExpr Q cols (mapLit g e))
  | .none => h.none
  | .lit v => h.lit v
  | .prop n => h.col (cols [n])
  | .node op args => by
    show R (sqlNode cols op (nodePath op (memberPaths args)) (sqlArgs P cols args))
      (sqlNode cols op (nodePath op (memberPaths (mapLits g args))) (sqlArgs Q cols (mapLits g args)))
    rw [memberPaths_mapLits]
    exact sqlNode_rel h cols op _ (sqlArgs_rel h cols args)
theorem sqlArgs_rel {P Q : Params} {g : Val → Val} {R : Gen P → Gen Q → Prop} (h : Cong P Q g R) (cols : Cols) :
    ∀ es, List.Forall₂ R (sqlArgs P cols es) (sqlArgs Q cols (mapLits g es))
  | [] => .nil
  | e :: es => .cons (sqlExpr_rel h cols e) (sqlArgs_rel h cols es)
end

theorem relPos_cong : Cong positional inlined id RelPos where
  none := RelPos.none
  percent := RelPos.percent
  col := by
    intro c ctx ps ts ps' h
    cases c with
    | none => exact absurd h (by simp)
    | some c =>
      obtain ⟨rfl, rfl⟩ := Prod.mk.inj (Option.some.inj h)
      exact ⟨[], by simp, rfl, rfl⟩
  lit := by
    intro v ctx ps ts ps' h
    obtain ⟨rfl, rfl⟩ := Prod.mk.inj (Option.some.inj h)
    exact ⟨[v], rfl, rfl, rfl⟩
  binary := fun o _ _ _ _ hf hg => RelPos.binary o hf hg
  call1 := fun m _ _ hf => RelPos.call1 m hf
  call2 := fun m _ _ _ _ hf hg => RelPos.call2 m hf hg

theorem relIdx_cong : Cong indexed inlined id RelIdx where
  none := RelIdx.none
  percent := RelIdx.percent
  col := by
    intro c ctx ps ts ps' h
    cases c with
    | none => exact absurd h (by simp)
    | some c =>
      obtain ⟨rfl, rfl⟩ := Prod.mk.inj (Option.some.inj h)
      exact ⟨[], by simp, fun _ => rfl⟩
  lit := by
    intro v ctx ps ts ps' h
    obtain ⟨rfl, rfl⟩ := Prod.mk.inj (Option.some.inj h)
    refine ⟨[v], rfl, fun ws => ?_⟩
    simp [bindIdx]
  binary := fun o _ _ _ _ hf hg => RelIdx.binary o hf hg
  call1 := fun m _ _ hf => RelIdx.call1 m hf
  call2 := fun m _ _ _ _ hf hg => RelIdx.call2 m hf hg

/-! ### The reading of the text -/

variable {D : Type}

/-- Every text that the translation produces has a reading with the meaning `d`; outside brackets it has only
operators that bind as tightly as `top`. -/
def GenOk (S : Sem D) (f : Gen inlined) (top : Option BOp) (d : Option D) : Prop :=
  ∀ ctx ts, f ctx () = some (ts, ()) → ∃ a, d = some (a.den S) ∧
    ∀ n, (∀ o, top = some o → ctx ≤ o.prec → n ≤ o.lvl) → Derives n ts a

theorem derives_assoc (S : Sem D) (o : BOp) (hsole : ∀ q : BOp, q.lvl = o.lvl → q = o)
    (hassoc : ∀ a b c, S.bin o (S.bin o a b) c = S.bin o a (S.bin o b c)) {ts : List Tok} {a : Ast}
    (ha : Derives o.lvl ts a) : ∀ {n : Nat} {us : List Tok} {b : Ast}, Derives n us b → n = o.lvl →
      ∃ c, Derives o.lvl (ts ++ .op o :: us) c ∧ c.den S = S.bin o (a.den S) (b.den S) := by
  intro n us b hb
  induction hb with
  | col c => intro hn; exact ⟨_, .bin o (Nat.le_refl _) ha (.col c), rfl⟩
  | val v => intro hn; exact ⟨_, .bin o (Nat.le_refl _) ha (.val v), rfl⟩
  | pct => intro hn; exact ⟨_, .bin o (Nat.le_refl _) ha .pct, rfl⟩
  | paren h => intro hn; exact ⟨_, .bin o (Nat.le_refl _) ha (.paren h), rfl⟩
  | fn1 h => intro hn; exact ⟨_, .bin o (Nat.le_refl _) ha (.fn1 h), rfl⟩
  | fn2 h h' => intro hn; exact ⟨_, .bin o (Nat.le_refl _) ha (.fn2 h h'), rfl⟩
  | @bin n us vs b c q hq hb hc ih1 _ =>
    intro hn
    by_cases heq : q.lvl = o.lvl
    · have := hsole q heq
      subst this
      obtain ⟨e, he, hd⟩ := ih1 rfl
      refine ⟨.bin q e c, ?_, ?_⟩
      · have hx : ts ++ Tok.op q :: (us ++ Tok.op q :: vs) = (ts ++ Tok.op q :: us) ++ Tok.op q :: vs := by simp
        rw [hx]
        exact .bin q (Nat.le_refl _) he hc
      · show S.bin q (e.den S) (c.den S) = S.bin q (a.den S) (S.bin q (b.den S) (c.den S))
        rw [hd, hassoc]
    · exact ⟨_, .bin o (Nat.le_refl _) ha (.bin q (by omega) hb hc), rfl⟩

theorem sole_of_lvl : ∀ (o : BOp), o = .and ∨ o = .or ∨ o = .concat → ∀ q : BOp, q.lvl = o.lvl → q = o := by
  intro o ho q hq
  rcases ho with rfl | rfl | rfl <;> cases q <;> first | rfl | (exact absurd hq (by decide))

theorem leftOk_lvl : ∀ (o l : BOp), leftOk o (some l) = true → o.prec ≤ l.prec → o.lvl ≤ l.lvl := by
  intro o l; cases o <;> cases l <;> decide

theorem rightOk_lvl : ∀ (o r : BOp), rightOk o (some r) = true → o.prec ≤ r.prec →
    o.lvl + 1 ≤ r.lvl ∨ (r = o ∧ (o = .and ∨ o = .or ∨ o = .concat)) := by
  intro o r; cases o <;> cases r <;> decide

theorem GenOk.none (S : Sem D) (top : Option BOp) (d : Option D) : GenOk S (fun _ _ => Option.none) top d := by
  intro ctx ts h; exact absurd h (by simp)

theorem GenOk.percent (S : Sem D) (top : Option BOp) : GenOk S percent top (some S.pct) := by
  intro ctx ts h
  obtain ⟨rfl, _⟩ := Prod.mk.inj (Option.some.inj h)
  exact ⟨.pct, rfl, fun n _ => .pct⟩

/-- The meaning of a binary operator with both operands. -/
def bin? (S : Sem D) (o : BOp) : Option D → Option D → Option D
  | some a, some b => some (S.bin o a b)
  | _, _ => none

theorem GenOk.binary {S : Sem D} (hS : S.Assoc) {f g : Gen inlined} {tf tg : Option BOp} {df dg : Option D} (o : BOp)
    (hf : GenOk S f tf df) (hg : GenOk S g tg dg) (hl : leftOk o tf = true) (hr : rightOk o tg = true) :
    GenOk S (binary o f g) (some o) (bin? S o df dg) := by
  intro ctx ts h
  unfold Verif.Sql.binary at h
  cases h1 : f o.prec () with
  | none => rw [h1] at h; exact absurd h (by simp)
  | some r1 =>
    obtain ⟨t, u1⟩ := r1
    rw [h1] at h
    dsimp only at h
    cases h2 : g o.prec u1 with
    | none => rw [h2] at h; exact absurd h (by simp)
    | some r2 =>
      obtain ⟨u, u2⟩ := r2
      rw [h2] at h
      dsimp only at h
      obtain ⟨rfl, _⟩ := Prod.mk.inj (Option.some.inj h)
      obtain ⟨a, da, ha⟩ := hf _ _ h1
      obtain ⟨b, db, hb⟩ := hg _ _ h2
      have la : Derives o.lvl t a := ha _ fun l hl' hp => by subst hl'; exact leftOk_lvl o l hl hp
      have key : ∃ c, Derives o.lvl (t ++ .op o :: u) c ∧ c.den S = S.bin o (a.den S) (b.den S) := by
        cases tg with
        | none => exact ⟨_, .bin o (Nat.le_refl _) la (hb _ fun r hr' => absurd hr' (by simp)), rfl⟩
        | some r =>
          by_cases hp : o.prec ≤ r.prec
          · rcases rightOk_lvl o r hr hp with hlt | ⟨rfl, ho⟩
            · exact ⟨_, .bin o (Nat.le_refl _) la (hb _ fun r' hr' _ => by
                have := Option.some.inj hr'; subst this; exact hlt), rfl⟩
            · have hbo : Derives r.lvl u b := hb _ fun r' hr' _ => by
                have := Option.some.inj hr'; subst this; exact Nat.le_refl _
              refine derives_assoc S r (sole_of_lvl r ho) ?_ la hbo rfl
              rcases ho with rfl | rfl | rfl
              · exact hS.and
              · exact hS.or
              · exact hS.concat
          · exact ⟨_, .bin o (Nat.le_refl _) la (hb _ fun r' hr' hp' => by
              have := Option.some.inj hr'; subst this; exact absurd hp' hp), rfl⟩
      obtain ⟨c, hc, hd⟩ := key
      refine ⟨c, ?_, ?_⟩
      · rw [hd, da, db]; rfl
      · intro n hn
        unfold bracket
        by_cases hp : ctx > o.prec
        · rw [if_pos hp]; exact .paren (hc.mono 0 (Nat.zero_le _))
        · rw [if_neg hp]; exact hc.mono n (hn o rfl (by omega))

theorem GenOk.call1 {S : Sem D} {f : Gen inlined} {tf top : Option BOp} {df : Option D} (m : Method)
    (hf : GenOk S f tf df) : GenOk S (call1 m f) top (df.map (S.fn1 m)) := by
  intro ctx ts h
  unfold Verif.Sql.call1 at h
  cases h1 : f commaPrec () with
  | none => rw [h1] at h; exact absurd h (by simp)
  | some r1 =>
    obtain ⟨t, u1⟩ := r1
    rw [h1] at h
    obtain ⟨rfl, _⟩ := Prod.mk.inj (Option.some.inj h)
    obtain ⟨a, da, ha⟩ := hf _ _ h1
    exact ⟨.fn1 m a, by rw [da]; rfl, fun n _ => .fn1 (ha 0 fun _ _ _ => Nat.zero_le _)⟩

theorem GenOk.call2 {S : Sem D} {f g : Gen inlined} {tf tg top : Option BOp} {a b : Option D} (m : Method)
    (hf : GenOk S f tf a) (hg : GenOk S g tg b) :
    GenOk S (call2 m f g) top (a.bind fun a => b.map fun b => S.fn2 m a b) := by
  intro ctx ts h
  unfold Verif.Sql.call2 at h
  cases h1 : f commaPrec () with
  | none => rw [h1] at h; exact absurd h (by simp)
  | some r1 =>
    obtain ⟨t, u1⟩ := r1
    rw [h1] at h
    dsimp only at h
    cases h2 : g commaPrec u1 with
    | none => rw [h2] at h; exact absurd h (by simp)
    | some r2 =>
      obtain ⟨u, u2⟩ := r2
      rw [h2] at h
      obtain ⟨rfl, _⟩ := Prod.mk.inj (Option.some.inj h)
      obtain ⟨x, dx, hx⟩ := hf _ _ h1
      obtain ⟨y, dy, hy⟩ := hg _ _ h2
      exact ⟨.fn2 m x y, by rw [dx, dy]; rfl,
        fun n _ => .fn2 (hx 0 fun _ _ _ => Nat.zero_le _) (hy 0 fun _ _ _ => Nat.zero_le _)⟩

theorem GenOk.weaken {S : Sem D} {f : Gen inlined} {d d' : Option D} {top : Option BOp} (h : GenOk S f top d)
    (he : ∀ a, d = some a → d' = some a) : GenOk S f top d' := by
  intro ctx ts h1
  obtain ⟨a, da, ha⟩ := h ctx ts h1
  exact ⟨a, he _ da, ha⟩

theorem bin?_some {S : Sem D} {o : BOp} {a b : Option D} {d : D} (h : bin? S o a b = some d) :
    ∃ x y, a = some x ∧ b = some y ∧ d = S.bin o x y := by
  cases a with
  | none => exact absurd h (by simp [bin?])
  | some x => cases b with
    | none => exact absurd h (by simp [bin?])
    | some y => exact ⟨x, y, rfl, rfl, (Option.some.inj h).symm⟩

/-- The operands of a node are translated correctly. -/
def ArgsOk (S : Sem D) (cols : Cols) (args : List Expr) : Prop :=
  ∀ e ∈ args, GenOk S (sqlExpr inlined cols e) (topOf e) (den S cols e)

theorem leftOk_none (o : BOp) : leftOk o none = true := by cases o <;> rfl

theorem leftOk_like (l : Option BOp) : leftOk .like l = true := by
  cases l with
  | none => rfl
  | some l => cases l <;> rfl

theorem nested_op {op : Op} {o : BOp} (h : bopOf op = some o) {a b : Expr} {rest : List Expr}
    (hn : nodeNested op (a :: b :: rest) = true) : leftOk o (topOf a) = true ∧ rightOk o (topOf b) = true := by
  cases op <;> first
    | (simp only [bopOf, reduceCtorEq] at h; done)
    | (simp only [bopOf, Option.some.injEq] at h; subst h
       simpa [nodeNested, bopOf] using hn)

theorem nodeDen_bop {S : Sem D} {cols : Cols} {op : Op} {o : BOp} (h : bopOf op = some o) (p : Option (List Str))
    (x y : D) (r : List (Option D)) : nodeDen S cols op p (some x :: some y :: r) = some (S.bin o x y) := by
  cases op <;> first
    | (simp only [bopOf, reduceCtorEq] at h; done)
    | (simp only [bopOf, Option.some.injEq] at h; subst h; rfl)

theorem topOf_bop {op : Op} {o : BOp} (h : bopOf op = some o) (args : List Expr) : topOf (.node op args) = some o := by
  cases op <;> first
    | (simp only [bopOf, reduceCtorEq] at h; done)
    | exact h

theorem sqlNode_bop {P : Params} {cols : Cols} {op : Op} {o : BOp} (h : bopOf op = some o) (p : Option (List Str))
    (f g : Gen P) (r : List (Gen P)) : sqlNode cols op p (f :: g :: r) = binary o f g := by
  cases op <;> first
    | (simp only [bopOf, reduceCtorEq] at h; done)
    | (simp only [bopOf, Option.some.injEq] at h; subst h; rfl)

theorem sqlNode_other {P : Params} {cols : Cols} {op : Op} (h : bopOf op = none) (hm : op ≠ .member)
    (hc : ∀ m, op ≠ .call m) (p : Option (List Str)) (r : List (Gen P)) : sqlNode cols op p r = fun _ _ => none := by
  cases op <;> first
    | (simp only [bopOf, reduceCtorEq] at h; done)
    | (exact absurd rfl hm)
    | (exact absurd rfl (hc _))
    | rfl

theorem sqlNode_short {P : Params} {cols : Cols} {op : Op} (hm : op ≠ .member)
    (hc : ∀ m, op ≠ .call m) (p : Option (List Str)) (r : List (Gen P)) (hr : r.length < 2) :
    sqlNode cols op p r = fun _ _ => none := by
  match r, hr with
  | [], _ => cases op <;> first | exact absurd rfl hm | exact absurd rfl (hc _) | rfl
  | [f], _ => cases op <;> first | exact absurd rfl hm | exact absurd rfl (hc _) | rfl

theorem sqlNode_ok {S : Sem D} (hS : S.Assoc) (cols : Cols) (op : Op) (args : List Expr)
    (hn : nodeNested op args = true) (ha : ArgsOk S cols args) :
    GenOk S (sqlExpr inlined cols (.node op args)) (topOf (.node op args)) (den S cols (.node op args)) := by
  show GenOk S (sqlNode cols op (nodePath op (memberPaths args)) (sqlArgs inlined cols args)) _
    (nodeDen S cols op (nodePath op (memberPaths args)) (dens S cols args))
  by_cases hm : op = .member
  · subst hm
    intro ctx ts h
    simp only [sqlNode, nodeDen] at h ⊢
    cases hp : (nodePath .member (memberPaths args)).bind cols with
    | none => rw [hp] at h; exact absurd h (by simp)
    | some c =>
      rw [hp] at h
      obtain ⟨rfl, _⟩ := Prod.mk.inj (Option.some.inj h)
      exact ⟨.col c, rfl, fun _ _ => .col c⟩
  by_cases hcall : ∃ m, op = .call m
  · obtain ⟨m, rfl⟩ := hcall
    match args, ha, hn with
    | [], _, _ =>
      cases m <;> exact GenOk.none _ _ _
    | [a], ha, _ =>
      have h1 := ha a (by simp)
      cases m <;> first
        | exact GenOk.none _ _ _
        | (refine GenOk.weaken (GenOk.call1 _ h1) ?_
           intro d hd
           cases hda : den S cols a with
           | none => rw [hda] at hd; simp at hd
           | some x =>
             rw [hda] at hd
             simp only [dens, hda]
             exact hd)
    | a :: b :: rest, ha, hn =>
      have h1 := ha a (by simp)
      have h2 := ha b (by simp)
      have one : ∀ m top, GenOk S (if oneOperand m then call1 m (sqlExpr inlined cols a) else fun _ _ => none) top
          (if oneOperand m then (den S cols a).map (S.fn1 m) else none) := by
        intro m top
        cases oneOperand m with
        | true => exact GenOk.call1 m h1
        | false => exact GenOk.none _ _ _
      by_cases hone : m = .endswith ∨ m = .startswith ∨ m = .substringof ∨ m = .concat ∨ m = .indexof
      · rcases hone with rfl | rfl | rfl | rfl | rfl
        · have hn' : leftOk .like (topOf a) = true ∧ rightOk .concat (topOf b) = true := by
            simpa [nodeNested] using hn
          refine GenOk.weaken (GenOk.binary hS .like h1
            (GenOk.binary hS .concat (GenOk.percent S none) h2 rfl hn'.2) hn'.1 rfl) ?_
          intro d hd
          obtain ⟨x, z, hx, hz, rfl⟩ := bin?_some hd
          obtain ⟨w, y, hw, hy, rfl⟩ := bin?_some hz
          have := Option.some.inj hw; subst this
          simp only [dens, hx, hy]; rfl
        · have hn' : leftOk .like (topOf a) = true ∧ leftOk .concat (topOf b) = true := by
            simpa [nodeNested] using hn
          refine GenOk.weaken (GenOk.binary hS .like h1
            (GenOk.binary hS .concat h2 (GenOk.percent S none) hn'.2 rfl) hn'.1 rfl) ?_
          intro d hd
          obtain ⟨x, z, hx, hz, rfl⟩ := bin?_some hd
          obtain ⟨y, w, hy, hw, rfl⟩ := bin?_some hz
          have := Option.some.inj hw; subst this
          simp only [dens, hx, hy]; rfl
        · have hn' : leftOk .like (topOf b) = true ∧ leftOk .concat (topOf a) = true := by
            simpa [nodeNested] using hn
          refine GenOk.weaken (GenOk.binary hS .like h2
            (GenOk.binary hS .concat (GenOk.percent S none)
              (GenOk.binary hS .concat h1 (GenOk.percent S none) hn'.2 rfl) rfl rfl) hn'.1 rfl) ?_
          intro d hd
          obtain ⟨x, z, hx, hz, rfl⟩ := bin?_some hd
          obtain ⟨w, y, hw, hy, rfl⟩ := bin?_some hz
          obtain ⟨y', w', hy', hw', rfl⟩ := bin?_some hy
          have := Option.some.inj hw; subst this
          have := Option.some.inj hw'; subst this
          simp only [dens, hx, hy']; rfl
        · have hn' : leftOk .concat (topOf a) = true ∧ rightOk .concat (topOf b) = true := by
            simpa [nodeNested] using hn
          refine GenOk.weaken (GenOk.binary hS .concat h1 h2 hn'.1 hn'.2) ?_
          intro d hd
          obtain ⟨x, y, hx, hy, rfl⟩ := bin?_some hd
          simp only [dens, hx, hy]; rfl
        · refine GenOk.weaken (GenOk.call2 .indexof h1 h2) ?_
          intro d hd
          cases hx : den S cols a with
          | none => rw [hx] at hd; exact absurd hd (by simp)
          | some x => cases hy : den S cols b with
            | none => rw [hx, hy] at hd; exact absurd hd (by simp)
            | some y => rw [hx, hy] at hd; simp only [dens, hx, hy]; exact hd
      · have hs : sqlNode cols (.call m) (nodePath (.call m) (memberPaths (a :: b :: rest)))
            (sqlArgs inlined cols (a :: b :: rest))
            = if oneOperand m then call1 m (sqlExpr inlined cols a) else fun _ _ => none := by
          cases m <;> first | rfl | exact absurd (by simp) hone
        rw [hs]
        refine GenOk.weaken (one _ _) ?_
        intro d hd
        cases ho : oneOperand m with
        | false => rw [ho] at hd; exact absurd hd (by simp)
        | true =>
          rw [ho] at hd
          cases hda : den S cols a with
          | none => rw [hda] at hd; exact absurd hd (by simp)
          | some x =>
            rw [hda] at hd
            cases m <;> first
              | (simp only [dens, hda]; exact hd)
              | (exfalso; revert ho; decide)
              | (exfalso; exact hone (by simp))
  · have hc' : ∀ m, op ≠ .call m := fun m h => hcall ⟨m, h⟩
    match args, ha, hn with
    | [], _, _ =>
      rw [sqlNode_short hm hc' _ _ (by simp [sqlArgs])]; exact GenOk.none _ _ _
    | [a], _, _ =>
      rw [sqlNode_short hm hc' _ _ (by simp [sqlArgs])]; exact GenOk.none _ _ _
    | a :: b :: rest, ha, hn =>
      cases ho : bopOf op with
      | none => rw [sqlNode_other ho hm hc']; exact GenOk.none _ _ _
      | some o =>
        have hn' := nested_op ho hn
        show GenOk S (sqlNode cols op _ (sqlExpr inlined cols a :: sqlExpr inlined cols b :: sqlArgs inlined cols rest))
          _ _
        rw [sqlNode_bop ho, topOf_bop ho]
        refine GenOk.weaken (GenOk.binary hS o (ha a (by simp)) (ha b (by simp)) hn'.1 hn'.2) ?_
        intro d hd
        obtain ⟨x, y, hx, hy, rfl⟩ := bin?_some hd
        simp only [dens, hx, hy]
        exact nodeDen_bop ho _ _ _ _

mutual
theorem sqlExpr_ok {S : Sem D} (hS : S.Assoc) (cols : Cols) : ∀ e, wellNested e = true →
    GenOk S (sqlExpr inlined cols e) (topOf e) (den S cols e)
  | .none, _ => GenOk.none _ _ _
  | .lit v, _ => by
    intro ctx ts h
    obtain ⟨rfl, _⟩ := Prod.mk.inj (Option.some.inj h)
    exact ⟨.val v, rfl, fun _ _ => .val v⟩
  | .prop n, _ => by
    intro ctx ts h
    simp only [sqlExpr, den] at h ⊢
    cases hp : cols [n] with
    | none => rw [hp] at h; exact absurd h (by simp)
    | some c =>
      rw [hp] at h
      obtain ⟨rfl, _⟩ := Prod.mk.inj (Option.some.inj h)
      exact ⟨.col c, rfl, fun _ _ => .col c⟩
  | .node op args, h => by
    have h' : nodeNested op args = true ∧ allNested args = true := by
      simpa [wellNested] using h
    exact sqlNode_ok hS cols op args h'.1 (sqlArgs_ok hS cols args h'.2)
theorem sqlArgs_ok {S : Sem D} (hS : S.Assoc) (cols : Cols) : ∀ es, allNested es = true → ArgsOk S cols es
  | [], _ => fun _ h => absurd h (by simp)
  | e :: es, h => by
    have h' : wellNested e = true ∧ allNested es = true := by simpa [allNested] using h
    have k1 := sqlExpr_ok hS cols e h'.1
    have k2 := sqlArgs_ok hS cols es h'.2
    intro e' he
    rcases List.mem_cons.mp he with he | he
    · rw [he]; exact k1
    · exact k2 e' he
end

theorem sql_bind_pos {cols : Cols} {e : Expr} {ctx : Nat} {ts : List Tok} {vs : List Val}
    (h : sqlExpr positional cols e ctx [] = some (ts, vs)) :
    phCount ts = vs.length ∧ sqlExpr inlined cols e ctx () = some (bindPos vs ts, ()) := by
  have hr := sqlExpr_rel relPos_cong cols e
  rw [mapLit_id] at hr
  obtain ⟨ws, h1, h2, h3⟩ := hr ctx [] ts vs h
  rw [List.nil_append] at h1
  subst h1
  exact ⟨h2, h3⟩

theorem sql_bind_idx {cols : Cols} {e : Expr} {ctx : Nat} {ts : List Tok} {vs : List Val}
    (h : sqlExpr indexed cols e ctx [] = some (ts, vs)) :
    sqlExpr inlined cols e ctx () = some (bindIdx vs ts, ()) := by
  have hr := sqlExpr_rel relIdx_cong cols e
  rw [mapLit_id] at hr
  obtain ⟨ws, h1, h2⟩ := hr ctx [] ts vs h
  have := h2 []
  rwa [List.append_nil] at this

/-- **C84** (for expressions whose nested operators the translation writes correctly; what is missing is shown by
the violations below).  The text that a filter is translated to, with the parameters bound as the database binds
them, has exactly one reading in SQL, and this reading has the meaning of the OData expression. -/
theorem C84_meaning_partial {S : Sem D} (hS : S.Assoc) (cols : Cols) (e : Expr) (hn : wellNested e = true) (ctx : Nat)
    (ts : List Tok) (vs : List Val) (h : sqlExpr positional cols e ctx [] = some (ts, vs)) :
    ∃ a, Derives 0 (bindPos vs ts) a ∧ (∀ b, Derives 0 (bindPos vs ts) b → b = a) ∧
      den S cols e = some (a.den S) := by
  obtain ⟨_, h1⟩ := sql_bind_pos h
  obtain ⟨a, da, ha⟩ := sqlExpr_ok hS cols e hn ctx _ h1
  have hd := ha 0 fun _ _ _ => Nat.zero_le _
  exact ⟨a, hd, fun b hb => derives_unique hb hd, da⟩

/-- **C84** for the drivers whose placeholders have a number or a name. -/
theorem C84_meaning_indexed_partial {S : Sem D} (hS : S.Assoc) (cols : Cols) (e : Expr) (hn : wellNested e = true)
    (ctx : Nat) (ts : List Tok) (vs : List Val) (h : sqlExpr indexed cols e ctx [] = some (ts, vs)) :
    ∃ a, Derives 0 (bindIdx vs ts) a ∧ (∀ b, Derives 0 (bindIdx vs ts) b → b = a) ∧
      den S cols e = some (a.den S) := by
  have h1 := sql_bind_idx h
  obtain ⟨a, da, ha⟩ := sqlExpr_ok hS cols e hn ctx _ h1
  have hd := ha 0 fun _ _ _ => Nat.zero_le _
  exact ⟨a, hd, fun b hb => derives_unique hb hd, da⟩

/-! ### C85: parameters -/

/-- Two translations that produce the same text, with corresponding parameters. -/
def RelMap (g : Val → Val) (f f' : Gen positional) : Prop :=
  ∀ ctx (ps : List Val), f' ctx (ps.map g) = (f ctx ps).map fun r => (r.1, List.map g r.2)

theorem relMap_cong (g : Val → Val) : Cong positional positional g (RelMap g) where
  none := fun _ _ => rfl
  percent := fun _ _ => rfl
  col := by intro c ctx ps; cases c <;> rfl
  lit := by intro v ctx ps; simp [positional]
  binary := by
    intro o f h f' h' hf hh ctx ps
    unfold Verif.Sql.binary
    rw [hf]
    cases f o.prec ps with
    | none => rfl
    | some r =>
      dsimp only [Option.map]
      rw [hh]
      cases h o.prec r.2 <;> rfl
  call1 := by
    intro m f f' hf ctx ps
    unfold Verif.Sql.call1
    rw [hf]
    cases f commaPrec ps <;> rfl
  call2 := by
    intro m f h f' h' hf hh ctx ps
    unfold Verif.Sql.call2
    rw [hf]
    cases f commaPrec ps with
    | none => rfl
    | some r =>
      dsimp only [Option.map]
      rw [hh]
      cases h commaPrec r.2 <;> rfl

/-- **C85** The literals of an expression never reach the text of the query: with other literals the text is the
same, and only the parameters differ. -/
theorem C85_text_ignores_values (cols : Cols) (g : Val → Val) (e : Expr) (ctx : Nat) (ps : List Val) :
    sqlExpr positional cols (mapLit g e) ctx (ps.map g)
      = (sqlExpr positional cols e ctx ps).map fun r => (r.1, List.map g r.2) :=
  sqlExpr_rel (relMap_cong g) cols e ctx ps

/-- **C85** Two expressions that differ only in their literals have the same text. -/
theorem C85_same_text (cols : Cols) (e e' : Expr) (h : mapLit (fun _ => .null) e = mapLit (fun _ => .null) e')
    (ctx : Nat) : (sqlExpr positional cols e ctx []).map Prod.fst = (sqlExpr positional cols e' ctx []).map Prod.fst := by
  have h1 := C85_text_ignores_values cols (fun _ => Val.null) e ctx []
  have h2 := C85_text_ignores_values cols (fun _ => Val.null) e' ctx []
  rw [h] at h1
  rw [h1] at h2
  have h3 := congrArg (Option.map Prod.fst) h2
  simpa [Option.map_map, Function.comp_def] using h3

/-- **C85** There is one value for each placeholder. -/
theorem C85_one_value_per_placeholder (cols : Cols) (e : Expr) (ctx : Nat) (ts : List Tok) (vs : List Val)
    (h : sqlExpr positional cols e ctx [] = some (ts, vs)) : phCount ts = vs.length := (sql_bind_pos h).1

/-- **C85** Positional and named placeholders lead to the same query. -/
theorem C85_styles_agree (cols : Cols) (e : Expr) (ctx : Nat) (ts us : List Tok) (vs ws : List Val)
    (h : sqlExpr positional cols e ctx [] = some (ts, vs)) (h' : sqlExpr indexed cols e ctx [] = some (us, ws)) :
    bindPos vs ts = bindIdx ws us := by
  have h1 := (sql_bind_pos h).2
  rw [sql_bind_idx h'] at h1
  exact (Prod.mk.inj (Option.some.inj h1)).1.symm

/-! ### Examples and violations -/

/-- Columns with the name of the property. -/
def idCols : Cols := fun p => some (p.flatten)

/-- `a sub b`. -/
def exSub (a b : Expr) : Expr := .node .sub [a, b]

/-- Non-vacuity: `(x add 1) mul 2 eq 3 and (startswith(n,'a') or substringof('b',n))`. -/
def exFilter : Expr :=
  .node .and [.node .eq [.node .mul [.node .add [.prop [120], .lit (.i32 1)], .lit (.i32 2)], .lit (.i32 3)],
    .node .or [.node (.call .startswith) [.prop [110], .lit (.str [97])],
      .node (.call .substringof) [.lit (.str [98]), .prop [110]]]]

example : wellNested exFilter = true := by decide +kernel

example : sqlExpr positional idCols exFilter defaultCtx [] = some
    ([.lp, .col [120], .op .add, .ph none, .rp, .op .mul, .ph none, .op .eq, .ph none, .op .and,
      .lp, .col [110], .op .like, .ph none, .op .concat, .pct, .op .or,
      .col [110], .op .like, .pct, .op .concat, .ph none, .op .concat, .pct, .rp],
     [.i32 1, .i32 2, .i32 3, .str [97], .str [98]]) := by decide +kernel

/-- Non-vacuity of the hypothesis on the meaning: strings under concatenation, with AND and OR also associative. -/
example : (⟨fun _ a b => a ++ b, fun _ a => a, fun _ a b => a ++ b, id, fun _ => [], [37]⟩ : Sem Str).Assoc :=
  ⟨fun a b c => List.append_assoc a b c, fun a b c => List.append_assoc a b c, fun a b c => List.append_assoc a b c⟩

/-- Integers, where the comparison operators give 0 or 1 and `col` is the row. -/
def intSem (row : Str → Int) : Sem Int where
  bin o a b := match o with
    | .add => a + b | .sub => a - b | .mul => a * b
    | .eq => if a = b then 1 else 0
    | .and => if a ≠ 0 ∧ b ≠ 0 then 1 else 0
    | .or => if a ≠ 0 ∨ b ≠ 0 then 1 else 0
    | .concat => 0
    | _ => 0
  fn1 _ a := a
  fn2 _ a _ := a
  col := row
  val v := match v with | .i32 n => n | .bool b => if b then 1 else 0 | _ => 0
  pct := 0

/-- **C84 fails** for `a sub (b sub c)`: the inner brackets are lost, so that the text is read as
`(a sub b) sub c`.  With a = 10, b = 5, c = 3 the value is 2 instead of 8. -/
theorem C84_violation_nested_sub (row : Str → Int) :
    let e := exSub (.lit (.i32 10)) (exSub (.lit (.i32 5)) (.lit (.i32 3)))
    ∃ ts vs a, sqlExpr positional idCols e defaultCtx [] = some (ts, vs) ∧ Derives 0 (bindPos vs ts) a ∧
      den (intSem row) idCols e = some 8 ∧ a.den (intSem row) = 2 := by
  refine ⟨[.ph none, .op .sub, .ph none, .op .sub, .ph none], [.i32 10, .i32 5, .i32 3],
    .bin .sub (.bin .sub (.val (.i32 10)) (.val (.i32 5))) (.val (.i32 3)), by decide +kernel, ?_, rfl, rfl⟩
  exact .bin (ts := [.val (.i32 10), .op .sub, .val (.i32 5)]) (us := [.val (.i32 3)]) .sub (Nat.zero_le _)
    (.bin (ts := [.val (.i32 10)]) (us := [.val (.i32 5)]) .sub (Nat.le_refl _) (.val _) (.val _)) (.val _)

/-- **C84 fails** for `true eq (x eq y)`, which is sent as `true = x = y` and read as `(true = x) = y`: a row with
x = y = 5 satisfies the filter but is not selected. -/
theorem C84_violation_nested_eq :
    let e := Expr.node .eq [.lit (.bool true), .node .eq [.prop [120], .prop [121]]]
    ∃ ts vs a, sqlExpr positional idCols e defaultCtx [] = some (ts, vs) ∧ Derives 0 (bindPos vs ts) a ∧
      den (intSem fun _ => 5) idCols e = some 1 ∧ a.den (intSem fun _ => 5) = 0 := by
  refine ⟨[.ph none, .op .eq, .col [120], .op .eq, .col [121]], [.bool true],
    .bin .eq (.bin .eq (.val (.bool true)) (.col [120])) (.col [121]), by decide +kernel, ?_, by decide, by decide⟩
  exact .bin (ts := [.val (.bool true), .op .eq, .col [120]]) (us := [.col [121]]) .eq (Nat.zero_le _)
    (.bin (ts := [.val (.bool true)]) (us := [.col [120]]) .eq (Nat.le_refl _) (.val _) (.col _)) (.col _)

/-- **C84 fails** outside the operators that are implemented: `not`, negation, `mod`, `substring` and others are
valid in a filter but raise an exception. -/
theorem C84_violation_unsupported (P : Params) (cols : Cols) (args : List Expr) (ctx : Nat) (ps : P.State) :
    sqlExpr P cols (.node .not args) ctx ps = none ∧ sqlExpr P cols (.node .negate args) ctx ps = none ∧
    sqlExpr P cols (.node .mod args) ctx ps = none ∧ sqlExpr P cols (.node (.call .substring) args) ctx ps = none := by
  refine ⟨?_, ?_, ?_, ?_⟩
  · cases args <;> rfl
  · cases args <;> rfl
  · cases args <;> rfl
  · match args with
    | [] => rfl
    | [a] => rfl
    | a :: b :: _ => rfl

/-- Non-vacuity of C85: two filters with the same text and other parameters. -/
example : sqlExpr positional idCols (.node .eq [.prop [120], .lit (.str [39, 59])]) defaultCtx []
    = some ([.col [120], .op .eq, .ph none], [.str [39, 59]]) := by decide +kernel

end Verif.Sql

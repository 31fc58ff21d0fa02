import Verif.Sql.Filter
/-!
# C88: the condition of a skiptoken: `pyslet/odata2/sqlds.py` lines 1075-1189
-/
namespace Verif.Sql
open Verif.OData

variable {P : Params}

/-- The precedence of the comparison operators, used as the context of an order expression,
sqlds.py:1164, 1179. -/
def cmpCtx : Nat := BOp.prec .eq

/-- `where_skiptoken_clause`, sqlds.py:1148-1189, from the `i`-th term on: the terms of the order with their
direction (`true` is ascending), the values of the token, and `ket`, the number of open brackets.  A term is an
expression of `$orderby`, which is translated twice, or a column.  A token that is too short raises IndexError. -/
def skipLoop : List (Gen P × Bool) → List Val → Nat → P.State → Option (List Tok × P.State)
  | (f, asc) :: rest, v :: vs, ket, ps =>
    match f cmpCtx ps with
    | none => none
    | some (t, ps1) =>
      let head := Tok.lp :: t ++ [.op (if asc then .gt else .lt), (P.add ps1 v).1]
      let ps2 := (P.add ps1 v).2
      match rest with
      | [] => some (head ++ List.replicate (ket + 1) .rp, ps2)
      | term :: rest =>
        match f cmpCtx ps2 with
        | none => none
        | some (u, ps3) =>
          match skipLoop (term :: rest) vs (ket + 2) (P.add ps3 v).2 with
          | none => none
          | some (r, ps4) => some (head ++ [.op .or, .lp] ++ u ++ [.op .eq, (P.add ps3 v).1, .op .and] ++ r, ps4)
  | _, _, _, _ => none

/-- `where_clause`, sqlds.py:1118-1131, without an entity and without NULL columns: the filter, in brackets, and
the condition of the skiptoken. -/
def whereClause (cols : Cols) (filter : Option Expr) (skip : Option (List (Gen P × Bool) × List Val)) :
    P.State → Option (List Tok × P.State) := fun ps =>
  let first : Option (List Tok × P.State) := match filter with
    | none => some ([], ps)
    | some e => match sqlExpr P cols e defaultCtx ps with
      | none => none
      | some (t, ps) => some (.lp :: t ++ [.rp], ps)
  match first, skip with
  | none, _ => none
  | some r, none => some r
  | some (t, ps), some (terms, vals) =>
    match skipLoop terms vals 0 ps with
    | none => none
    | some (u, ps) => some ((if filter.isSome then t ++ [.op .and] else []) ++ u, ps)

/-! ### Specification -/

/-- A value that can be ordered: an integer or a text. -/
def Plain : SqlVal → Prop
  | .int _ | .text _ => True
  | _ => False

/-- `a` comes after `b` in the order given by the directions: the first difference decides. -/
def afterKey : List Bool → List SqlVal → List SqlVal → Bool
  | asc :: ds, a :: as, b :: bs => (if asc then valLt b a else valLt a b) || (a == b && afterKey ds as bs)
  | _, _, _ => false

/-! ### The clause in terms of the constructions for expressions -/

/-- Brackets around a text that is made for the context `c`. -/
def paren (c : Nat) (f : Gen P) : Gen P := fun _ ps =>
  match f c ps with
  | none => none
  | some (t, ps) => some (.lp :: t ++ [.rp], ps)

/-- A parameter. -/
def litGen (v : Val) : Gen P := fun _ ps => some ([(P.add ps v).1], (P.add ps v).2)

/-- The comparison of a direction. -/
def dirOp (asc : Bool) : BOp := if asc then .gt else .lt

/-- The clause as an expression. -/
def skipGen : List (Gen P × Bool) → List Val → Gen P
  | [(f, asc)], v :: _ => paren 0 (binary (dirOp asc) f (litGen v))
  | (f, asc) :: term :: rest, v :: vs =>
    paren 0 (binary .or (binary (dirOp asc) f (litGen v))
      (paren 0 (binary .and (binary .eq f (litGen v)) (skipGen (term :: rest) vs))))
  | _, _ => fun _ _ => none

theorem dirOp_prec (asc : Bool) : (dirOp asc).prec = cmpCtx := by cases asc <;> rfl

theorem replicate_rp (n : Nat) : List.replicate (n + 1) Tok.rp = Tok.rp :: List.replicate n Tok.rp := rfl

theorem skipLoop_eq : ∀ (terms : List (Gen P × Bool)) (vals : List Val) (ket : Nat) (ps : P.State),
    skipLoop terms vals ket ps = (skipGen terms vals 0 ps).map fun r => (r.1 ++ List.replicate ket .rp, r.2)
  | [], _, _, _ => by simp [skipLoop, skipGen]
  | _ :: _, [], _, _ => by simp [skipLoop, skipGen]
  | [(f, asc)], v :: vs, ket, ps => by
    simp only [skipLoop, skipGen, paren, binary, dirOp_prec, litGen]
    cases hf : f cmpCtx ps with
    | none => rfl
    | some r =>
      obtain ⟨t, ps1⟩ := r
      dsimp only
      have hb : ∀ u, bracket 0 cmpCtx u = u := fun u => rfl
      simp only [hb, Option.map_some, dirOp]
      rw [replicate_rp]
      simp
  | (f, asc) :: term :: rest, v :: vs, ket, ps => by
    have ih := fun ket ps => skipLoop_eq (term :: rest) vs ket ps
    simp only [skipLoop, skipGen, paren, binary, dirOp_prec, litGen]
    cases hf : f cmpCtx ps with
    | none => rfl
    | some r =>
      obtain ⟨t, ps1⟩ := r
      dsimp only
      have he : f BOp.eq.prec (P.add ps1 v).2 = f cmpCtx (P.add ps1 v).2 := rfl
      rw [he]
      cases hg : f cmpCtx (P.add ps1 v).2 with
      | none => rfl
      | some r2 =>
        obtain ⟨u, ps3⟩ := r2
        dsimp only
        rw [ih]
        have hctx : skipGen (term :: rest) vs BOp.and.prec (P.add ps3 v).2 = skipGen (term :: rest) vs 0 (P.add ps3 v).2 := by
          cases rest <;> cases vs <;> rfl
        rw [hctx]
        cases skipGen (term :: rest) vs 0 (P.add ps3 v).2 with
        | none => rfl
        | some r =>
          obtain ⟨w, ps4⟩ := r
          have hb1 : ∀ u, bracket BOp.or.prec cmpCtx u = u := fun u => rfl
          have hb2 : ∀ u, bracket 0 BOp.and.prec u = u := fun u => rfl
          have hb3 : ∀ u, bracket BOp.and.prec BOp.eq.prec u = u := fun u => rfl
          have hb4 : ∀ u, bracket 0 BOp.or.prec u = u := fun u => rfl
          simp only [Option.map_some, hb1, hb2, hb3, hb4, dirOp]
          have hr : List.replicate (ket + 2) Tok.rp = Tok.rp :: Tok.rp :: List.replicate ket Tok.rp := rfl
          rw [hr]
          simp


/-- The clause for both conditions as an expression. -/
def whereGen (cols : Cols) (filter : Option Expr) (terms : List (Gen P × Bool)) (vals : List Val) : Gen P :=
  match filter with
  | none => skipGen terms vals
  | some e => binary .and (paren defaultCtx (sqlExpr P cols e)) (skipGen terms vals)

theorem skipGen_ctx (terms : List (Gen P × Bool)) (vals : List Val) (c : Nat) (ps : P.State) :
    skipGen terms vals c ps = skipGen terms vals 0 ps := by
  cases terms with
  | nil => rfl
  | cons t rest => obtain ⟨f, asc⟩ := t; cases rest <;> cases vals <;> rfl

theorem whereClause_eq (cols : Cols) (filter : Option Expr) (terms : List (Gen P × Bool)) (vals : List Val)
    (ps : P.State) :
    whereClause cols filter (some (terms, vals)) ps = whereGen cols filter terms vals 0 ps := by
  unfold whereClause whereGen
  cases filter with
  | none =>
    dsimp only
    rw [skipLoop_eq]
    cases skipGen terms vals 0 ps with
    | none => rfl
    | some r => obtain ⟨t, q⟩ := r; simp
  | some e =>
    dsimp only [binary, paren]
    cases sqlExpr P cols e defaultCtx ps with
    | none => rfl
    | some r =>
      obtain ⟨t, q⟩ := r
      dsimp only
      rw [skipLoop_eq, skipGen_ctx terms vals BOp.and.prec]
      cases skipGen terms vals 0 q with
      | none => rfl
      | some r2 =>
        obtain ⟨u, q2⟩ := r2
        have hb : ∀ w, bracket 0 BOp.and.prec w = w := fun _ => rfl
        simp [hb]

theorem RelPos.paren {f : Gen positional} {f' : Gen inlined} (c : Nat) (hf : RelPos f f') :
    RelPos (paren c f) (paren c f') := by
  intro ctx ps ts ps' h
  unfold Verif.Sql.paren at h ⊢
  cases h1 : f c ps with
  | none => rw [h1] at h; exact absurd h (by simp)
  | some r1 =>
    obtain ⟨t, ps1⟩ := r1
    rw [h1] at h
    obtain ⟨rfl, rfl⟩ := Prod.mk.inj (Option.some.inj h)
    obtain ⟨vs, e1, c1, b1⟩ := hf _ _ _ _ h1
    have hb := bindPos_bracket 1 0 vs t c1
    refine ⟨vs, e1, hb.2, ?_⟩
    rw [b1]
    exact congrArg (fun x => some (x, ())) hb.1.symm

theorem RelPos.litGen (v : Val) : RelPos (litGen v) (litGen v) := by
  intro ctx ps ts ps' h
  obtain ⟨rfl, rfl⟩ := Prod.mk.inj (Option.some.inj h)
  exact ⟨[v], rfl, rfl, rfl⟩

/-- The terms of an order as translations. -/
def gens (P : Params) (cols : Cols) (terms : List (Expr × Bool)) : List (Gen P × Bool) :=
  terms.map fun t => (sqlExpr P cols t.1, t.2)

theorem sqlExpr_relPos (cols : Cols) (e : Expr) : RelPos (sqlExpr positional cols e) (sqlExpr inlined cols e) := by
  have hr := sqlExpr_rel relPos_cong cols e
  rwa [mapLit_id] at hr

theorem skipGen_relPos (cols : Cols) : ∀ (terms : List (Expr × Bool)) (vals : List Val),
    RelPos (skipGen (gens positional cols terms) vals) (skipGen (gens inlined cols terms) vals)
  | [], _ => RelPos.none
  | [(e, asc)], [] => RelPos.none
  | (e, asc) :: _ :: _, [] => RelPos.none
  | [(e, asc)], v :: vs => (RelPos.binary _ (sqlExpr_relPos cols e) (RelPos.litGen v)).paren 0
  | (e, asc) :: t :: rest, v :: vs =>
    (RelPos.binary .or (RelPos.binary _ (sqlExpr_relPos cols e) (RelPos.litGen v))
      ((RelPos.binary .and (RelPos.binary .eq (sqlExpr_relPos cols e) (RelPos.litGen v))
        (skipGen_relPos cols (t :: rest) vs)).paren 0)).paren 0

theorem whereGen_relPos (cols : Cols) (filter : Option Expr) (terms : List (Expr × Bool)) (vals : List Val) :
    RelPos (whereGen cols filter (gens positional cols terms) vals)
      (whereGen cols filter (gens inlined cols terms) vals) := by
  cases filter with
  | none => exact skipGen_relPos cols terms vals
  | some e => exact RelPos.binary .and ((sqlExpr_relPos cols e).paren defaultCtx) (skipGen_relPos cols terms vals)

variable {D : Type}

theorem GenOk.paren {S : Sem D} {f : Gen inlined} {tf top : Option BOp} {d : Option D} (c : Nat)
    (hf : GenOk S f tf d) : GenOk S (paren c f) top d := by
  intro ctx ts h
  unfold Verif.Sql.paren at h
  cases h1 : f c () with
  | none => rw [h1] at h; exact absurd h (by simp)
  | some r1 =>
    obtain ⟨t, u1⟩ := r1
    rw [h1] at h
    obtain ⟨rfl, _⟩ := Prod.mk.inj (Option.some.inj h)
    obtain ⟨a, da, ha⟩ := hf _ _ h1
    exact ⟨a, da, fun n _ => .paren (ha 0 fun _ _ _ => Nat.zero_le _)⟩

theorem GenOk.litGen (S : Sem D) (top : Option BOp) (v : Val) : GenOk S (litGen v) top (some (S.val v)) := by
  intro ctx ts h
  obtain ⟨rfl, _⟩ := Prod.mk.inj (Option.some.inj h)
  exact ⟨.val v, rfl, fun _ _ => .val v⟩

/-- The meaning of the clause for the meanings of the order expressions. -/
def skipDen (S : Sem D) : List (Option D × Bool) → List D → Option D
  | [(d, asc)], v :: _ => bin? S (dirOp asc) d (some v)
  | (d, asc) :: t :: rest, v :: vs =>
    bin? S .or (bin? S (dirOp asc) d (some v)) (bin? S .and (bin? S .eq d (some v)) (skipDen S (t :: rest) vs))
  | _, _ => none

/-- The terms that are written correctly as the left operand of a comparison. -/
def termOk (e : Expr) : Bool := wellNested e && leftOk .lt (topOf e)

theorem termOk_dir {e : Expr} (h : termOk e = true) (asc : Bool) :
    wellNested e = true ∧ leftOk (dirOp asc) (topOf e) = true ∧ leftOk .eq (topOf e) = true := by
  unfold termOk at h
  rw [Bool.and_eq_true] at h
  refine ⟨h.1, ?_, ?_⟩
  · cases asc
    · exact h.2
    · have h2 := h.2; revert h2
      cases topOf e with
      | none => decide
      | some l => cases l <;> decide
  · cases topOf e with
    | none => rfl
    | some l => cases l <;> rfl

theorem skipGen_ok {S : Sem D} (hS : S.Assoc) (cols : Cols) : ∀ (terms : List (Expr × Bool)) (vals : List Val),
    (∀ t ∈ terms, termOk t.1 = true) →
    GenOk S (skipGen (gens inlined cols terms) vals) none
      (skipDen S (terms.map fun t => (den S cols t.1, t.2)) (vals.map S.val))
  | [], _, _ => GenOk.none _ _ _
  | [(e, asc)], [], _ => GenOk.none _ _ _
  | (e, asc) :: _ :: _, [], _ => GenOk.none _ _ _
  | [(e, asc)], v :: vs, h => by
    obtain ⟨h1, h2, h3⟩ := termOk_dir (h (e, asc) (by simp)) asc
    exact (GenOk.binary hS _ (sqlExpr_ok hS cols e h1) (GenOk.litGen S none v) h2 rfl).paren 0
  | (e, asc) :: t :: rest, v :: vs, h => by
    obtain ⟨h1, h2, h3⟩ := termOk_dir (h (e, asc) (by simp)) asc
    have ih := skipGen_ok hS cols (t :: rest) vs (fun t' ht => h t' (List.mem_cons_of_mem _ ht))
    have k1 := GenOk.binary hS (dirOp asc) (sqlExpr_ok hS cols e h1) (GenOk.litGen S none v) h2 rfl
    have k2 := GenOk.binary hS .eq (sqlExpr_ok hS cols e h1) (GenOk.litGen S none v) h3 rfl
    have k3 := GenOk.binary hS .and k2 ih rfl rfl
    have k4 := GenOk.binary hS .or k1 (k3.paren (top := none) 0) (by cases asc <;> rfl) rfl
    exact k4.paren 0

theorem whereGen_ok {S : Sem D} (hS : S.Assoc) (cols : Cols) (filter : Option Expr) (terms : List (Expr × Bool))
    (vals : List Val) (hf : ∀ e, filter = some e → wellNested e = true) (h : ∀ t ∈ terms, termOk t.1 = true) :
    ∃ top, GenOk S (whereGen cols filter (gens inlined cols terms) vals) top
      (match filter with
        | none => skipDen S (terms.map fun t => (den S cols t.1, t.2)) (vals.map S.val)
        | some e => bin? S .and (den S cols e)
            (skipDen S (terms.map fun t => (den S cols t.1, t.2)) (vals.map S.val))) := by
  cases filter with
  | none => exact ⟨_, skipGen_ok hS cols terms vals h⟩
  | some e => exact ⟨_, GenOk.binary hS .and ((sqlExpr_ok hS cols e (hf e rfl)).paren (top := none) defaultCtx)
      (skipGen_ok hS cols terms vals h) rfl rfl⟩

/-! ### The clause in SQLite -/

section
variable {k : Conv} {like : SqlVal → SqlVal → SqlVal} {fn1 : Method → SqlVal → SqlVal}
  {fn2 : Method → SqlVal → SqlVal → SqlVal} {row : Str → SqlVal}

theorem compare3_plain (f : SqlVal → SqlVal → Bool) {a b : SqlVal} (ha : Plain a) (hb : Plain b) :
    compare3 f a b = some (f a b) := by
  cases a <;> cases b <;> first | rfl | (exact ha.elim) | (exact hb.elim)

theorem dir_plain (asc : Bool) {a b : SqlVal} (ha : Plain a) (hb : Plain b) :
    (sqlite k like fn1 fn2 row).bin (dirOp asc) a b = ofTruth (some (if asc then valLt b a else valLt a b)) := by
  cases asc
  · show ofTruth (compare3 valLt a b) = _
    rw [compare3_plain _ ha hb]; rfl
  · show ofTruth (compare3 (fun a b => valLt b a) a b) = _
    rw [compare3_plain _ ha hb]; rfl

theorem eq_plain {a b : SqlVal} (ha : Plain a) (hb : Plain b) :
    (sqlite k like fn1 fn2 row).bin .eq a b = ofTruth (some (a == b)) := by
  show ofTruth (compare3 (fun a b => a == b) a b) = _
  rw [compare3_plain _ ha hb]

theorem and3_some (a b : Bool) : and3 (some a) (some b) = some (a && b) := by cases a <;> cases b <;> rfl
theorem or3_some (a b : Bool) : or3 (some a) (some b) = some (a || b) := by cases a <;> cases b <;> rfl

/-- The values of the order expressions of a row. -/
inductive KeyOf (S : Sem SqlVal) (cols : Cols) : List (Expr × Bool) → List SqlVal → Prop where
  | nil : KeyOf S cols [] []
  | cons {e asc rest d ds} : den S cols e = some d → Plain d → KeyOf S cols rest ds →
      KeyOf S cols ((e, asc) :: rest) (d :: ds)

theorem skipDen_truth (cols : Cols) : ∀ (terms : List (Expr × Bool)) (vals : List Val) (key : List SqlVal),
    KeyOf (sqlite k like fn1 fn2 row) cols terms key → (∀ v ∈ vals, Plain (paramVal v)) →
    ∀ d, skipDen (sqlite k like fn1 fn2 row)
      (terms.map fun t => (den (sqlite k like fn1 fn2 row) cols t.1, t.2))
      (vals.map (sqlite k like fn1 fn2 row).val) = some d →
    d = ofTruth (some (afterKey (terms.map Prod.snd) key (vals.map paramVal)))
  | [], _, _, _, _, _, h => by cases h
  | [(e, asc)], [], _, _, _, _, h => by cases h
  | (e, asc) :: _ :: _, [], _, _, _, _, h => by cases h
  | [(e, asc)], v :: vs, key, hk, hv, d, h => by
    cases hk with
    | @cons _ _ _ d' ds hd hp hk =>
      simp only [List.map_cons, List.map_nil, skipDen, hd, bin?] at h
      rw [← Option.some.inj h]
      show (sqlite k like fn1 fn2 row).bin (dirOp asc) d' (paramVal v) = _
      rw [dir_plain asc hp (hv v (by simp))]
      cases ds <;> simp [afterKey]
  | (e, asc) :: t :: rest, v :: vs, key, hk, hv, d, h => by
    cases hk with
    | @cons _ _ _ d' ds hd hp hk =>
      simp only [List.map_cons, skipDen, hd] at h
      obtain ⟨x, y, h1, h2, rfl⟩ := bin?_some h
      obtain ⟨x2, y2, h3, h4, rfl⟩ := bin?_some h2
      have ih := skipDen_truth cols (t :: rest) vs ds hk (fun w hw => hv w (List.mem_cons_of_mem _ hw)) y2
        (by simpa using h4)
      subst ih
      have hx : x = (sqlite k like fn1 fn2 row).bin (dirOp asc) d' (paramVal v) := (Option.some.inj h1).symm
      have hx2 : x2 = (sqlite k like fn1 fn2 row).bin .eq d' (paramVal v) := (Option.some.inj h3).symm
      rw [hx, hx2, dir_plain asc hp (hv v (by simp)), eq_plain hp (hv v (by simp))]
      show ofTruth (or3 (truth k (ofTruth _)) (truth k (ofTruth (and3 (truth k (ofTruth _)) (truth k (ofTruth _)))))) = _
      rw [truth_ofTruth, truth_ofTruth, truth_ofTruth, truth_ofTruth, and3_some, or3_some]
      simp [afterKey]

/-- **C88** (the order expressions have no null values, and are not `a eq b` and the like; what is missing is shown
by the violations below).  The condition of a page that continues after a skiptoken has exactly one reading in SQL,
and it holds for a row exactly when the row satisfies the filter and comes after the token in the order. -/
theorem C88_clause_partial (cols : Cols) (filter : Option Expr) (terms : List (Expr × Bool)) (token : List Val)
    (key : List SqlVal) (hf : ∀ e, filter = some e → wellNested e = true) (ht : ∀ t ∈ terms, termOk t.1 = true)
    (hk : KeyOf (sqlite k like fn1 fn2 row) cols terms key) (hv : ∀ v ∈ token, Plain (paramVal v))
    (ts : List Tok) (vs : List Val)
    (h : whereClause (P := positional) cols filter (some (gens positional cols terms, token)) [] = some (ts, vs)) :
    ∃ a, Derives 0 (bindPos vs ts) a ∧ (∀ b, Derives 0 (bindPos vs ts) b → b = a) ∧
      (selected k (a.den (sqlite k like fn1 fn2 row)) ↔
        (∀ e, filter = some e → ∃ d, den (sqlite k like fn1 fn2 row) cols e = some d ∧ selected k d) ∧
        afterKey (terms.map Prod.snd) key (token.map paramVal) = true) := by
  rw [whereClause_eq] at h
  obtain ⟨ws, e1, e2, e3⟩ := whereGen_relPos cols filter terms token _ _ _ _ h
  rw [List.nil_append] at e1
  subst e1
  have hS := sqlite_assoc k like fn1 fn2 row
  obtain ⟨top, hok⟩ := whereGen_ok hS cols filter terms token hf ht
  obtain ⟨a, da, ha⟩ := hok _ _ e3
  have hd := ha 0 fun _ _ _ => Nat.zero_le _
  refine ⟨a, hd, fun b hb => derives_unique hb hd, ?_⟩
  cases filter with
  | none =>
    have := skipDen_truth cols terms token key hk hv _ da
    rw [this, selected_ofTruth]
    simp
  | some e =>
    obtain ⟨x, y, h1, h2, h3⟩ := bin?_some da
    have := skipDen_truth cols terms token key hk hv _ h2
    rw [h3, this]
    show selected k (ofTruth (and3 (truth k x) (truth k (ofTruth _)))) ↔ _
    rw [selected_ofTruth, truth_ofTruth]
    have hx : (∀ e', some e = some e' → ∃ d, den (sqlite k like fn1 fn2 row) cols e' = some d ∧ selected k d) ↔
        truth k x = some true := by
      constructor
      · intro hh
        obtain ⟨d, hd1, hd2⟩ := hh e rfl
        rw [h1] at hd1
        have := Option.some.inj hd1; subst this
        exact hd2
      · intro hh e' he
        have := Option.some.inj he; subst this
        exact ⟨x, h1, hh⟩
    rw [hx]
    generalize afterKey _ _ _ = q
    rcases truth k x with _ | _ | _ <;> cases q <;> simp [and3]
end

/-! ### Examples -/

/-- `name desc` and then the key `id`. -/
def exTerms : List (Expr × Bool) := [(.prop [110], false), (.prop [105], true)]

/-- A token for a row with name "ab" and key 7. -/
def exToken : List Val := [.str [97, 98], .i32 7]

/-- `id gt 3` -/
def exCond : Expr := .node .gt [.prop [105], .lit (.i32 3)]

/-- A row with the given name and key. -/
def exNamed (name : SqlVal) (key : Int) : Str → SqlVal := fun c => if c = [110] then name else .int key

/-- SQLite with a row and no conversions. -/
def exSqlite (row : Str → SqlVal) : Sem SqlVal := sqlite exConv (fun _ _ => .null) (fun _ v => v) (fun _ _ _ => .null) row

/-- The hypotheses of C88 are met, by a row that comes after the token and by one that does not. -/
example : (whereClause (P := positional) idCols (some exCond) (some (gens positional idCols exTerms, exToken)) []).isSome = true ∧
    KeyOf (exSqlite (exNamed (.text [97, 98]) 9)) idCols exTerms [.text [97, 98], .int 9] ∧
    afterKey [false, true] [.text [97, 98], .int 9] (exToken.map paramVal) = true ∧
    afterKey [false, true] [.text [97, 98, 99], .int 9] (exToken.map paramVal) = false ∧
    (∀ t ∈ exTerms, termOk t.1 = true) ∧ (∀ v ∈ exToken, Plain (paramVal v)) := by
  refine ⟨by decide +kernel, .cons rfl trivial (.cons rfl trivial .nil), by decide +kernel, by decide +kernel,
    by decide +kernel, ?_⟩
  intro v hv
  simp only [exToken, List.mem_cons, List.not_mem_nil, or_false] at hv
  rcases hv with rfl | rfl <;> trivial

/-- The text of the clause for the example:
`(id > ?) AND (name < ? OR (name = ? AND (id > ?)))`. -/
example : whereClause (P := positional) idCols (some exCond) (some (gens positional idCols exTerms, exToken)) [] =
    some ([.lp, .col [105], .op .gt, .ph none, .rp, .op .and,
      .lp, .col [110], .op .lt, .ph none, .op .or, .lp, .col [110], .op .eq, .ph none, .op .and,
      .lp, .col [105], .op .gt, .ph none, .rp, .rp, .rp],
      [.i32 3, .str [97, 98], .str [97, 98], .i32 7]) := by decide +kernel

/-- The clause without a filter for `name desc` and then the key. -/
def exClause : List Tok × List Val :=
  ([.lp, .col [110], .op .lt, .ph none, .op .or, .lp, .col [110], .op .eq, .ph none, .op .and,
      .lp, .col [105], .op .gt, .ph none, .rp, .rp, .rp], [.str [97, 98], .str [97, 98], .i32 7])

/-- A row whose order value is NULL is at the end of the order `name desc` in SQLite (NULL is smaller than any other
value), so it comes after the token, but the condition does not hold for it: the row is in no page. -/
theorem C88_violation_null :
    whereClause (P := positional) idCols none (some (gens positional idCols exTerms, exToken)) [] = some exClause ∧
    ∃ a, Derives 0 (bindPos exClause.2 exClause.1) a ∧
      ∀ key, ¬ selected exConv (a.den (exSqlite (exNamed .null key))) := by
  refine ⟨by decide +kernel, .bin .or (.bin .lt (.col [110]) (.val (.str [97, 98])))
    (.bin .and (.bin .eq (.col [110]) (.val (.str [97, 98]))) (.bin .gt (.col [105]) (.val (.i32 7)))), ?_, ?_⟩
  · refine Derives.paren (ts := [.col [110], .op .lt, .val (.str [97, 98]), .op .or, .lp, .col [110], .op .eq,
      .val (.str [97, 98]), .op .and, .lp, .col [105], .op .gt, .val (.i32 7), .rp, .rp]) ?_
    refine Derives.bin (ts := [.col [110], .op .lt, .val (.str [97, 98])]) .or (by decide) ?_ ?_
    · exact .bin (ts := [.col [110]]) .lt (by decide) (.col _) (.val _)
    · refine Derives.paren (ts := [.col [110], .op .eq, .val (.str [97, 98]), .op .and, .lp, .col [105], .op .gt,
        .val (.i32 7), .rp]) ?_
      refine Derives.bin (ts := [.col [110], .op .eq, .val (.str [97, 98])]) .and (by decide) ?_ ?_
      · exact .bin (ts := [.col [110]]) .eq (by decide) (.col _) (.val _)
      · refine Derives.paren (ts := [.col [105], .op .gt, .val (.i32 7)]) ?_
        exact .bin (ts := [.col [105]]) .gt (by decide) (.col _) (.val _)
  · intro key
    show ¬ (truth exConv (ofTruth (or3 (truth exConv (ofTruth none)) (truth exConv (ofTruth
      (and3 (truth exConv (ofTruth none)) (truth exConv (ofTruth (some _)))))))) = some true)
    rw [truth_ofTruth, truth_ofTruth, truth_ofTruth, truth_ofTruth]
    dsimp only
    generalize valLt _ _ = q
    cases q <;> decide

/-- The order expression `a eq b` is written without brackets: the condition `(a = b < ?)` is read by SQLite as
`a = (b < ?)`. -/
theorem C88_violation_boolean (v : Val) :
    whereClause (P := positional) idCols none
      (some (gens positional idCols [(.node .eq [.prop [97], .prop [98]], false)], [v])) [] =
      some ([.lp, .col [97], .op .eq, .col [98], .op .lt, .ph none, .rp], [v]) ∧
    Derives 0 (bindPos [v] [.lp, .col [97], .op .eq, .col [98], .op .lt, .ph none, .rp])
      (.bin .eq (.col [97]) (.bin .lt (.col [98]) (.val v))) := by
  refine ⟨rfl, ?_⟩
  refine Derives.paren (ts := [.col [97], .op .eq, .col [98], .op .lt, .val v]) ?_
  refine Derives.bin (ts := [.col [97]]) .eq (by decide) (.col _) ?_
  exact .bin (ts := [.col [98]]) .lt (by decide) (.col _) (.val _)

end Verif.Sql

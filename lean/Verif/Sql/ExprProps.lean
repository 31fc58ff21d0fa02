import Verif.Sql.Grammar
/-!
# Properties of the translation of OData expressions to SQL (C84, C85)
-/
namespace Verif.Sql
open Verif.OData

/-! ### Specification -/

variable {D : Type}

/-- The meaning of an OData operator in terms of SQL, given the meanings of its operands: each OData operator means
the SQL operator or function of the same kind; `startswith(a,b)` means `a LIKE b || '%'`, and so on. -/
def nodeDen (S : Sem D) (cols : Cols) (op : Op) (path : Option (List Str)) (ds : List (Option D)) : Option D :=
  match op with
  | .member => (path.bind cols).map S.col
  | .call m =>
    match m, ds with
    | .endswith, some a :: some b :: _ => some (S.bin .like a (S.bin .concat S.pct b))
    | .startswith, some a :: some b :: _ => some (S.bin .like a (S.bin .concat b S.pct))
    | .substringof, some a :: some b :: _ => some (S.bin .like b (S.bin .concat S.pct (S.bin .concat a S.pct)))
    | .concat, some a :: some b :: _ => some (S.bin .concat a b)
    | .indexof, some a :: some b :: _ => some (S.fn2 .indexof a b)
    | m, some a :: _ => if oneOperand m then some (S.fn1 m a) else none
    | _, _ => none
  | op =>
    match bopOf op, ds with
    | some o, some a :: some b :: _ => some (S.bin o a b)
    | _, _ => none

mutual
/-- The meaning of an OData expression, built from the meanings of its parts. -/
def den (S : Sem D) (cols : Cols) : Expr → Option D
  | .none => none
  | .lit v => some (S.val v)
  | .prop n => (cols [n]).map S.col
  | .node op args => nodeDen S cols op (nodePath op (memberPaths args)) (dens S cols args)
/-- The meanings of the operands. -/
def dens (S : Sem D) (cols : Cols) : List Expr → List (Option D)
  | [] => []
  | e :: es => den S cols e :: dens S cols es
end

/-- The operator at the top of the SQL form of an expression. -/
def topOf : Expr → Option BOp
  | .node (.call .endswith) _ | .node (.call .startswith) _ | .node (.call .substringof) _ => some .like
  | .node (.call .concat) _ => some .concat
  | .node op _ => bopOf op
  | _ => none

/-- The left operands that are written correctly: not `(a = b) < c`, where SQLite gives `<` priority over `=`, and
not an arithmetic product as an operand of `||`. -/
def leftOk (o : BOp) (l : Option BOp) : Bool :=
  match o, l with
  | .lt, some .eq | .lt, some .ne | .lt, some .like | .gt, some .eq | .gt, some .ne | .gt, some .like
  | .le, some .eq | .le, some .ne | .le, some .like | .ge, some .eq | .ge, some .ne | .ge, some .like
  | .concat, some .mul | .concat, some .div => false
  | _, _ => true

/-- A comparison. -/
def BOp.isCmp (o : BOp) : Bool := o.prec == 4
/-- One of `<`, `>`, `<=`, `>=`. -/
def BOp.isRel (o : BOp) : Bool := o.lvl == 5
/-- `+` or `-`. -/
def BOp.isAdd (o : BOp) : Bool := o.prec == 5
/-- `*` or `/`. -/
def BOp.isMul (o : BOp) : Bool := o.lvl == 7

/-- The right operands that are written correctly: a comparison is not the right operand of a comparison (except
`a = (b < c)`), a sum is not the right operand of a sum, nor a product that of a product, nor a product that of
`||`. -/
def rightOk (o : BOp) (r : Option BOp) : Bool :=
  match r with
  | none => true
  | some r =>
    !((o.isCmp && r.isCmp && !(r.isRel && !o.isRel)) || (o.isAdd && r.isAdd) || ((o.isMul || o == .concat) && r.isMul))

/-- The conditions at one operator. -/
def nodeNested (op : Op) (args : List Expr) : Bool :=
  match op, args with
  | .call .endswith, a :: b :: _ => leftOk .like (topOf a) && rightOk .concat (topOf b)
  | .call .startswith, a :: b :: _ => leftOk .like (topOf a) && leftOk .concat (topOf b)
  | .call .substringof, a :: b :: _ => leftOk .like (topOf b) && leftOk .concat (topOf a)
  | .call .concat, a :: b :: _ => leftOk .concat (topOf a) && rightOk .concat (topOf b)
  | op, a :: b :: _ => match bopOf op with | some o => leftOk o (topOf a) && rightOk o (topOf b) | none => true
  | _, _ => true

mutual
/-- Every operator has operands that are written correctly. -/
def wellNested : Expr → Bool
  | .node op args => nodeNested op args && allNested args
  | _ => true
/-- All the operands. -/
def allNested : List Expr → Bool
  | [] => true
  | e :: es => wellNested e && allNested es
end

/-! ### The text with the values in place of the placeholders -/

/-- Values written directly. -/
@[reducible] def inlined : Params := ⟨Unit, fun _ v => (.val v, ())⟩

/-- The number of anonymous placeholders. -/
def phCount : List Tok → Nat
  | [] => 0
  | .ph none :: ts => phCount ts + 1
  | _ :: ts => phCount ts

theorem phCount_append : ∀ (ts us : List Tok), phCount (ts ++ us) = phCount ts + phCount us
  | [], us => by simp [phCount]
  | t :: ts, us => by
    have ih := phCount_append ts us
    rcases t with _ | _ | o | c | k | v | _ | m | m | m <;> try (simp only [List.cons_append, phCount]; omega)
    cases k with
    | none => simp only [List.cons_append, phCount]; omega
    | some k => simp only [List.cons_append, phCount]; omega

theorem bindPos_nil_left : ∀ (ts : List Tok), bindPos [] ts = ts
  | [] => by rw [bindPos]
  | t :: ts => by
    rw [bindPos]
    · rw [bindPos_nil_left ts]
    · intro v vs hv; exact absurd hv (by simp)

theorem bindPos_append : ∀ (ts us : List Tok) (vs ws : List Val), phCount ts = vs.length →
    bindPos (vs ++ ws) (ts ++ us) = bindPos vs ts ++ bindPos ws us
  | [], us, vs, ws, h => by
    have : vs = [] := by simpa [phCount] using h.symm
    subst this
    simp [bindPos]
  | t :: ts, us, vs, ws, h => by
    by_cases ht : t = .ph none
    · subst ht
      cases vs with
      | nil => simp [phCount] at h
      | cons v vs =>
        have h' : phCount ts = vs.length := by simpa [phCount] using h
        simp only [List.cons_append, bindPos]
        rw [bindPos_append ts us vs ws h']
    · have hc : phCount (t :: ts) = phCount ts := by
        rcases t with _ | _ | o | c | k | v | _ | m | m | m <;> try rfl
        cases k with
        | none => exact absurd rfl ht
        | some k => rfl
      rw [hc] at h
      have hb : ∀ (vs : List Val) (ts : List Tok), bindPos vs (t :: ts) = t :: bindPos vs ts := by
        intro vs ts
        rw [bindPos]
        intro v vs' _ h; exact ht h
      rw [List.cons_append, hb, hb, bindPos_append ts us vs ws h, List.cons_append]

theorem bindPos_single (vs : List Val) (t : Tok) (h : t ≠ .ph none) : bindPos vs [t] = [t] := by
  rw [bindPos]
  · simp [bindPos]
  · intro v vs' _ h'; exact h h'

/-- The translation with placeholders becomes the translation with values when the placeholders are bound. -/
def RelPos (f : Gen positional) (f' : Gen inlined) : Prop :=
  ∀ ctx (ps : List Val) ts (ps' : List Val), f ctx ps = some (ts, ps') →
    ∃ vs, ps' = ps ++ vs ∧ phCount ts = vs.length ∧ f' ctx () = some (bindPos vs ts, ())

theorem RelPos.none : RelPos (fun _ _ => Option.none) (fun _ _ => Option.none) := by
  intro ctx ps ts ps' h; exact absurd h (by simp)

theorem RelPos.percent : RelPos Verif.Sql.percent Verif.Sql.percent := by
  intro ctx ps ts ps' h
  obtain ⟨rfl, rfl⟩ := Prod.mk.inj (Option.some.inj h)
  exact ⟨[], by simp, rfl, rfl⟩

theorem bindPos_bracket (ctx p : Nat) (vs : List Val) (ts : List Tok) (h : phCount ts = vs.length) :
    bindPos vs (bracket ctx p ts) = bracket ctx p (bindPos vs ts) ∧ phCount (bracket ctx p ts) = vs.length := by
  unfold bracket
  split
  · have h1 : Tok.lp :: ts ++ [Tok.rp] = [Tok.lp] ++ (ts ++ [Tok.rp]) := by simp
    refine ⟨?_, ?_⟩
    · rw [h1]
      have := bindPos_append [Tok.lp] (ts ++ [Tok.rp]) [] vs rfl
      rw [List.nil_append] at this
      rw [this]
      have h2 := bindPos_append ts [Tok.rp] vs [] h
      rw [List.append_nil] at h2
      rw [h2]; simp [bindPos]
    · rw [h1, phCount_append, phCount_append]; simp [phCount, h]
  · exact ⟨rfl, h⟩

theorem RelPos.binary {f g : Gen positional} {f' g' : Gen inlined} (o : BOp) (hf : RelPos f f') (hg : RelPos g g') :
    RelPos (binary o f g) (binary o f' g') := by
  intro ctx ps ts ps' h
  unfold Verif.Sql.binary at h ⊢
  cases h1 : f o.prec ps with
  | none => rw [h1] at h; exact absurd h (by simp)
  | some r1 =>
    obtain ⟨t, ps1⟩ := r1
    rw [h1] at h
    dsimp only at h
    cases h2 : g o.prec ps1 with
    | none => rw [h2] at h; exact absurd h (by simp)
    | some r2 =>
      obtain ⟨u, ps2⟩ := r2
      rw [h2] at h
      dsimp only at h
      obtain ⟨rfl, rfl⟩ := Prod.mk.inj (Option.some.inj h)
      obtain ⟨vs, e1, c1, b1⟩ := hf _ _ _ _ h1
      obtain ⟨ws, e2, c2, b2⟩ := hg _ _ _ _ h2
      have hc : phCount (t ++ Tok.op o :: u) = (vs ++ ws).length := by
        rw [phCount_append]; simp [phCount, c1, c2]
      refine ⟨vs ++ ws, by rw [e2, e1, List.append_assoc], (bindPos_bracket _ _ _ _ hc).2, ?_⟩
      rw [b1]; dsimp only; rw [b2]; dsimp only
      rw [(bindPos_bracket _ _ _ _ hc).1]
      have h3 := bindPos_append [Tok.op o] u [] ws rfl
      rw [List.nil_append] at h3
      have h4 := bindPos_append t (Tok.op o :: u) vs ws c1
      rw [h4]
      have h5 : bindPos ws (Tok.op o :: u) = Tok.op o :: bindPos ws u := by simpa [bindPos] using h3
      rw [h5]

theorem RelPos.call1 {f : Gen positional} {f' : Gen inlined} (m : Method) (hf : RelPos f f') :
    RelPos (call1 m f) (call1 m f') := by
  intro ctx ps ts ps' h
  unfold Verif.Sql.call1 at h ⊢
  cases h1 : f commaPrec ps with
  | none => rw [h1] at h; exact absurd h (by simp)
  | some r1 =>
    obtain ⟨t, ps1⟩ := r1
    rw [h1] at h
    dsimp only at h
    obtain ⟨rfl, rfl⟩ := Prod.mk.inj (Option.some.inj h)
    obtain ⟨vs, e1, c1, b1⟩ := hf _ _ _ _ h1
    have hx : Tok.fopen m :: t ++ [Tok.fclose m] = [Tok.fopen m] ++ (t ++ [Tok.fclose m]) := by simp
    refine ⟨vs, e1, ?_, ?_⟩
    · rw [hx, phCount_append, phCount_append]; simp [phCount, c1]
    · rw [b1]; dsimp only
      rw [hx]
      have := bindPos_append [Tok.fopen m] (t ++ [Tok.fclose m]) [] vs rfl
      rw [List.nil_append] at this
      rw [this]
      have h2 := bindPos_append t [Tok.fclose m] vs [] c1
      rw [List.append_nil] at h2
      rw [h2]; simp [bindPos]

theorem RelPos.call2 {f g : Gen positional} {f' g' : Gen inlined} (m : Method) (hf : RelPos f f')
    (hg : RelPos g g') : RelPos (call2 m f g) (call2 m f' g') := by
  intro ctx ps ts ps' h
  unfold Verif.Sql.call2 at h ⊢
  cases h1 : f commaPrec ps with
  | none => rw [h1] at h; exact absurd h (by simp)
  | some r1 =>
    obtain ⟨t, ps1⟩ := r1
    rw [h1] at h
    dsimp only at h
    cases h2 : g commaPrec ps1 with
    | none => rw [h2] at h; exact absurd h (by simp)
    | some r2 =>
      obtain ⟨u, ps2⟩ := r2
      rw [h2] at h
      dsimp only at h
      obtain ⟨rfl, rfl⟩ := Prod.mk.inj (Option.some.inj h)
      obtain ⟨vs, e1, c1, b1⟩ := hf _ _ _ _ h1
      obtain ⟨ws, e2, c2, b2⟩ := hg _ _ _ _ h2
      have hx : Tok.fopen m :: t ++ Tok.fsep m :: u ++ [Tok.fclose m]
          = [Tok.fopen m] ++ (t ++ ([Tok.fsep m] ++ (u ++ [Tok.fclose m]))) := by simp
      refine ⟨vs ++ ws, by rw [e2, e1, List.append_assoc], ?_, ?_⟩
      · rw [hx]; simp only [phCount_append]; simp [phCount, c1, c2]
      · rw [b1]; dsimp only; rw [b2]; dsimp only
        rw [hx]
        have k1 := bindPos_append [Tok.fopen m] (t ++ ([Tok.fsep m] ++ (u ++ [Tok.fclose m]))) [] (vs ++ ws) rfl
        rw [List.nil_append] at k1
        have k2 := bindPos_append t ([Tok.fsep m] ++ (u ++ [Tok.fclose m])) vs ws c1
        have k3 := bindPos_append [Tok.fsep m] (u ++ [Tok.fclose m]) [] ws rfl
        rw [List.nil_append] at k3
        have k4 := bindPos_append u [Tok.fclose m] ws [] c2
        rw [List.append_nil] at k4
        rw [k1, k2, k3, k4]; simp [bindPos]

/-- The same for placeholders with an index: the parameters may be followed by others. -/
def RelIdx (f : Gen indexed) (f' : Gen inlined) : Prop :=
  ∀ ctx (ps : List Val) ts (ps' : List Val), f ctx ps = some (ts, ps') →
    ∃ vs, ps' = ps ++ vs ∧ ∀ ws, f' ctx () = some (bindIdx (ps' ++ ws) ts, ())

theorem bindIdx_append (vs : List Val) : ∀ (ts us : List Tok), bindIdx vs (ts ++ us) = bindIdx vs ts ++ bindIdx vs us
  | [], us => by simp [bindIdx]
  | t :: ts, us => by
    have ih := bindIdx_append vs ts us
    rcases t with _ | _ | o | c | k | v | _ | m | m | m <;>
      try (simp only [List.cons_append, bindIdx, ih])
    cases k with
    | none => simp only [List.cons_append, bindIdx, ih]
    | some k => simp only [List.cons_append, bindIdx, ih]

theorem bindIdx_bracket (vs : List Val) (ctx p : Nat) (ts : List Tok) :
    bindIdx vs (bracket ctx p ts) = bracket ctx p (bindIdx vs ts) := by
  unfold bracket
  split
  · have h1 : ∀ ts : List Tok, Tok.lp :: ts ++ [Tok.rp] = [Tok.lp] ++ (ts ++ [Tok.rp]) := by simp
    rw [h1, bindIdx_append, bindIdx_append, h1]; simp [bindIdx]
  · rfl

theorem RelIdx.none : RelIdx (fun _ _ => Option.none) (fun _ _ => Option.none) := by
  intro ctx ps ts ps' h; exact absurd h (by simp)

theorem RelIdx.percent : RelIdx Verif.Sql.percent Verif.Sql.percent := by
  intro ctx ps ts ps' h
  obtain ⟨rfl, rfl⟩ := Prod.mk.inj (Option.some.inj h)
  exact ⟨[], by simp, fun _ => rfl⟩

theorem RelIdx.binary {f g : Gen indexed} {f' g' : Gen inlined} (o : BOp) (hf : RelIdx f f') (hg : RelIdx g g') :
    RelIdx (binary o f g) (binary o f' g') := by
  intro ctx ps ts ps' h
  unfold Verif.Sql.binary at h ⊢
  cases h1 : f o.prec ps with
  | none => rw [h1] at h; exact absurd h (by simp)
  | some r1 =>
    obtain ⟨t, ps1⟩ := r1
    rw [h1] at h
    dsimp only at h
    cases h2 : g o.prec ps1 with
    | none => rw [h2] at h; exact absurd h (by simp)
    | some r2 =>
      obtain ⟨u, ps2⟩ := r2
      rw [h2] at h
      dsimp only at h
      obtain ⟨rfl, rfl⟩ := Prod.mk.inj (Option.some.inj h)
      obtain ⟨vs, e1, b1⟩ := hf _ _ _ _ h1
      obtain ⟨ws, e2, b2⟩ := hg _ _ _ _ h2
      refine ⟨vs ++ ws, by rw [e2, e1, List.append_assoc], fun zs => ?_⟩
      have k1 := b1 (ws ++ zs)
      rw [← List.append_assoc, ← e2] at k1
      rw [k1]; dsimp only; rw [b2 zs]; dsimp only
      rw [bindIdx_bracket, bindIdx_append]
      rfl

theorem RelIdx.call1 {f : Gen indexed} {f' : Gen inlined} (m : Method) (hf : RelIdx f f') :
    RelIdx (call1 m f) (call1 m f') := by
  intro ctx ps ts ps' h
  unfold Verif.Sql.call1 at h ⊢
  cases h1 : f commaPrec ps with
  | none => rw [h1] at h; exact absurd h (by simp)
  | some r1 =>
    obtain ⟨t, ps1⟩ := r1
    rw [h1] at h
    dsimp only at h
    obtain ⟨rfl, rfl⟩ := Prod.mk.inj (Option.some.inj h)
    obtain ⟨vs, e1, b1⟩ := hf _ _ _ _ h1
    refine ⟨vs, e1, fun zs => ?_⟩
    rw [b1 zs]; dsimp only
    have hx : ∀ t : List Tok, Tok.fopen m :: t ++ [Tok.fclose m] = [Tok.fopen m] ++ (t ++ [Tok.fclose m]) := by simp
    rw [hx, hx, bindIdx_append, bindIdx_append]; simp [bindIdx]

theorem RelIdx.call2 {f g : Gen indexed} {f' g' : Gen inlined} (m : Method) (hf : RelIdx f f')
    (hg : RelIdx g g') : RelIdx (call2 m f g) (call2 m f' g') := by
  intro ctx ps ts ps' h
  unfold Verif.Sql.call2 at h ⊢
  cases h1 : f commaPrec ps with
  | none => rw [h1] at h; exact absurd h (by simp)
  | some r1 =>
    obtain ⟨t, ps1⟩ := r1
    rw [h1] at h
    dsimp only at h
    cases h2 : g commaPrec ps1 with
    | none => rw [h2] at h; exact absurd h (by simp)
    | some r2 =>
      obtain ⟨u, ps2⟩ := r2
      rw [h2] at h
      dsimp only at h
      obtain ⟨rfl, rfl⟩ := Prod.mk.inj (Option.some.inj h)
      obtain ⟨vs, e1, b1⟩ := hf _ _ _ _ h1
      obtain ⟨ws, e2, b2⟩ := hg _ _ _ _ h2
      refine ⟨vs ++ ws, by rw [e2, e1, List.append_assoc], fun zs => ?_⟩
      have k1 := b1 (ws ++ zs)
      rw [← List.append_assoc, ← e2] at k1
      rw [k1]; dsimp only; rw [b2 zs]; dsimp only
      have hx : ∀ t u : List Tok, Tok.fopen m :: t ++ Tok.fsep m :: u ++ [Tok.fclose m]
          = [Tok.fopen m] ++ (t ++ ([Tok.fsep m] ++ (u ++ [Tok.fclose m]))) := by simp
      rw [hx, hx]; simp only [bindIdx_append]; simp [bindIdx]

end Verif.Sql

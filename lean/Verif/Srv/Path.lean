import Verif.Srv.Model
/-!
# C136: a path leads to the resource it names
-/
namespace Verif.Srv

open Verif.OData Verif.Text Verif.OUri

variable {D E C V X Fn F : Type}

/-! ## Specification -/

/-- There is a key predicate that is not empty. -/
def HasKey (k : Option Keys) (ks : Keys) : Prop := k = some ks ∧ ks ≠ []

/-- There is none. -/
def NoKey (k : Option Keys) : Prop := k = none ∨ k = some []

/-- One segment leads from one resource to another. -/
inductive Follows (S : Service D E C V X Fn F) (d : D) : Res E C V X → Seg → Res E C V X → Prop
  | set {n k c} : S.find n = some (.set c) → NoKey k → Follows S d .model (n, k) (.coll c)
  | setKey {n k c ks e} : S.find n = some (.set c) → HasKey k ks → S.entityAt d c ks = .ok e → Follows S d .model (n, k) (.entity e)
  | value {e n k v} : S.property e n = some (.value v) → Follows S d (.entity e) (n, k) (.value v)
  | many {e n k c} : S.property e n = some (.many c) → NoKey k → Follows S d (.entity e) (n, k) (.coll c)
  | manyKey {e n k c ks e'} : S.property e n = some (.many c) → HasKey k ks → S.entityAt d c ks = .ok e' → Follows S d (.entity e) (n, k) (.entity e')
  | one {e n k g e'} : S.property e n = some (.one g) → NoKey k → g d = .ok (some e') → Follows S d (.entity e) (n, k) (.entity e')
  | none {e n k g} : S.property e n = some (.one g) → NoKey k → g d = .ok none → Follows S d (.entity e) (n, k) .null
  | field {v f n k v'} : S.field v = some f → f n = some v' → Follows S d (.value v) (n, k) (.value v')

/-- A path leads from one resource to another; the second resource is the last entity that has been passed (none at first). -/
inductive Leads (S : Service D E C V X Fn F) (d : D) : List Seg → Res E C V X → Option E → Prop
  | root : Leads S d [] .model none
  | entity {p s e a r} : Leads S d p (.entity e) a → Follows S d (.entity e) s r → Leads S d (p ++ [s]) r (some e)
  | other {p s r0 a r} : Leads S d p r0 a → (∀ e, r0 ≠ .entity e) → Follows S d r0 s r → Leads S d (p ++ [s]) r a

/-- There is nothing with this name or key there. -/
inductive Absent (S : Service D E C V X Fn F) (d : D) : Res E C V X → Seg → Prop
  | name {n k} : S.find n = none → Absent S d .model (n, k)
  | kind {n k} : S.find n = some .other → Absent S d .model (n, k)
  | key {n k c ks} : S.find n = some (.set c) → HasKey k ks → (S.entityAt d c ks = .error .key ∨ S.entityAt d c ks = .error .missing) → Absent S d .model (n, k)
  | property {e n k} : S.property e n = none → Absent S d (.entity e) (n, k)
  | manyKey {e n k c ks} : S.property e n = some (.many c) → HasKey k ks → (S.entityAt d c ks = .error .key ∨ S.entityAt d c ks = .error .missing) → Absent S d (.entity e) (n, k)
  | one {e n k g} : S.property e n = some (.one g) → NoKey k → g d = .error .missing → Absent S d (.entity e) (n, k)
  | field {v f n k} : S.field v = some f → f n = none → Absent S d (.value v) (n, k)
  | null {s} : Absent S d .null s

/-- The path starts with the name of a function import. -/
def CallsFunction (S : Service D E C V X Fn F) (p : List Seg) : Prop := ∃ s r f, p = s :: r ∧ S.find s.1 = some (.func f)

/-- The system query options that are given are among these. -/
def Only (q : QState F) (l : List SysOpt) : Prop := ∀ o v, (o, v) ∈ q.sys → o ∈ l

/-- The options that make sense for the resource, and the resource exists ($links may name a link that is not there). -/
def Final (S : Service D E C V X Fn F) (u : Uri' F) (r : Res E C V X) (a : Option E) : Prop :=
  (∀ e, r = .entity e → u.path.opt = some .value → Only u.query [.format]) ∧
  (∀ e, r = .entity e → u.path.opt ≠ some .value → u.path.opt ≠ some .links → Only u.query [.expand, .filter, .format, .select]) ∧
  (∀ v, r = .value v → Only u.query [.filter, .format] ∧ (S.field v = none → Only u.query [.format])) ∧
  (r = .null → a ≠ none → u.path.opt = some .links)

/-! ## Proofs -/

theorem run_bind {α β : Type} (x : Act D α) (f : α → Act D β) (d : D) :
    (x >>= f) d = match x d with | (d', .ok a) => f a d' | (d', .error e) => (d', .error e) := rfl

theorem bind_ok {α β : Type} {x : Act D α} {f : α → Act D β} {d d' : D} {b : β} :
    (x >>= f) d = (d', .ok b) ↔ ∃ d1 a, x d = (d1, .ok a) ∧ f a d1 = (d', .ok b) := by
  rw [run_bind]
  rcases h : x d with ⟨d1, e | a⟩
  · simp
  · simp only [Prod.mk.injEq, Except.ok.injEq]
    constructor
    · intro h'; exact ⟨d1, a, ⟨rfl, rfl⟩, h'⟩
    · rintro ⟨_, _, ⟨rfl, rfl⟩, h'⟩; exact h'

theorem bind_err {α β : Type} {x : Act D α} {f : α → Act D β} {d d' : D} {e : Exc} :
    (x >>= f) d = (d', .error e) ↔ x d = (d', .error e) ∨ ∃ d1 a, x d = (d1, .ok a) ∧ f a d1 = (d', .error e) := by
  rw [run_bind]
  rcases h : x d with ⟨d1, e' | a⟩
  · simp
  · simp only [Prod.mk.injEq, reduceCtorEq, and_false, Except.ok.injEq, false_or]
    constructor
    · intro h'; exact ⟨d1, a, ⟨rfl, rfl⟩, h'⟩
    · rintro ⟨_, _, ⟨rfl, rfl⟩, h'⟩; exact h'

@[simp] theorem run_pure {α : Type} (a : α) (d : D) : (Act.pure a : Act D α) d = (d, .ok a) := rfl
@[simp] theorem run_pure' {α : Type} (a : α) (d : D) : (Pure.pure a : Act D α) d = (d, .ok a) := rfl
@[simp] theorem run_throw {α : Type} (e : Exc) (d : D) : (Act.throw e : Act D α) d = (d, .error e) := rfl
@[simp] theorem run_read {α : Type} (f : D → Except Exc α) (d : D) : (Act.read f : Act D α) d = (d, f d) := rfl
@[simp] theorem run_lift {α : Type} (r : Except Exc α) (d : D) : (Act.lift r : Act D α) d = (d, r) := rfl

theorem theKey_some {k : Option Keys} {ks : Keys} : theKey k = some ks ↔ HasKey k ks := by
  unfold theKey HasKey
  rcases k with _ | (_ | ⟨a, b⟩) <;> simp
  rintro rfl; simp

theorem theKey_none {k : Option Keys} : theKey k = none ↔ NoKey k := by
  unfold theKey NoKey
  rcases k with _ | (_ | ⟨a, b⟩) <;> simp

theorem keyMissing_ok {α : Type} {r : Except Exc α} {a : α} : keyMissing r = .ok a ↔ r = .ok a := by
  unfold keyMissing; split <;> simp

theorem keyMissing_missing {α : Type} {r : Except Exc α} : keyMissing r = .error .missing ↔ r = .error .key ∨ r = .error .missing := by
  unfold keyMissing
  split
  · simp
  · next h => constructor
              · intro h'; exact .inr h'
              · rintro (h' | h')
                · exact absurd h' (by simpa using h)
                · exact h'

/-- The last entity passed, after one more step. -/
def nextParent (r : Res E C V X) (a : Option E) : Option E := match r with | .entity e => some e | _ => a

/-- One pass of the loop, without a function: nothing is changed, and it goes where the segment leads. -/
theorem walkStep_spec (S : Service D E C V X Fn F) (q : QState F) (r : Res E C V X) (a : Option E) (s : Seg) (d : D)
    (hf : r = .model → ∀ f, S.find s.1 ≠ some (.func f)) :
    (∃ r', Follows S d r s r' ∧ walkStep S q ⟨r, a, false⟩ s d = (d, .ok ⟨r', nextParent r a, false⟩)) ∨
    ((∀ r', ¬ Follows S d r s r') ∧ ∃ e, walkStep S q ⟨r, a, false⟩ s d = (d, .error e) ∧ (e = .missing ↔ Absent S d r s)) := by
  obtain ⟨n, k⟩ := s
  unfold walkStep
  simp only [Bool.false_eq_true, if_false]
  cases r with
  | model =>
    dsimp only
    cases hn : S.find n with
    | none =>
      right
      refine ⟨?_, .missing, rfl, by simp [Absent.name hn]⟩
      rintro r' h; cases h <;> simp_all
    | some en =>
      cases en with
      | other =>
        right
        refine ⟨?_, .missing, rfl, by simp [Absent.kind hn]⟩
        rintro r' h; cases h <;> simp_all
      | func f => exact absurd hn (hf rfl f)
      | set c =>
        dsimp only [firstKey]
        cases hk : theKey k with
        | none =>
          left
          exact ⟨.coll c, .set hn (theKey_none.mp hk), rfl⟩
        | some ks =>
          have hk' := theKey_some.mp hk
          cases he : S.entityAt d c ks with
          | ok e =>
            left
            refine ⟨.entity e, .setKey hn hk' he, ?_⟩
            simp [run_bind, keyMissing, he, nextParent]
          | error x =>
            right
            refine ⟨?_, (match keyMissing (S.entityAt d c ks) with | .error y => y | .ok _ => .other), ?_, ?_⟩
            · rintro r' h
              cases h with
              | set h1 h2 => rw [← theKey_none, hk] at h2; cases h2
              | setKey h1 h2 h3 =>
                rw [hn] at h1; cases h1
                rw [← theKey_some, hk] at h2; cases h2
                rw [he] at h3; cases h3
            · simp only [run_bind, run_read, he]
              cases x <;> rfl
            · constructor
              · intro h
                refine .key hn hk' ?_
                rw [he] at h ⊢
                cases x <;> simp_all [keyMissing]
              · intro h
                cases h with
                | name h1 => rw [hn] at h1; cases h1
                | kind h1 => rw [hn] at h1; cases h1
                | key h1 h2 h3 =>
                  rw [hn] at h1; cases h1
                  rw [← theKey_some, hk] at h2; cases h2
                  rcases h3 with h3 | h3 <;> rw [h3] <;> rfl
  | coll c =>
    right
    refine ⟨by (rintro r' h; cases h), .badSegment, rfl, by (simp; intro h; cases h)⟩
  | values x =>
    right
    refine ⟨by (rintro r' h; cases h), .badSegment, rfl, by (simp; intro h; cases h)⟩
  | null =>
    right
    exact ⟨by (rintro r' h; cases h), .missing, rfl, by simp [Absent.null]⟩
  | value v =>
    dsimp only
    cases hv : S.field v with
    | none =>
      right
      refine ⟨?_, .badSegment, rfl, ?_⟩
      · rintro r' h; cases h; simp_all
      · simp; intro h; cases h; simp_all
    | some f =>
      dsimp only
      cases hn : f n with
      | some v' => left; exact ⟨.value v', .field hv hn, rfl⟩
      | none =>
        right
        refine ⟨?_, .missing, rfl, by simp [Absent.field hv hn]⟩
        rintro r' h; cases h; simp_all
  | entity e =>
    dsimp only
    cases hn : S.property e n with
    | none =>
      right
      refine ⟨?_, .missing, rfl, by simp [Absent.property hn]⟩
      rintro r' h; cases h <;> simp_all
    | some p =>
      cases p with
      | value v => left; exact ⟨.value v, .value hn, rfl⟩
      | many c =>
        dsimp only
        cases hk : theKey k with
        | none => left; exact ⟨.coll c, .many hn (theKey_none.mp hk), rfl⟩
        | some ks =>
          have hk' := theKey_some.mp hk
          cases he : S.entityAt d c ks with
          | ok e' =>
            left
            refine ⟨.entity e', .manyKey hn hk' he, ?_⟩
            simp [run_bind, keyMissing, he, nextParent]
          | error x =>
            right
            refine ⟨?_, (match keyMissing (S.entityAt d c ks) with | .error y => y | .ok _ => .other), ?_, ?_⟩
            · rintro r' h
              cases h with
              | value h1 => rw [hn] at h1; cases h1
              | many h1 h2 => rw [← theKey_none, hk] at h2; cases h2
              | manyKey h1 h2 h3 =>
                rw [hn] at h1; cases h1
                rw [← theKey_some, hk] at h2; cases h2
                rw [he] at h3; cases h3
              | one h1 => rw [hn] at h1; cases h1
              | none h1 => rw [hn] at h1; cases h1
            · simp only [run_bind, run_read, he]
              cases x <;> rfl
            · constructor
              · intro h
                refine .manyKey hn hk' ?_
                rw [he] at h ⊢
                cases x <;> simp_all [keyMissing]
              · intro h
                cases h with
                | property h1 => rw [hn] at h1; cases h1
                | manyKey h1 h2 h3 =>
                  rw [hn] at h1; cases h1
                  rw [← theKey_some, hk] at h2; cases h2
                  rcases h3 with h3 | h3 <;> rw [h3] <;> rfl
                | one h1 => rw [hn] at h1; cases h1
      | one g =>
        dsimp only
        cases hk : theKey k with
        | some ks =>
          right
          have h0 : ¬ NoKey k := by rw [← theKey_none, hk]; simp
          refine ⟨?_, .badSegment, rfl, ?_⟩
          · rintro r' h
            cases h with
            | value h1 => rw [hn] at h1; cases h1
            | many h1 h2 => exact h0 h2
            | manyKey h1 h2 h3 => rw [hn] at h1; cases h1
            | one h1 h2 => exact h0 h2
            | none h1 h2 => exact h0 h2
          · simp
            intro h
            cases h with
            | property h1 => rw [hn] at h1; cases h1
            | manyKey h1 h2 h3 => rw [hn] at h1; cases h1
            | one h1 h2 => exact h0 h2
        | none =>
          have hk' := theKey_none.mp hk
          cases hg : g d with
          | ok r =>
            left
            cases r with
            | some e' => exact ⟨.entity e', .one hn hk' hg, by simp [run_bind, hg, nextParent]⟩
            | none => exact ⟨.null, .none hn hk' hg, by simp [run_bind, hg, nextParent]⟩
          | error x =>
            right
            refine ⟨?_, x, by simp [run_bind, hg], ?_⟩
            · rintro r' h
              cases h with
              | value h1 => rw [hn] at h1; cases h1
              | many h1 h2 => rw [hn] at h1; cases h1
              | manyKey h1 h2 h3 => rw [hn] at h1; cases h1
              | one h1 h2 h3 => rw [hn] at h1; cases h1; rw [hg] at h3; cases h3
              | none h1 h2 h3 => rw [hn] at h1; cases h1; rw [hg] at h3; cases h3
            · constructor
              · rintro rfl; exact .one hn hk' hg
              · intro h
                cases h with
                | property h1 => rw [hn] at h1; cases h1
                | manyKey h1 h2 h3 => rw [hn] at h1; cases h1
                | one h1 h2 h3 => rw [hn] at h1; cases h1; rw [hg] at h3; cases h3; rfl

theorem hasKey_noKey {k : Option Keys} {ks : Keys} (h : HasKey k ks) (h' : NoKey k) : False := by
  obtain ⟨rfl, h⟩ := h
  rcases h' with h' | h'
  · cases h'
  · cases h'; exact h rfl

theorem follows_fun {S : Service D E C V X Fn F} {d : D} {r : Res E C V X} {s : Seg} {r1 r2 : Res E C V X}
    (h1 : Follows S d r s r1) (h2 : Follows S d r s r2) : r1 = r2 := by
  cases h1 <;> cases h2 <;> first | simp_all; done | (exfalso; apply hasKey_noKey <;> assumption) | skip
  all_goals
    next h1 h2 h3 _ _ _ h6 h4 h5 =>
    rw [h1] at h4; cases h4
    rw [h2.1] at h5; cases h5.1
    rw [h3] at h6; cases h6; rfl

theorem follows_not_model {S : Service D E C V X Fn F} {d : D} {r : Res E C V X} {s : Seg} : ¬ Follows S d r s .model := by
  intro h; cases h

theorem leads_model {S : Service D E C V X Fn F} {d : D} {p : List Seg} {a : Option E} (h : Leads S d p .model a) : p = [] := by
  generalize hr : (Res.model : Res E C V X) = r at h
  cases h with
  | root => rfl
  | entity _ h => subst hr; exact absurd h follows_not_model
  | other _ _ h => subst hr; exact absurd h follows_not_model

theorem leads_step {S : Service D E C V X Fn F} {d : D} {p : List Seg} {r r' : Res E C V X} {a : Option E} {s : Seg}
    (h : Leads S d p r a) (hs : Follows S d r s r') : Leads S d (p ++ [s]) r' (nextParent r a) := by
  cases r with
  | entity e => exact .entity h hs
  | _ => exact .other h (by intro e he; cases he) hs

theorem leads_fun {S : Service D E C V X Fn F} {d : D} {p : List Seg} {r : Res E C V X} {a : Option E} (h : Leads S d p r a) :
    ∀ {r' a'}, Leads S d p r' a' → r = r' ∧ a = a' := by
  have inv : ∀ {p s r' a'}, Leads S d (p ++ [s]) r' a' → ∃ r0 a0, Leads S d p r0 a0 ∧ Follows S d r0 s r' ∧ a' = nextParent r0 a0 := by
    intro p s r' a' h
    generalize hp : p ++ [s] = ps at h
    cases h with
    | root => simp at hp
    | entity h1 h2 =>
      obtain ⟨rfl, h3⟩ := List.append_inj' hp rfl
      cases h3
      exact ⟨_, _, h1, h2, rfl⟩
    | other h1 hne h2 =>
      obtain ⟨rfl, h3⟩ := List.append_inj' hp rfl
      cases h3
      refine ⟨_, _, h1, h2, ?_⟩
      unfold nextParent
      split
      · next e => exact absurd rfl (hne e)
      · rfl
  induction h with
  | root =>
    intro r' a' h'
    generalize hp : ([] : List Seg) = p at h'
    cases h' with
    | root => exact ⟨rfl, rfl⟩
    | entity => simp at hp
    | other => simp at hp
  | entity h1 h2 ih =>
    intro r' a' h'
    obtain ⟨r0, a0, k1, k2, rfl⟩ := inv h'
    obtain ⟨rfl, rfl⟩ := ih k1
    exact ⟨follows_fun h2 k2, rfl⟩
  | @other p s r0 a r h1 hne h2 ih =>
    intro r' a' h'
    obtain ⟨r0', a0, k1, k2, rfl⟩ := inv h'
    obtain ⟨rfl, rfl⟩ := ih k1
    refine ⟨follows_fun h2 k2, ?_⟩
    unfold nextParent
    split
    · next e => exact absurd rfl (hne e)
    · rfl

/-- The loop. -/
theorem walkLoop_spec (S : Service D E C V X Fn F) (q : QState F) (d : D) : ∀ (rest p : List Seg) (r : Res E C V X) (a : Option E),
    Leads S d p r a → ¬ CallsFunction S (p ++ rest) →
    (∃ r' a', Leads S d (p ++ rest) r' a' ∧ walkLoop S q ⟨r, a, false⟩ rest d = (d, .ok ⟨r', a', false⟩)) ∨
    (∃ p1 s p2 r1 a1 e, p ++ rest = p1 ++ s :: p2 ∧ Leads S d p1 r1 a1 ∧ (∀ r', ¬ Follows S d r1 s r') ∧
      walkLoop S q ⟨r, a, false⟩ rest d = (d, .error e) ∧ (e = .missing ↔ Absent S d r1 s)) := by
  intro rest
  induction rest with
  | nil => intro p r a h _; left; exact ⟨r, a, by simpa using h, rfl⟩
  | cons s rest ih =>
    intro p r a h hc
    have hf : r = .model → ∀ f, S.find s.1 ≠ some (.func f) := by
      rintro rfl f hf
      have := leads_model h
      subst this
      exact hc ⟨s, rest, f, rfl, hf⟩
    unfold walkLoop
    rcases walkStep_spec S q r a s d hf with ⟨r', h1, h2⟩ | ⟨h1, e, h2, h3⟩
    · rw [run_bind, h2]
      dsimp only
      rcases ih (p ++ [s]) r' (nextParent r a) (leads_step h h1) (by simpa using hc) with ⟨r2, a2, k1, k2⟩ | ⟨p1, s1, p2, r1, a1, e, k1, k2⟩
      · left; exact ⟨r2, a2, by simpa using k1, k2⟩
      · right; exact ⟨p1, s1, p2, r1, a1, e, by simpa using k1, k2⟩
    · right
      refine ⟨p, s, rest, r, a, e, rfl, h, h1, ?_, h3⟩
      rw [run_bind, h2]

theorem checkOpts_run (q : QState F) (n : Nat) (d : D) :
    (Only q (allowedOpts n) ∧ checkOpts q n d = (d, .ok ())) ∨ (¬ Only q (allowedOpts n) ∧ checkOpts (D := D) q n d = (d, .error .sysOption)) := by
  unfold checkOpts Only
  split
  · next h => left; exact ⟨fun o v hm => by simpa using List.all_eq_true.mp h _ hm, rfl⟩
  · next h => right; exact ⟨fun hall => h (List.all_eq_true.mpr fun ov hm => by simpa using hall ov.1 ov.2 hm), rfl⟩

theorem only_mono {q : QState F} {l l' : List SysOpt} (h : Only q l) (hl : ∀ o ∈ l, o ∈ l') : Only q l' :=
  fun o v hm => hl o (h o v hm)

/-- The last check. -/
theorem checkRes_run (S : Service D E C V X Fn F) (u : Uri' F) (r : Res E C V X) (a : Option E) (d : D) :
    (Final S u r a ∧ checkRes S u ⟨r, a, false⟩ d = (d, .ok ())) ∨
    (¬ Final S u r a ∧ ∃ e, checkRes S u ⟨r, a, false⟩ d = (d, .error e) ∧ (e = .missing ↔ r = .null) ∧ (e = .missing ∨ e = .sysOption)) := by
  unfold checkRes
  cases r with
  | model => left; exact ⟨⟨by simp, by simp, by simp, by simp⟩, rfl⟩
  | values x => left; exact ⟨⟨by simp, by simp, by simp, by simp⟩, rfl⟩
  | coll c =>
    left
    refine ⟨⟨by simp, by simp, by simp, by simp⟩, ?_⟩
    rcases checkOpts_run u.query 1 d with ⟨_, h⟩ | ⟨h, _⟩
    · exact h
    · exact absurd (fun o v _ => by cases o <;> decide) h
  | null =>
    dsimp only
    split
    · next h =>
      right
      refine ⟨?_, .missing, rfl, by simp, .inl rfl⟩
      rintro ⟨-, -, -, h4⟩
      exact h.2 (h4 rfl (by rw [← Option.isSome_iff_ne_none]; exact h.1))
    · next h =>
      left
      refine ⟨⟨by simp, by simp, by simp, ?_⟩, rfl⟩
      intro _ ha
      by_cases ho : u.path.opt = some .links
      · exact ho
      · exact absurd ⟨Option.isSome_iff_ne_none.mpr ha, ho⟩ h
  | value v =>
    dsimp only
    cases hv : S.field v with
    | none =>
      dsimp only
      rcases checkOpts_run u.query 4 d with ⟨h, h'⟩ | ⟨h, h'⟩
      · left
        refine ⟨⟨by simp, by simp, ?_, by simp⟩, h'⟩
        intro w hw; cases hw
        exact ⟨only_mono h (by simp [allowedOpts]), fun _ => h⟩
      · right
        refine ⟨?_, _, h', by simp, .inr rfl⟩
        rintro ⟨-, -, h3, -⟩
        exact h ((h3 v rfl).2 hv)
    | some f =>
      dsimp only
      rcases checkOpts_run u.query 3 d with ⟨h, h'⟩ | ⟨h, h'⟩
      · left
        refine ⟨⟨by simp, by simp, ?_, by simp⟩, h'⟩
        intro w hw; cases hw
        exact ⟨h, fun hn => by rw [hv] at hn; cases hn⟩
      · right
        refine ⟨?_, _, h', by simp, .inr rfl⟩
        rintro ⟨-, -, h3, -⟩
        exact h (h3 v rfl).1
  | entity e =>
    dsimp only
    split
    · next ho =>
      rcases checkOpts_run u.query 17 d with ⟨h, h'⟩ | ⟨h, h'⟩
      · left
        exact ⟨⟨fun _ _ _ => h, fun _ _ hn => absurd ho hn, by simp, by simp⟩, h'⟩
      · right
        refine ⟨?_, _, h', by simp, .inr rfl⟩
        rintro ⟨h1, -, -, -⟩
        exact h (h1 e rfl ho)
    · next ho =>
      split
      · next hl =>
        rcases checkOpts_run u.query 2 d with ⟨h, h'⟩ | ⟨h, h'⟩
        · left
          exact ⟨⟨fun _ _ hn => absurd hn ho, fun _ _ _ _ => h, by simp, by simp⟩, h'⟩
        · right
          refine ⟨?_, _, h', by simp, .inr rfl⟩
          rintro ⟨-, h2, -, -⟩
          exact h (h2 e rfl ho hl)
      · next hl =>
        left
        exact ⟨⟨fun _ _ hn => absurd hn ho, fun _ _ _ hn => absurd hn hl, by simp, by simp⟩, rfl⟩

theorem getResource_spec (S : Service D E C V X Fn F) (u : Uri' F) (d : D) (hc : ¬ CallsFunction S u.path.nav) :
    (∃ r a, Leads S d u.path.nav r a ∧ Final S u r a ∧ getResource S u d = (d, .ok (r, a))) ∨
    (∃ r a e, Leads S d u.path.nav r a ∧ ¬ Final S u r a ∧ getResource S u d = (d, .error e) ∧ (e = .missing ↔ r = .null) ∧ (e = .missing ∨ e = .sysOption)) ∨
    (∃ p1 s p2 r1 a1 e, u.path.nav = p1 ++ s :: p2 ∧ Leads S d p1 r1 a1 ∧ (∀ r', ¬ Follows S d r1 s r') ∧
      getResource S u d = (d, .error e) ∧ (e = .missing ↔ Absent S d r1 s)) := by
  unfold getResource
  rcases walkLoop_spec S u.query d u.path.nav [] .model none .root hc with ⟨r, a, h1, h2⟩ | ⟨p1, s, p2, r1, a1, e, h1, h2, h3, h4, h5⟩
  · simp only [List.nil_append] at h1
    rcases checkRes_run S u r a d with ⟨k1, k2⟩ | ⟨k1, e, k2, k3⟩
    · left
      refine ⟨r, a, h1, k1, ?_⟩
      rw [run_bind, h2]; dsimp only; rw [run_bind, k2]; rfl
    · right; left
      refine ⟨r, a, e, h1, k1, ?_, k3⟩
      rw [run_bind, h2]; dsimp only; rw [run_bind, k2]
  · right; right
    refine ⟨p1, s, p2, r1, a1, e, by simpa using h1, h2, h3, ?_, h5⟩
    rw [run_bind, h4]

theorem leads_prefix {S : Service D E C V X Fn F} {d : D} {p : List Seg} {r : Res E C V X} {a : Option E} (h : Leads S d p r a) :
    ∀ p1 s p2, p = p1 ++ s :: p2 → ∃ r1 a1 r', Leads S d p1 r1 a1 ∧ Follows S d r1 s r' := by
  induction h with
  | root => intro p1 s p2 e; simp at e
  | @entity p s0 e a r h1 h2 ih =>
    intro p1 s p2 hp
    rcases List.eq_nil_or_concat p2 with rfl | ⟨p2', y, rfl⟩
    · obtain ⟨rfl, h3⟩ := List.append_inj' hp rfl
      cases h3
      exact ⟨_, _, _, h1, h2⟩
    · have : p ++ [s0] = (p1 ++ s :: p2') ++ [y] := by rw [hp]; simp
      obtain ⟨rfl, -⟩ := List.append_inj' this rfl
      exact ih p1 s p2' rfl
  | @other p s0 r0 a r h1 hne h2 ih =>
    intro p1 s p2 hp
    rcases List.eq_nil_or_concat p2 with rfl | ⟨p2', y, rfl⟩
    · obtain ⟨rfl, h3⟩ := List.append_inj' hp rfl
      cases h3
      exact ⟨_, _, _, h1, h2⟩
    · have : p ++ [s0] = (p1 ++ s :: p2') ++ [y] := by rw [hp]; simp
      obtain ⟨rfl, -⟩ := List.append_inj' this rfl
      exact ih p1 s p2' rfl

/-- C136: the resource found is the one the path leads to, segment by segment, if the options make sense for it; nothing is changed.
(For paths that do not start with a function import.) -/
theorem C136_found (S : Service D E C V X Fn F) (u : Uri' F) (d d' : D) (hc : ¬ CallsFunction S u.path.nav) (r : Res E C V X) (a : Option E) :
    getResource S u d = (d', .ok (r, a)) ↔ d' = d ∧ Leads S d u.path.nav r a ∧ Final S u r a := by
  rcases getResource_spec S u d hc with ⟨r0, a0, h1, h2, h3⟩ | ⟨r0, a0, e, h1, h2, h3, -⟩ | ⟨p1, s, p2, r1, a1, e, h1, h2, h3, h4, -⟩
  · rw [h3]
    simp only [Prod.mk.injEq, Except.ok.injEq]
    constructor
    · rintro ⟨rfl, rfl, rfl⟩; exact ⟨rfl, h1, h2⟩
    · rintro ⟨rfl, k, -⟩
      obtain ⟨rfl, rfl⟩ := leads_fun h1 k
      exact ⟨rfl, rfl, rfl⟩
  · rw [h3]
    simp only [Prod.mk.injEq, reduceCtorEq, and_false, false_iff]
    rintro ⟨-, k1, k2⟩
    obtain ⟨rfl, rfl⟩ := leads_fun h1 k1
    exact h2 k2
  · rw [h4]
    simp only [Prod.mk.injEq, reduceCtorEq, and_false, false_iff]
    rintro ⟨-, k1, k2⟩
    obtain ⟨r2, a2, r', m1, m2⟩ := leads_prefix k1 p1 s p2 h1
    obtain ⟨rfl, rfl⟩ := leads_fun h2 m1
    exact h3 r' m2

/-- C136: "not found" is reported exactly if a segment names something that is not there, or the path ends at a navigation property
that leads to no entity (other than to ask for the link). -/
theorem C136_not_found (S : Service D E C V X Fn F) (u : Uri' F) (d : D) (hc : ¬ CallsFunction S u.path.nav) :
    (∃ d', getResource S u d = (d', .error .missing)) ↔
      (∃ p1 s p2 r a, u.path.nav = p1 ++ s :: p2 ∧ Leads S d p1 r a ∧ Absent S d r s) ∨
      (∃ e, Leads S d u.path.nav .null (some e) ∧ u.path.opt ≠ some .links) := by
  have absent_follows : ∀ r s r', Absent S d r s → ¬ Follows S d r s r' := by
    intro r s r' h1 h2
    cases h1 <;> cases h2 <;> first | simp_all; done | (apply hasKey_noKey <;> assumption) | skip
    all_goals
      next h1 h2 h3 _ _ _ h7 h5 h6 =>
      rw [h1] at h5; cases h5
      rw [h2.1] at h6; cases h6.1
      rw [h7] at h3; simp at h3
  rcases getResource_spec S u d hc with ⟨r0, a0, h1, h2, h3⟩ | ⟨r0, a0, e, h1, h2, h3, h4, -⟩ | ⟨p1, s, p2, r1, a1, e, h1, h2, h3, h4, h5⟩
  · rw [h3]
    simp only [Prod.mk.injEq, reduceCtorEq, and_false, exists_false, false_iff, not_or]
    constructor
    · rintro ⟨p1, s, p2, r, a, k1, k2, k3⟩
      obtain ⟨r2, a2, r', m1, m2⟩ := leads_prefix h1 p1 s p2 k1
      obtain ⟨rfl, rfl⟩ := leads_fun k2 m1
      exact absent_follows _ _ _ k3 m2
    · rintro ⟨e, k1, k2⟩
      obtain ⟨rfl, rfl⟩ := leads_fun h1 k1
      exact k2 (h2.2.2.2 rfl (by simp))
  · rw [h3]
    simp only [Prod.mk.injEq, Except.error.injEq, exists_eq_left']
    constructor
    · rintro he
      right
      have := h4.mp he
      subst this
      cases ha : a0 with
      | none => exact absurd ⟨by simp, by simp, by simp, fun _ h => absurd ha h⟩ h2
      | some x =>
        subst ha
        refine ⟨x, h1, fun ho => h2 ⟨by simp, by simp, by simp, fun _ _ => ho⟩⟩
    · rintro (⟨p1, s, p2, r, a, k1, k2, k3⟩ | ⟨x, k1, k2⟩)
      · obtain ⟨r2, a2, r', m1, m2⟩ := leads_prefix h1 p1 s p2 k1
        obtain ⟨rfl, rfl⟩ := leads_fun k2 m1
        exact absurd m2 (absent_follows _ _ _ k3)
      · obtain ⟨rfl, rfl⟩ := leads_fun h1 k1
        exact h4.mpr rfl
  · rw [h4]
    simp only [Prod.mk.injEq, Except.error.injEq, exists_eq_left']
    constructor
    · intro he
      exact .inl ⟨p1, s, p2, r1, a1, h1, h2, h5.mp he⟩
    · rintro (⟨q1, t, q2, r, a, k1, k2, k3⟩ | ⟨x, k1, -⟩)
      · -- the two places are the same: before either one the path can be followed
        rw [h1] at k1
        rcases List.append_eq_append_iff.mp k1 with ⟨c, rfl, hc'⟩ | ⟨c, rfl, hc'⟩
        · cases c with
          | nil =>
            simp at hc'
            obtain ⟨rfl, rfl⟩ := hc'
            simp only [List.append_nil] at k2
            obtain ⟨rfl, rfl⟩ := leads_fun h2 k2
            exact h5.mpr k3
          | cons y ys =>
            simp at hc'
            obtain ⟨rfl, -⟩ := hc'
            obtain ⟨r2, a2, r', m1, m2⟩ := leads_prefix k2 p1 s ys rfl
            obtain ⟨rfl, rfl⟩ := leads_fun h2 m1
            exact absurd m2 (h3 _)
        · cases c with
          | nil =>
            simp at hc'
            obtain ⟨rfl, rfl⟩ := hc'
            simp only [List.append_nil] at h2
            obtain ⟨rfl, rfl⟩ := leads_fun h2 k2
            exact h5.mpr k3
          | cons y ys =>
            simp at hc'
            obtain ⟨rfl, -⟩ := hc'
            obtain ⟨r2, a2, r', m1, m2⟩ := leads_prefix h2 q1 t ys rfl
            obtain ⟨rfl, rfl⟩ := leads_fun k2 m1
            exact absurd m2 (absent_follows _ _ _ k3)
      · obtain ⟨r2, a2, r', m1, m2⟩ := leads_prefix k1 p1 s p2 h1
        obtain ⟨rfl, rfl⟩ := leads_fun h2 m1
        exact absurd m2 (h3 _)

end Verif.Srv

/-
C101: updates of an entity with concurrency tokens (pyslet/odata2/sqlds.py:2420-2645,
pyslet/odata2/csdl.py:2748-2812).
-/
namespace Verif.Sql

/-! ### Model -/

/-- A row of a table: the value of each column, `none` for NULL.  Values are integers. -/
abbrev TRow := Nat → Option Int

/-- A field of an entity: its column, its value and whether its concurrency mode is Fixed. -/
structure EField where
  col : Nat
  val : Option Int
  fixed : Bool
  deriving DecidableEq, Repr

/-- The exceptions of `update_entity`. -/
inductive UErr
  | conflict
  | noKey
  deriving DecidableEq, Repr

/-- csdl.py:2790-2794 `set_concurrency_tokens` for an integer token.  The bound on integers is not
modelled. -/
def bump (v : Option Int) : Option Int := some (match v with | some i => i + 1 | none => 1)

/-- The fields after `set_concurrency_tokens`. -/
def bumpField (f : EField) : EField := if f.fixed then { f with val := bump f.val } else f

/-- A WHERE clause `c1=v1 AND c2=v2 ...` (sqlds.py:2538-2540): `=` is never true of NULL. -/
def whereHolds (cs : List (Nat × Option Int)) (r : TRow) : Bool :=
  cs.all fun c => c.2.isSome && r c.1 == c.2

/-- `SET c1=v1, c2=v2 ...`. -/
def setCols (us : List (Nat × Option Int)) (r : TRow) : TRow :=
  us.foldl (fun r u => fun c => if c = u.1 then u.2 else r c) r

/-- sqlds.py:2502-2574 `update_entity`: `keys` are the key fields with their values, `fs` the other
fields that are merged or updated, `fks` the foreign keys that are set (2492-2498).  Column defaults
(DEFAULT_VALUE) are not modelled. -/
def updateEntity (T : List TRow) (keys : List (Nat × Option Int)) (fs : List EField) (fks : List (Nat × Option Int)) :
    Except UErr (List TRow) :=
  let tokens := (fs.filter (·.fixed)).map fun f => (f.col, f.val)
  let constraints := keys ++ tokens
  let updates := (fs.map bumpField).map (fun f => (f.col, f.val)) ++ fks
  if updates = [] then .ok T
  else
    let rowcount := T.countP (whereHolds constraints)
    let T' := T.map fun r => if whereHolds constraints r then setCols updates r else r
    if rowcount = 0 then
      let result := T.countP (whereHolds constraints)
      if result = 0 ∧ tokens ≠ [] then
        let result := T.countP (whereHolds keys)
        if result = 1 then .error .conflict
        else if result = 0 then .error .noKey
        else .ok T'
      else if result = 0 then .error .noKey
      else .ok T'
    else .ok T'

/-! ### Specification and theorems -/

/-- The row is the one with this key. -/
def HasKey (keys : List (Nat × Option Int)) (r : TRow) : Prop := ∀ k ∈ keys, ∃ v, k.2 = some v ∧ r k.1 = some v

/-- The tokens of the entity are those of the row. -/
def SameTokens (fs : List EField) (r : TRow) : Prop := ∀ f ∈ fs, f.fixed = true → ∃ v, f.val = some v ∧ r f.col = some v

/-- At most one row has the key. -/
def UniqueKey (keys : List (Nat × Option Int)) (T : List TRow) : Prop :=
  T = [] ∨ (∀ r ∈ T, ¬ HasKey keys r) ∨ ∃ a r b, T = a ++ r :: b ∧ HasKey keys r ∧ ∀ x ∈ a ++ b, ¬ HasKey keys x

theorem whereHolds_iff (cs : List (Nat × Option Int)) (r : TRow) : whereHolds cs r = true ↔ HasKey cs r := by
  unfold whereHolds HasKey
  rw [List.all_eq_true]
  refine forall_congr' fun c => forall_congr' fun _ => ?_
  rw [Bool.and_eq_true, beq_iff_eq]
  constructor
  · rintro ⟨h1, h2⟩
    obtain ⟨v, hv⟩ := Option.isSome_iff_exists.1 h1
    exact ⟨v, hv, h2.trans hv⟩
  · rintro ⟨v, h1, h2⟩
    exact ⟨by rw [h1]; rfl, h2.trans h1.symm⟩

theorem constraints_iff (keys : List (Nat × Option Int)) (fs : List EField) (r : TRow) :
    whereHolds (keys ++ (fs.filter (·.fixed)).map fun f => (f.col, f.val)) r = true ↔ HasKey keys r ∧ SameTokens fs r := by
  rw [whereHolds_iff]
  unfold HasKey SameTokens
  constructor
  · intro h
    refine ⟨fun k hk => h k (List.mem_append_left _ hk), fun f hf hx => ?_⟩
    exact h (f.col, f.val) (List.mem_append_right _ (List.mem_map.2 ⟨f, List.mem_filter.2 ⟨hf, hx⟩, rfl⟩))
  · rintro ⟨h1, h2⟩ k hk
    rcases List.mem_append.1 hk with h | h
    · exact h1 k h
    · obtain ⟨f, hf, rfl⟩ := List.mem_map.1 h
      exact h2 f (List.mem_filter.1 hf).1 (by simpa using (List.mem_filter.1 hf).2)

/-- The columns a successful update writes, and their values: the fields, the tokens one higher, and the
foreign keys. -/
def newCols (fs : List EField) (fks : List (Nat × Option Int)) : List (Nat × Option Int) :=
  (fs.map fun f => (f.col, if f.fixed then some (match f.val with | some i => i + 1 | none => 1) else f.val)) ++ fks

theorem updates_eq (fs : List EField) (fks : List (Nat × Option Int)) :
    (fs.map bumpField).map (fun f => (f.col, f.val)) ++ fks = newCols fs fks := by
  unfold newCols
  rw [List.map_map]
  congr 1
  apply List.map_congr_left
  intro f _
  simp only [Function.comp_apply, bumpField, bump]
  split <;> rfl

theorem countP_zero {α} (p : α → Bool) (l : List α) : l.countP p = 0 ↔ ∀ x ∈ l, p x = false := by
  rw [List.countP_eq_zero]; simp

/-- C101: with a row that has the key and whose tokens are those of the entity, the update succeeds: the
row gets the new values, all other rows stay as they are. -/
theorem C101_update_ok_partial (a b : List TRow) (r : TRow) (keys : List (Nat × Option Int)) (fs : List EField)
    (fks : List (Nat × Option Int)) (hk : HasKey keys r) (hu : ∀ x ∈ a ++ b, ¬ HasKey keys x)
    (ht : SameTokens fs r) :
    updateEntity (a ++ r :: b) keys fs fks = .ok (a ++ setCols (newCols fs fks) r :: b) := by
  have hr := (constraints_iff keys fs r).2 ⟨hk, ht⟩
  have hx : ∀ x ∈ a ++ b, whereHolds (keys ++ (fs.filter (·.fixed)).map fun f => (f.col, f.val)) x = false := by
    intro x hxm
    rw [Bool.eq_false_iff]
    exact fun h => hu x hxm ((constraints_iff keys fs x).1 h).1
  have hmap : (a ++ r :: b).map (fun x => if whereHolds (keys ++ (fs.filter (·.fixed)).map fun f => (f.col, f.val)) x
      then setCols (newCols fs fks) x else x) = a ++ setCols (newCols fs fks) r :: b := by
    rw [List.map_append, List.map_cons, if_pos hr]
    have hid : ∀ l : List TRow, (∀ x ∈ l, whereHolds (keys ++ (fs.filter (·.fixed)).map fun f => (f.col, f.val)) x = false) →
        l.map (fun x => if whereHolds (keys ++ (fs.filter (·.fixed)).map fun f => (f.col, f.val)) x
          then setCols (newCols fs fks) x else x) = l := by
      intro l hl
      conv => rhs; rw [← List.map_id l]
      exact List.map_congr_left fun x hxl => by rw [hl x hxl]; rfl
    rw [hid a (fun x h => hx x (by simp [h])), hid b (fun x h => hx x (by simp [h]))]
  have hc : List.countP (whereHolds (keys ++ (fs.filter (·.fixed)).map fun f => (f.col, f.val))) (a ++ r :: b) ≠ 0 := by
    rw [Ne, countP_zero]
    intro h
    rw [h r (by simp)] at hr
    exact absurd hr (by simp)
  unfold updateEntity
  dsimp only
  rw [updates_eq, if_neg hc, hmap]
  split
  · rename_i he
    rw [he]; rfl
  · rfl

/-- C101: when the row has been changed since, the update is refused: it raises ConcurrencyError. -/
theorem C101_update_conflict (a b : List TRow) (r : TRow) (keys : List (Nat × Option Int)) (fs : List EField)
    (fks : List (Nat × Option Int)) (hk : HasKey keys r) (hu : ∀ x ∈ a ++ b, ¬ HasKey keys x)
    (ht : ¬ SameTokens fs r) :
    updateEntity (a ++ r :: b) keys fs fks = .error .conflict := by
  have hx : ∀ x ∈ a ++ r :: b, whereHolds (keys ++ (fs.filter (·.fixed)).map fun f => (f.col, f.val)) x = false := by
    intro x hxm
    rw [Bool.eq_false_iff]
    intro h
    have h' := (constraints_iff keys fs x).1 h
    rcases List.mem_append.1 hxm with h1 | h1
    · exact hu x (by simp [h1]) h'.1
    · rcases List.mem_cons.1 h1 with h2 | h2
      · subst h2; exact ht h'.2
      · exact hu x (by simp [h2]) h'.1
  have hc := (countP_zero _ _).2 hx
  have hkc : List.countP (whereHolds keys) (a ++ r :: b) = 1 := by
    rw [List.countP_append, List.countP_cons, if_pos ((whereHolds_iff keys r).2 hk)]
    have : ∀ l : List TRow, (∀ x ∈ l, ¬ HasKey keys x) → List.countP (whereHolds keys) l = 0 := by
      intro l hl
      rw [countP_zero]
      intro x hxl
      rw [Bool.eq_false_iff]
      exact fun h => hl x hxl ((whereHolds_iff keys x).1 h)
    rw [this a (fun x h => hu x (by simp [h])), this b (fun x h => hu x (by simp [h]))]
  have hfs : ∃ f ∈ fs, f.fixed = true := by
    apply Classical.byContradiction
    intro h
    exact ht fun f hf hx => absurd ⟨f, hf, hx⟩ h
  obtain ⟨f, hf, hfx⟩ := hfs
  have htk : (fs.filter (·.fixed)).map (fun f => (f.col, f.val)) ≠ [] := by
    intro h
    rw [List.map_eq_nil_iff] at h
    have : f ∈ fs.filter (·.fixed) := List.mem_filter.2 ⟨hf, by simpa using hfx⟩
    rw [h] at this
    simp at this
  have hup : newCols fs fks ≠ [] := by
    unfold newCols
    intro h
    rw [List.append_eq_nil_iff, List.map_eq_nil_iff] at h
    rw [h.1] at hf
    simp at hf
  unfold updateEntity
  dsimp only
  rw [updates_eq, if_neg hup, if_pos hc, if_pos ⟨hc, htk⟩, if_pos hkc]

/-- C101: without a row that has the key an update that changes anything raises KeyError. -/
theorem C101_update_missing_partial (T : List TRow) (keys : List (Nat × Option Int)) (fs : List EField)
    (fks : List (Nat × Option Int)) (hu : ∀ x ∈ T, ¬ HasKey keys x) (hne : fs ≠ [] ∨ fks ≠ []) :
    updateEntity T keys fs fks = .error .noKey := by
  have hc : List.countP (whereHolds (keys ++ (fs.filter (·.fixed)).map fun f => (f.col, f.val))) T = 0 := by
    rw [countP_zero]
    intro x hx
    rw [Bool.eq_false_iff]
    exact fun h => hu x hx ((constraints_iff keys fs x).1 h).1
  have hk : List.countP (whereHolds keys) T = 0 := by
    rw [countP_zero]
    intro x hx
    rw [Bool.eq_false_iff]
    exact fun h => hu x hx ((whereHolds_iff keys x).1 h)
  have hup : newCols fs fks ≠ [] := by
    unfold newCols
    intro h
    rw [List.append_eq_nil_iff, List.map_eq_nil_iff] at h
    rcases hne with h1 | h1
    · exact h1 h.1
    · exact h1 h.2
  unfold updateEntity
  dsimp only
  rw [updates_eq, if_neg hup, if_pos hc]
  split
  · rw [hk]; rfl
  · rfl

/-- C101 is violated when nothing is updated: an entity that does not exist is updated without error. -/
theorem C101_violation_nothing (keys : List (Nat × Option Int)) : updateEntity [] keys [] [] = .ok [] := rfl

/-- C101 is violated for a token that is NULL: the update of an entity just read, which nobody has
changed, is refused. -/
theorem C101_violation_null_token (a b : List TRow) (r : TRow) (keys : List (Nat × Option Int)) (col : Nat)
    (hk : HasKey keys r) (hu : ∀ x ∈ a ++ b, ¬ HasKey keys x) (_hr : r col = none) :
    updateEntity (a ++ r :: b) keys [⟨col, none, true⟩] [] = .error .conflict := by
  apply C101_update_conflict a b r keys _ _ hk hu
  intro h
  obtain ⟨v, hv, _⟩ := h ⟨col, none, true⟩ (by simp) rfl
  exact absurd hv (by simp)

/-! ### Histories of many clients -/

/-- What the clients of one entity do: read it, or update its data from the copy they hold. -/
inductive CliOp
  | read (i : Nat)
  | update (i : Nat) (d : Option Int)

/-- A client's copy of the entity: its token, and, for the specification only, the number of successful
updates there had been when the copy agreed with the database, and whether an update from this copy has
been refused. -/
structure Copy where
  token : Option Int
  base : Nat
  refused : Bool

/-- The table, the copies, and, for the specification only, the number of successful updates. -/
structure CliState where
  table : List TRow
  copies : Nat → Option Copy
  version : Nat

/-- The entity: its key, the column of its token and that of its data. -/
structure EntityDef where
  keys : List (Nat × Option Int)
  tok : Nat
  dat : Nat

def setCopy (m : Nat → Option Copy) (i : Nat) (c : Copy) : Nat → Option Copy := fun j => if j = i then some c else m j

/-- One call.  The entity object of the client is changed before the statement is run
(sqlds.py:2523), whatever comes of it. -/
def cliStep (E : EntityDef) (s : CliState) : CliOp → CliState
  | .read i =>
    match s.table.find? (whereHolds E.keys) with
    | some r => { s with copies := setCopy s.copies i ⟨r E.tok, s.version, false⟩ }
    | none => s
  | .update i d =>
    match s.copies i with
    | none => s
    | some c =>
      match updateEntity s.table E.keys [⟨E.tok, c.token, true⟩, ⟨E.dat, d, false⟩] [] with
      | .ok T => ⟨T, setCopy s.copies i ⟨bump c.token, s.version + 1, false⟩, s.version + 1⟩
      | .error _ => { s with copies := setCopy s.copies i { c with token := bump c.token, refused := true } }

/-- Whether the call succeeds. -/
def cliOk (E : EntityDef) (s : CliState) : CliOp → Prop
  | .read _ => True
  | .update i d => ∃ c T, s.copies i = some c ∧
      updateEntity s.table E.keys [⟨E.tok, c.token, true⟩, ⟨E.dat, d, false⟩] [] = .ok T

/-- The client reads the entity again before it tries a second time to update it. -/
def careful (s : CliState) : CliOp → Prop
  | .read _ => True
  | .update i _ => ∀ c, s.copies i = some c → c.refused = false

/-- The states reached from a table by careful calls, in any order. -/
inductive CliReach (E : EntityDef) (T : List TRow) : CliState → Prop
  | init : CliReach E T ⟨T, fun _ => none, 0⟩
  | step {s o} : CliReach E T s → careful s o → CliReach E T (cliStep E s o)

/-- What the invariant says: one row has the key, its token counts the successful updates, and each copy
that was not refused has the token of its base. -/
structure CliInv (E : EntityDef) (t0 : Int) (s : CliState) : Prop where
  row : ∃ a r b, s.table = a ++ r :: b ∧ HasKey E.keys r ∧ (∀ x ∈ a ++ b, ¬ HasKey E.keys x) ∧ r E.tok = some (t0 + s.version)
  copies : ∀ i c, s.copies i = some c → c.base ≤ s.version ∧ (c.refused = false → c.token = some (t0 + c.base))

theorem setCols_two (tok dat : Nat) (v : Int) (d : Option Int) (r : TRow) (h : tok ≠ dat) :
    setCols (newCols [⟨tok, some v, true⟩, ⟨dat, d, false⟩] []) r =
      fun c => if c = dat then d else if c = tok then some (v + 1) else r c := rfl

theorem cli_inv (E : EntityDef) (hd : E.tok ≠ E.dat) (hkt : ∀ k ∈ E.keys, k.1 ≠ E.tok ∧ k.1 ≠ E.dat)
    (a b : List TRow) (r : TRow) (t0 : Int) (hk : HasKey E.keys r) (hu : ∀ x ∈ a ++ b, ¬ HasKey E.keys x)
    (ht : r E.tok = some t0) (s : CliState) (hs : CliReach E (a ++ r :: b) s) : CliInv E t0 s := by
  induction hs with
  | init => exact ⟨⟨a, r, b, rfl, hk, hu, by simpa using ht⟩, by intro i c h; simp at h⟩
  | @step s o _ hcar ih =>
    obtain ⟨⟨a, r, b, hT, hk, hu, ht⟩, hcp⟩ := ih
    cases o with
    | read i =>
      unfold cliStep
      have hf : s.table.find? (whereHolds E.keys) = some r := by
        rw [hT, List.find?_append]
        have : a.find? (whereHolds E.keys) = none := by
          rw [List.find?_eq_none]
          intro x hx h
          exact hu x (by simp [hx]) ((whereHolds_iff _ _).1 h)
        rw [this, List.find?_cons, (whereHolds_iff _ _).2 hk]
        rfl
      simp only [hf]
      refine ⟨⟨a, r, b, hT, hk, hu, ht⟩, ?_⟩
      intro j c hc
      simp only [setCopy] at hc
      split at hc
      · simp only [Option.some.injEq] at hc
        subst hc
        exact ⟨Nat.le_refl _, fun _ => ht⟩
      · exact hcp j c hc
    | update i d =>
      unfold cliStep
      dsimp only
      cases hc : s.copies i with
      | none => exact ⟨⟨a, r, b, hT, hk, hu, ht⟩, hcp⟩
      | some c =>
        simp only
        have hb := hcp i c hc
        have htok := hb.2 (hcar c hc)
        by_cases hsame : SameTokens [⟨E.tok, c.token, true⟩, ⟨E.dat, d, false⟩] r
        · have hv : c.token = some (t0 + s.version) := by
            obtain ⟨v, h1, h2⟩ := hsame ⟨E.tok, c.token, true⟩ (by simp) rfl
            simp only at h1 h2
            rw [h1, ← h2, ht]
          rw [hT, C101_update_ok_partial a b r E.keys _ [] hk hu hsame]
          simp only
          refine ⟨⟨a, _, b, rfl, ?_, hu, ?_⟩, ?_⟩
          · rw [hv, setCols_two _ _ _ _ _ hd]
            intro k hkm
            obtain ⟨v, h1, h2⟩ := hk k hkm
            exact ⟨v, h1, by simp only [(hkt k hkm).1, (hkt k hkm).2, if_false]; exact h2⟩
          · rw [hv, setCols_two _ _ _ _ _ hd]
            simp only [hd, if_false, if_true]
            congr 1
            omega
          · intro j c' hc'
            simp only [setCopy] at hc'
            split at hc'
            · simp only [Option.some.injEq] at hc'
              subst hc'
              refine ⟨Nat.le_refl _, fun _ => ?_⟩
              simp only [hv, bump]
              congr 1
              omega
            · exact ⟨Nat.le_succ_of_le (hcp j c' hc').1, (hcp j c' hc').2⟩
        · rw [hT, C101_update_conflict a b r E.keys _ [] hk hu hsame]
          simp only
          refine ⟨⟨a, r, b, rfl, hk, hu, ht⟩, ?_⟩
          intro j c' hc'
          simp only [setCopy] at hc'
          split at hc'
          · simp only [Option.some.injEq] at hc'
            subst hc'
            exact ⟨hb.1, by simp⟩
          · exact hcp j c' hc'

/-- C101: no update is lost.  Whatever any number of clients have read and updated before, in any order, an
update from a copy succeeds exactly when there has been no successful update since the copy was read or
last written.  (Clients read again after an update is refused; see the violation below.) -/
theorem C101_no_lost_update_partial (E : EntityDef) (hd : E.tok ≠ E.dat)
    (hkt : ∀ k ∈ E.keys, k.1 ≠ E.tok ∧ k.1 ≠ E.dat)
    (a b : List TRow) (r : TRow) (t0 : Int) (hk : HasKey E.keys r) (hu : ∀ x ∈ a ++ b, ¬ HasKey E.keys x)
    (ht : r E.tok = some t0) (s : CliState) (hs : CliReach E (a ++ r :: b) s) (i : Nat) (c : Copy)
    (hc : s.copies i = some c) (href : c.refused = false) (d : Option Int) :
    cliOk E s (.update i d) ↔ c.base = s.version := by
  obtain ⟨⟨a', r', b', hT, hk', hu', ht'⟩, hcp⟩ := cli_inv E hd hkt a b r t0 hk hu ht s hs
  have htok := (hcp i c hc).2 href
  have key : SameTokens [⟨E.tok, c.token, true⟩, ⟨E.dat, d, false⟩] r' ↔ c.base = s.version := by
    constructor
    · intro h
      obtain ⟨v, h1, h2⟩ := h ⟨E.tok, c.token, true⟩ (by simp) rfl
      simp only at h1 h2
      rw [htok] at h1
      rw [ht'] at h2
      simp only [Option.some.injEq] at h1 h2
      omega
    · intro h f hf hx
      simp only [List.mem_cons, List.not_mem_nil, or_false] at hf
      rcases hf with rfl | rfl
      · exact ⟨t0 + s.version, by simp only; rw [htok, h], ht'⟩
      · simp at hx
  rw [← key]
  constructor
  · rintro ⟨c', T, hc', hup⟩
    rw [hc] at hc'
    simp only [Option.some.injEq] at hc'
    subst hc'
    apply Classical.byContradiction
    intro hn
    rw [hT, C101_update_conflict a' b' r' E.keys _ _ hk' hu' hn] at hup
    exact absurd hup (by simp)
  · intro h
    exact ⟨c, _, hc, by rw [hT]; exact C101_update_ok_partial a' b' r' E.keys _ _ hk' hu' h⟩

/-- Key in column 0, token in column 1, data in column 2. -/
def exEntity : EntityDef := ⟨[(0, some 1)], 1, 2⟩
def exTRow : TRow := fun c => if c = 0 then some 1 else if c = 1 then some 5 else some 10

def cliRun (E : EntityDef) (T : List TRow) (ops : List CliOp) : CliState := ops.foldl (cliStep E) ⟨T, fun _ => none, 0⟩

/-- The data of the entity after some calls. -/
def cliData (E : EntityDef) (T : List TRow) (ops : List CliOp) : Option (Option Int) :=
  ((cliRun E T ops).table.find? (whereHolds E.keys)).map fun r => r E.dat

/-- C101 is violated when a client simply tries again: its token was incremented by the update that was
refused, so that it now agrees, and the other client's update is lost. -/
theorem C101_violation_retry :
    -- client 2 has changed the data to 20; client 1, whose copy is older, is refused
    cliData exEntity [exTRow] [.read 1, .read 2, .update 2 (some 20), .update 1 (some 30)] = some (some 20) ∧
    -- client 1 repeats the call and succeeds
    cliData exEntity [exTRow] [.read 1, .read 2, .update 2 (some 20), .update 1 (some 30), .update 1 (some 30)] = some (some 30) := by
  constructor <;> decide +kernel

example : (cliRun exEntity [exTRow] [.read 1, .read 2, .update 2 (some 20), .update 1 (some 30)]).version = 1 := by decide +kernel
example : cliData exEntity [exTRow] [.read 1, .update 1 (some 20), .update 1 (some 30), .read 2, .update 2 none] = some none := by
  decide +kernel
example : HasKey exEntity.keys exTRow := by
  intro k hk
  simp only [exEntity, List.mem_singleton] at hk
  subst hk
  exact ⟨1, rfl, rfl⟩

end Verif.Sql

import Verif.MemDs.ContainerClaims

/-!
# A successful deletion leaves no orphans (C73)
-/
namespace Verif.MemDs

variable {K V : Type} [DecidableEq K]

/-- An entity is gone. -/
def Dead (s : St K V) (p : Nat × K) : Prop := s.data p.1 p.2 = none

/-- What a successful deletion does on the way from `s0` to `s`, while the entities `D` are being
deleted further up. -/
structure Good (sch : Schema) (D : List (Nat × K)) (s0 s : St K V) : Prop where
  inv : Inv sch s
  deleting : s.deleting = D
  keep : ∀ p, p ∈ D → s.data p.1 p.2 = s0.data p.1 p.2
  mono : ∀ p, Dead s0 p → Dead s p
  links : ∀ n x y, L s n x y → L s0 n x y
  lost : ∀ n a x y, sch[n]? = some a → L s0 n x y → ¬ L s n x y →
    Dead s (a.fromSet, x) ∨ Dead s (a.toSet, y) ∨ ((a.fromSet, x) ∈ D ∧ (a.toSet, y) ∈ D)
  closed : ∀ p q, ¬ Dead s0 p → Dead s p → Casc sch s0 p q → Dead s q ∨ q ∈ D

omit [DecidableEq K] in
theorem good_refl {sch : Schema} {s : St K V} (hi : Inv sch s) {D : List (Nat × K)}
    (hD : s.deleting = D) : Good sch D s s :=
  ⟨hi, hD, fun _ _ => rfl, fun _ h => h, fun _ _ _ h => h, fun _ _ _ _ _ h h' => absurd h h',
    fun _ _ h h' => absurd h' h⟩

/-- The link behind a cascade, oriented. -/
theorem casc_lost {sch : Schema} {D : List (Nat × K)} {s0 s1 : St K V} (g : Good sch D s0 s1)
    {p q : Nat × K} (hc : Casc sch s0 p q) :
    Casc sch s1 p q ∨ Dead s1 p ∨ Dead s1 q ∨ (p ∈ D ∧ q ∈ D) := by
  obtain ⟨aid, a, isTo, h1, h2, h3, h4, h5⟩ := hc
  by_cases hl : Lk s1 aid (decide (a.fromSet ≠ p.1)) p.2 q.2
  · exact Or.inl ⟨aid, a, isTo, h1, h2, h3, h4, hl⟩
  · right
    obtain ⟨pn, pk⟩ := p
    obtain ⟨qn, qk⟩ := q
    dsimp only at *
    by_cases hf : a.fromSet = pn
    · have hdec : decide (a.fromSet ≠ pn) = false := by simp [hf]
      rw [hdec] at h4 h5 hl
      simp only [Assoc.tgtSet, Lk, Bool.false_eq_true, if_false] at h4 h5 hl
      subst h4; subst hf
      exact g.lost aid a pk qk h1 h5 hl
    · have hdec : decide (a.fromSet ≠ pn) = true := by simp [hf]
      rw [hdec] at h4 h5 hl
      simp only [Assoc.tgtSet, Lk, if_true] at h4 h5 hl
      have hpn : a.toSet = pn := by
        cases isTo with
        | false => simp only [Assoc.endSet, Bool.false_eq_true, if_false] at h2; exact absurd h2 hf
        | true => simpa [Assoc.endSet] using h2
      subst h4; subst hpn
      rcases g.lost aid a qk pk h1 h5 hl with h | h | h
      · exact Or.inr (Or.inl h)
      · exact Or.inl h
      · exact Or.inr (Or.inr ⟨h.2, h.1⟩)

theorem good_trans {sch : Schema} {D : List (Nat × K)} {s0 s1 s2 : St K V} (g1 : Good sch D s0 s1)
    (g2 : Good sch D s1 s2) : Good sch D s0 s2 where
  inv := g2.inv
  deleting := g2.deleting
  keep p hp := (g2.keep p hp).trans (g1.keep p hp)
  mono p h := g2.mono p (g1.mono p h)
  links n x y h := g1.links n x y (g2.links n x y h)
  lost n a x y ha h hn := by
    by_cases hl : L s1 n x y
    · exact g2.lost n a x y ha hl hn
    · rcases g1.lost n a x y ha h hl with h | h | h
      · exact Or.inl (g2.mono _ h)
      · exact Or.inr (Or.inl (g2.mono _ h))
      · exact Or.inr (Or.inr h)
  closed p q h0 h2 hc := by
    by_cases h1 : Dead s1 p
    · rcases g1.closed p q h0 h1 hc with h | h
      · exact Or.inl (g2.mono _ h)
      · exact Or.inr h
    · rcases casc_lost g1 hc with h | h | h | h
      · exact g2.closed p q h1 h2 h
      · exact absurd h h1
      · exact Or.inl (g2.mono _ h)
      · exact Or.inr h.2

theorem loopM_ok {S X : Type} (f : S → X → S × Res) (P : S → Prop) (R : X → S → Prop) :
    ∀ (xs : List X) (s : S), P s →
    (∀ s x, x ∈ xs → P s → (f s x).2 = .ok → P (f s x).1 ∧ R x (f s x).1) →
    (∀ s x x', x ∈ xs → P s → (f s x).2 = .ok → R x' s → R x' (f s x).1) →
    (loopM f s xs).2 = .ok →
    P (loopM f s xs).1 ∧ (∀ x ∈ xs, R x (loopM f s xs).1) ∧ (∀ x, R x s → R x (loopM f s xs).1)
  | [], s, h, _, _, _ => ⟨h, fun x hx => by simp at hx, fun _ h => h⟩
  | x :: xs, s, h, hf, hm, hok => by
    unfold loopM at hok ⊢
    cases hr : f s x with
    | mk s' r =>
      rw [hr] at hok
      cases r with
      | ok =>
        dsimp only at hok ⊢
        have h1 := hf s x (by simp) h (by rw [hr])
        rw [hr] at h1
        have ih := loopM_ok f P R xs s' h1.1 (fun s y hy => hf s y (by simp [hy]))
          (fun s y y' hy => hm s y y' (by simp [hy])) hok
        refine ⟨ih.1, ?_, ?_⟩
        · intro y hy
          rw [List.mem_cons] at hy
          rcases hy with rfl | hy
          · exact ih.2.2 y h1.2
          · exact ih.2.1 y hy
        · intro y hy
          have := hm s x y (by simp) h (by rw [hr]) hy
          rw [hr] at this
          exact ih.2.2 y this
      | keyErr => cases hok
      | navErr => cases hok
      | dupErr => cases hok
      | recErr => cases hok

theorem linkEnds_mem {sch : Schema} {n : Nat} {a : Assoc} (h : sch[n]? = some a) (isTo : Bool) :
    (n, isTo, a) ∈ linkEnds sch (a.endSet isTo) := by
  unfold linkEnds
  rw [List.mem_flatMap]
  refine ⟨(a, n), ?_, ?_⟩
  · rw [List.mem_iff_getElem?]
    exact ⟨n, by rw [List.getElem?_zipIdx, h]; simp⟩
  · dsimp only
    cases isTo with
    | false => simp [Assoc.endSet]
    | true => simp [Assoc.endSet]

theorem delItem_good (sch : Schema) : ∀ (fuel : Nat) (s : St K V) (set : Nat) (key : K),
    Inv sch s → (delItem sch fuel s set key).2 = .ok →
    Good sch s.deleting s (delItem sch fuel s set key).1 ∧
      ((set, key) ∈ s.deleting ∨ Dead (delItem sch fuel s set key).1 (set, key))
  | 0, s, set, key, _, h => by cases h
  | fuel + 1, s, set, key, hi, hok => by
    unfold delItem at hok ⊢
    by_cases hd : (set, key) ∈ s.deleting
    · rw [if_pos hd]; exact ⟨good_refl hi rfl, Or.inl hd⟩
    · rw [if_neg hd] at hok ⊢
      by_cases hx : (s.data set key).isNone = true
      · rw [if_pos hx] at hok; cases hok
      · rw [if_neg hx] at hok ⊢
        dsimp only at hok ⊢
        -- the state with the root marked
        have hi1 := inv_deleting hi ((set, key) :: s.deleting)
        have hRoot : ¬ Dead s (set, key) := by
          unfold Dead
          intro h
          dsimp only at h
          rw [h] at hx; simp at hx
        -- one linked entity
        have hone : ∀ (e : Nat × Bool × Assoc) (s2 : St K V) (other : K), e ∈ linkEnds sch set →
            Good sch ((set, key) :: s.deleting) { s with deleting := (set, key) :: s.deleting } s2 →
            (cascadeOne (delItem sch fuel) e.2.2 e.1 (e.2.2.endNav e.2.1)
              (decide (e.2.2.fromSet ≠ set)) key s2 other).2 = .ok →
            Good sch ((set, key) :: s.deleting) s2
              (cascadeOne (delItem sch fuel) e.2.2 e.1 (e.2.2.endNav e.2.1)
                (decide (e.2.2.fromSet ≠ set)) key s2 other).1 ∧
            (Dead (cascadeOne (delItem sch fuel) e.2.2 e.1 (e.2.2.endNav e.2.1)
                (decide (e.2.2.fromSet ≠ set)) key s2 other).1
                (e.2.2.tgtSet (decide (e.2.2.fromSet ≠ set)), other) ∨
              (e.2.2.tgtSet (decide (e.2.2.fromSet ≠ set)), other) ∈ (set, key) :: s.deleting) := by
          intro e s2 other he g2 hok2
          have hle := mem_linkEnds he
          unfold cascadeOne at hok2 ⊢
          split at hok2
          · cases hok2
          · rename_i hnav
            rw [if_neg hnav]
            have hu : Inv sch (s2.unlink e.1 (decide (e.2.2.fromSet ≠ set)) key other) :=
              inv_fewer g2.inv (unlink_ok g2.inv.ok _ _ _ _)
                (fun _ _ _ h => unlink_sub g2.inv.ok h) rfl rfl
            have ih := delItem_good sch fuel
              (s2.unlink e.1 (decide (e.2.2.fromSet ≠ set)) key other)
              (e.2.2.tgtSet (decide (e.2.2.fromSet ≠ set))) other hu hok2
            have hdl : (s2.unlink e.1 (decide (e.2.2.fromSet ≠ set)) key other).deleting =
                (set, key) :: s.deleting := g2.deleting
            rw [hdl] at ih
            obtain ⟨gU, hR⟩ := ih
            -- the link taken away joins the root and the other entity
            have hdir : ∀ x y, (if (decide (e.2.2.fromSet ≠ set)) = true then x = other ∧ y = key
                else x = key ∧ y = other) →
                ((e.2.2.fromSet, x) = (set, key) ∧
                  (e.2.2.toSet, y) = (e.2.2.tgtSet (decide (e.2.2.fromSet ≠ set)), other)) ∨
                ((e.2.2.toSet, y) = (set, key) ∧
                  (e.2.2.fromSet, x) = (e.2.2.tgtSet (decide (e.2.2.fromSet ≠ set)), other)) := by
              intro x y hxy
              by_cases hf : e.2.2.fromSet = set
              · have hdec : decide (e.2.2.fromSet ≠ set) = false := by simp [hf]
                rw [hdec] at hxy ⊢
                simp only [Bool.false_eq_true, if_false] at hxy
                obtain ⟨rfl, rfl⟩ := hxy
                left; simp [hf, Assoc.tgtSet]
              · have hdec : decide (e.2.2.fromSet ≠ set) = true := by simp [hf]
                rw [hdec] at hxy ⊢
                simp only [if_true] at hxy
                obtain ⟨rfl, rfl⟩ := hxy
                have hto : e.2.2.toSet = set := by
                  have := hle.2
                  cases h : e.2.1 with
                  | false => rw [h] at this; simp [Assoc.endSet] at this; exact absurd this hf
                  | true => rw [h] at this; simpa [Assoc.endSet] using this
                right; simp [hto, Assoc.tgtSet]
            refine ⟨⟨gU.inv, gU.deleting, gU.keep, gU.mono, ?_, ?_, ?_⟩, hR.symm⟩
            · intro n x y h
              exact unlink_sub g2.inv.ok (gU.links n x y h)
            · intro n a x y ha hl hn
              by_cases hlu : L (s2.unlink e.1 (decide (e.2.2.fromSet ≠ set)) key other) n x y
              · exact gU.lost n a x y ha hlu hn
              · rw [unlink_L g2.inv.ok] at hlu
                have hc : n = e.1 ∧ (if (decide (e.2.2.fromSet ≠ set)) = true then x = other ∧ y = key
                    else x = key ∧ y = other) := by
                  apply Classical.byContradiction
                  intro hc
                  exact hlu ⟨hc, hl⟩
                obtain ⟨rfl, hc⟩ := hc
                rw [hle.1] at ha; injection ha with ha; subst ha
                rcases hdir x y hc with ⟨h1, h2⟩ | ⟨h1, h2⟩
                · rw [h1, h2]
                  rcases hR with h | h
                  · exact Or.inr (Or.inr ⟨by simp, h⟩)
                  · exact Or.inr (Or.inl h)
                · rw [h1, h2]
                  rcases hR with h | h
                  · exact Or.inr (Or.inr ⟨h, by simp⟩)
                  · exact Or.inl h
            · intro p q hp0 hp2 hc
              have hc' := hc
              obtain ⟨aid, a, isTo, h1, h2, h3, h4, h5⟩ := hc
              by_cases hlu : Lk (s2.unlink e.1 (decide (e.2.2.fromSet ≠ set)) key other) aid
                  (decide (a.fromSet ≠ p.1)) p.2 q.2
              · exact gU.closed p q hp0 hp2 ⟨aid, a, isTo, h1, h2, h3, h4, hlu⟩
              · -- p and q are the root and the other entity, and p is not the root
                have hpr : p ≠ (set, key) := by
                  rintro rfl
                  have := gU.keep (set, key) (by simp)
                  unfold Dead at hp0 hp2
                  rw [this] at hp2
                  exact hp0 hp2
                right
                obtain ⟨pn, pk⟩ := p
                obtain ⟨qn, qk⟩ := q
                dsimp only at *
                by_cases hf : a.fromSet = pn
                · have hdec : decide (a.fromSet ≠ pn) = false := by simp [hf]
                  rw [hdec] at h4 h5 hlu
                  simp only [Assoc.tgtSet, Lk, Bool.false_eq_true, if_false] at h4 h5 hlu
                  rw [unlink_L g2.inv.ok] at hlu
                  have hc : aid = e.1 ∧ (if (decide (e.2.2.fromSet ≠ set)) = true then
                      pk = other ∧ qk = key else pk = key ∧ qk = other) := by
                    apply Classical.byContradiction
                    intro hc
                    exact hlu ⟨hc, h5⟩
                  obtain ⟨rfl, hc⟩ := hc
                  rw [hle.1] at h1; injection h1 with h1; subst h1
                  rcases hdir pk qk hc with ⟨g1, g3⟩ | ⟨g1, g3⟩
                  · rw [hf] at g1; exact absurd g1 hpr
                  · rw [h4, g1]; simp
                · have hdec : decide (a.fromSet ≠ pn) = true := by simp [hf]
                  rw [hdec] at h4 h5 hlu
                  simp only [Assoc.tgtSet, Lk, if_true] at h4 h5 hlu
                  rw [unlink_L g2.inv.ok] at hlu
                  have hpn : a.toSet = pn := by
                    cases isTo with
                    | false => simp only [Assoc.endSet, Bool.false_eq_true, if_false] at h2; exact absurd h2 hf
                    | true => simpa [Assoc.endSet] using h2
                  have hc : aid = e.1 ∧ (if (decide (e.2.2.fromSet ≠ set)) = true then
                      qk = other ∧ pk = key else qk = key ∧ pk = other) := by
                    apply Classical.byContradiction
                    intro hc
                    exact hlu ⟨hc, h5⟩
                  obtain ⟨rfl, hc⟩ := hc
                  rw [hle.1] at h1; injection h1 with h1; subst h1
                  rcases hdir qk pk hc with ⟨g1, g3⟩ | ⟨g1, g3⟩
                  · rw [h4, g1]; simp
                  · rw [hpn] at g1; exact absurd g1 hpr
        -- one link end
        have hend : ∀ (s1 : St K V) (e : Nat × Bool × Assoc), e ∈ linkEnds sch set →
            Good sch ((set, key) :: s.deleting) { s with deleting := (set, key) :: s.deleting } s1 →
            (cascadeEnd (delItem sch fuel) set key s1 e).2 = .ok →
            Good sch ((set, key) :: s.deleting) s1 (cascadeEnd (delItem sch fuel) set key s1 e).1 ∧
            (e.2.2.endMult e.2.1 = .one → ∀ other,
              Lk s1 e.1 (decide (e.2.2.fromSet ≠ set)) key other →
              Dead (cascadeEnd (delItem sch fuel) set key s1 e).1
                (e.2.2.tgtSet (decide (e.2.2.fromSet ≠ set)), other) ∨
              (e.2.2.tgtSet (decide (e.2.2.fromSet ≠ set)), other) ∈ (set, key) :: s.deleting) := by
          intro s1 e he g1 hok1
          unfold cascadeEnd at hok1 ⊢
          by_cases hm : e.2.2.endMult e.2.1 ≠ .one
          · rw [if_pos hm]
            exact ⟨good_refl g1.inv g1.deleting, fun h => absurd h hm⟩
          · rw [if_neg hm] at hok1 ⊢
            have hl := loopM_ok (cascadeOne (delItem sch fuel) e.2.2 e.1 (e.2.2.endNav e.2.1)
              (decide (e.2.2.fromSet ≠ set)) key)
              (fun s2 => Good sch ((set, key) :: s.deleting) s1 s2)
              (fun other s2 => Dead s2 (e.2.2.tgtSet (decide (e.2.2.fromSet ≠ set)), other) ∨
                (e.2.2.tgtSet (decide (e.2.2.fromSet ≠ set)), other) ∈ (set, key) :: s.deleting)
              (s1.lookup e.1 (decide (e.2.2.fromSet ≠ set)) key) s1
              (good_refl g1.inv g1.deleting)
              (fun s2 other _ g2 h => by
                have := hone e s2 other he (good_trans g1 g2) h
                exact ⟨good_trans g2 this.1, this.2⟩)
              (fun s2 other o' _ g2 h hR => by
                have := hone e s2 other he (good_trans g1 g2) h
                rcases hR with hR | hR
                · exact Or.inl (this.1.mono _ hR)
                · exact Or.inr hR)
              hok1
            refine ⟨hl.1, fun _ other ho => hl.2.1 other ?_⟩
            rw [mem_lookup (g1.inv.ok e.1)]
            exact ho
        -- all link ends
        have hrok : (loopM (cascadeEnd (delItem sch fuel) set key)
            { s with deleting := (set, key) :: s.deleting } (linkEnds sch set)).2 = .ok := by
          by_cases h : (loopM (cascadeEnd (delItem sch fuel) set key)
            { s with deleting := (set, key) :: s.deleting } (linkEnds sch set)).2 = .ok
          · exact h
          · exact hok
        have hall := loopM_ok (cascadeEnd (delItem sch fuel) set key)
          (fun s1 => Good sch ((set, key) :: s.deleting)
            { s with deleting := (set, key) :: s.deleting } s1)
          (fun e s1 => e ∈ linkEnds sch set → e.2.2.endMult e.2.1 = .one → ∀ other,
            Lk s e.1 (decide (e.2.2.fromSet ≠ set)) key other →
              Dead s1 (e.2.2.tgtSet (decide (e.2.2.fromSet ≠ set)), other) ∨
              (e.2.2.tgtSet (decide (e.2.2.fromSet ≠ set)), other) ∈ (set, key) :: s.deleting)
          (linkEnds sch set) { s with deleting := (set, key) :: s.deleting }
          (good_refl hi1 rfl)
          (fun s1 e he g1 h => by
            have h1 := hend s1 e he g1 h
            refine ⟨good_trans g1 h1.1, fun _ hm other ho => ?_⟩
            have hle := mem_linkEnds he
            have hc : Casc sch { s with deleting := (set, key) :: s.deleting } (set, key)
                (e.2.2.tgtSet (decide (e.2.2.fromSet ≠ set)), other) :=
              ⟨e.1, e.2.2, e.2.1, hle.1, hle.2, hm, rfl, ho⟩
            have hdead : ¬ Dead s1 (set, key) := by
              intro hdd
              have := g1.keep (set, key) (by simp)
              unfold Dead at hdd
              rw [this] at hdd
              exact hRoot hdd
            by_cases hlk : Lk s1 e.1 (decide (e.2.2.fromSet ≠ set)) key other
            · exact h1.2 hm other hlk
            · have hlost : Dead s1 (e.2.2.tgtSet (decide (e.2.2.fromSet ≠ set)), other) ∨
                  ((e.2.2.tgtSet (decide (e.2.2.fromSet ≠ set)), other) ∈ (set, key) :: s.deleting) := by
                by_cases hf : e.2.2.fromSet = set
                · have hdec : decide (e.2.2.fromSet ≠ set) = false := by simp [hf]
                  rw [hdec] at ho hlk ⊢
                  simp only [Lk, Bool.false_eq_true, if_false] at ho hlk
                  simp only [Assoc.tgtSet, Bool.false_eq_true, if_false]
                  have := g1.lost e.1 e.2.2 key other hle.1 ho hlk
                  rw [hf] at this
                  rcases this with h | h | h
                  · exact absurd h hdead
                  · exact Or.inl h
                  · exact Or.inr h.2
                · have hdec : decide (e.2.2.fromSet ≠ set) = true := by simp [hf]
                  rw [hdec] at ho hlk ⊢
                  simp only [Lk, if_true] at ho hlk
                  simp only [Assoc.tgtSet, if_true]
                  have hto : e.2.2.toSet = set := by
                    have := hle.2
                    cases h : e.2.1 with
                    | false => rw [h] at this; simp [Assoc.endSet] at this; exact absurd this hf
                    | true => rw [h] at this; simpa [Assoc.endSet] using this
                  have := g1.lost e.1 e.2.2 other key hle.1 ho hlk
                  rw [hto] at this
                  rcases this with h | h | h
                  · exact Or.inl h
                  · exact absurd h hdead
                  · exact Or.inr h.1
              rcases hlost with h | h
              · exact Or.inl (h1.1.mono _ h)
              · exact Or.inr h)
          (fun s1 e e' he g1 h hR => by
            have h1 := hend s1 e he g1 h
            intro he' hm' other ho
            rcases hR he' hm' other ho with h | h
            · exact Or.inl (h1.1.mono _ h)
            · exact Or.inr h)
          hrok
        rw [if_pos hrok]
        generalize loopM (cascadeEnd (delItem sch fuel) set key)
          { s with deleting := (set, key) :: s.deleting } (linkEnds sch set) = r at hall
        obtain ⟨g, hends, _⟩ := hall
        have hdata : ∀ p : Nat × K, (deleteEntity sch r.1 set key).data p.1 p.2 =
            if p = (set, key) then none else r.1.data p.1 p.2 := by
          intro p
          rw [deleteEntity_data]
          obtain ⟨n, k⟩ := p
          simp [Prod.ext_iff]
        have hdeadr : Dead (deleteEntity sch r.1 set key) (set, key) := by
          unfold Dead
          rw [hdata]; simp
        have hmono : ∀ p, Dead r.1 p → Dead (deleteEntity sch r.1 set key) p := by
          intro p hp
          unfold Dead at *
          rw [hdata]
          split
          · rfl
          · exact hp
        refine ⟨⟨inv_deleting (inv_deleteEntity g.inv set key) _, ?_, ?_, ?_, ?_, ?_, ?_⟩,
          Or.inr hdeadr⟩
        · show r.1.deleting.erase (set, key) = s.deleting
          rw [g.deleting]; simp
        · intro p hp
          show (deleteEntity sch r.1 set key).data p.1 p.2 = _
          rw [hdata, if_neg (by rintro rfl; exact hd hp)]
          exact g.keep p (by simp [hp])
        · intro p hp
          exact hmono p (g.mono p hp)
        · intro n x y h
          exact g.links n x y (deleteEntity_L g.inv.ok set key n x y h).1
        · intro n a x y ha hl hn
          show Dead (deleteEntity sch r.1 set key) _ ∨ Dead (deleteEntity sch r.1 set key) _ ∨ _
          have key1 : ∀ p, p ∈ (set, key) :: s.deleting →
              Dead (deleteEntity sch r.1 set key) p ∨ p ∈ s.deleting := by
            intro p hp
            rw [List.mem_cons] at hp
            rcases hp with rfl | hp
            · exact Or.inl hdeadr
            · exact Or.inr hp
          by_cases hlr : L r.1 n x y
          · -- removed by the hooks: one end is the root
            have : (a.fromSet, x) = (set, key) ∨ (a.toSet, y) = (set, key) := by
              apply Classical.byContradiction
              intro hno
              apply hn
              show L (deleteEntity sch r.1 set key) n x y
              unfold L deleteEntity
              dsimp only
              rw [ha]
              dsimp only
              rw [(hooks_spec a set key _ (g.inv.ok n)).2]
              refine ⟨?_, ?_, hlr⟩
              · rintro ⟨h1, h2⟩; exact hno (Or.inl (by rw [h1, h2]))
              · rintro ⟨h1, h2⟩; exact hno (Or.inr (by rw [h1, h2]))
            rcases this with h | h
            · rw [h]; exact Or.inl hdeadr
            · rw [h]; exact Or.inr (Or.inl hdeadr)
          · rcases g.lost n a x y ha hl hlr with h | h | h
            · exact Or.inl (hmono _ h)
            · exact Or.inr (Or.inl (hmono _ h))
            · rcases key1 _ h.1 with h1 | h1
              · exact Or.inl h1
              · rcases key1 _ h.2 with h2 | h2
                · exact Or.inr (Or.inl h2)
                · exact Or.inr (Or.inr ⟨h1, h2⟩)
        · intro p q hp0 hp2 hc
          show Dead (deleteEntity sch r.1 set key) q ∨ q ∈ s.deleting
          have key1 : Dead r.1 q ∨ q ∈ (set, key) :: s.deleting →
              Dead (deleteEntity sch r.1 set key) q ∨ q ∈ s.deleting := by
            rintro (h | h)
            · exact Or.inl (hmono _ h)
            · rw [List.mem_cons] at h
              rcases h with rfl | h
              · exact Or.inl hdeadr
              · exact Or.inr h
          apply key1
          by_cases hpr : p = (set, key)
          · subst hpr
            obtain ⟨aid, a, isTo, h1, h2, h3, h4, h5⟩ := hc
            have hmem := linkEnds_mem h1 isTo
            rw [h2] at hmem
            have := hends (aid, isTo, a) hmem hmem h3 q.2 h5
            dsimp only at this h4
            rw [← h4] at this
            exact this
          · have hp1 : Dead r.1 p := by
              have h2 : Dead (deleteEntity sch r.1 set key) p := hp2
              unfold Dead at h2 ⊢
              rw [hdata, if_neg hpr] at h2
              exact h2
            exact g.closed p q hp0 hp1 hc

/-- C73: a successful deletion leaves no orphans: when an entity has gone, every entity that needed
it has gone too. -/
theorem inv_no_orphans {sch : Schema} {s : St K V} (hi : Inv sch s) (hd : s.deleting = [])
    (hns : ∀ (n : Nat) (a : Assoc), sch[n]? = some a → a.fromSet ≠ a.toSet)
    (depth set : Nat) (key : K) (hok : (step sch depth s (.delete set key)).2 = .ok)
    (p q : Nat × K) (hp : Exists s p.1 p.2)
    (hgone : (step sch depth s (.delete set key)).1.data p.1 p.2 = none)
    (hneed : Needs sch s p q) :
    (step sch depth s (.delete set key)).1.data q.1 q.2 = none := by
  have hg := (delItem_good sch depth s set key hi hok).1
  rw [hd] at hg
  have h0 : ¬ Dead s p := by
    unfold Dead Exists at *
    intro h; rw [h] at hp; cases hp
  rcases hg.closed p q h0 hgone ((casc_iff_needs s hns p q).2 hneed) with h | h
  · exact h
  · simp at h


/-! ## C73 for the containers calls can lead to -/

/-- A container after some history of calls, failed ones included (`FreshAll`: the calls that C72's
witnesses show to break the container are left out). -/
def Reached (sch : Schema) (s : St K V) : Prop :=
  ∃ depth ops, FreshAll sch depth ops St.empty ∧ s = runOps sch depth ops St.empty

theorem runOps_deleting (sch : Schema) (depth : Nat) : ∀ (ops : List (Op K V)) (s : St K V),
    Inv sch s → FreshAll sch depth ops s → (runOps sch depth ops s).deleting = s.deleting
  | [], _, _, _ => rfl
  | op :: ops, s, hi, hf => by
    have h := step_inv hi depth op hf.1
    exact (runOps_deleting sch depth ops _ h.1 hf.2).trans h.2

theorem Reached.inv {sch : Schema} {s : St K V} (h : Reached sch s) : Inv sch s ∧ s.deleting = [] := by
  obtain ⟨depth, ops, hf, rfl⟩ := h
  exact ⟨runOps_inv sch depth ops St.empty (inv_empty sch) hf,
    runOps_deleting sch depth ops St.empty (inv_empty sch) hf⟩

/-- C73: a successful deletion removes the entity, its stream and every link it had, seen from
either end. -/
theorem C73_deleted {sch : Schema} {s : St K V} (hr : Reached sch s)
    (depth set : Nat) (key : K) (h : (step sch depth s (.delete set key)).2 = .ok) :
    (step sch depth s (.delete set key)).1.data set key = none ∧
    (step sch depth s (.delete set key)).1.streams set key = none ∧
    (∀ n a, sch[n]? = some a → ∀ k,
      (a.fromSet = set → k ∉ (step sch depth s (.delete set key)).1.lookup n false key ∧
        key ∉ (step sch depth s (.delete set key)).1.lookup n true k) ∧
      (a.toSet = set → key ∉ (step sch depth s (.delete set key)).1.lookup n false k ∧
        k ∉ (step sch depth s (.delete set key)).1.lookup n true key)) := by
  have hd := inv_deleted hr.inv.1 hr.inv.2 depth set key h
  have hi : Inv sch (step sch depth s (.delete set key)).1 := (delItem_spec sch depth s set key hr.inv.1).1.inv
  refine ⟨hd.1, hd.2.1, fun n a ha k => ⟨fun hs => ?_, fun hs => ?_⟩⟩
  · have h1 := (hd.2.2 n a ha k).1 hs
    exact ⟨h1, fun h2 => h1 (((hi.ok n).mirror key k).2 h2)⟩
  · have h1 := (hd.2.2 n a ha k).2 hs
    exact ⟨h1, fun h2 => h1 (((hi.ok n).mirror k key).2 h2)⟩

/-- C73: whatever its outcome, a deletion only removes things: entities and links that stay are
unchanged, none are added. -/
theorem C73_only_removes {sch : Schema} {s : St K V} (hr : Reached sch s)
    (depth set : Nat) (key : K) (n : Nat) (k k' : K) :
    ((step sch depth s (.delete set key)).1.data n k = s.data n k ∨
      (step sch depth s (.delete set key)).1.data n k = none) ∧
    (k' ∈ (step sch depth s (.delete set key)).1.lookup n false k → k' ∈ s.lookup n false k) :=
  inv_only_removes hr.inv.1 depth set key n k k'

/-- C73: and, when no association joins an entity set with itself, only entities that need the
deleted one, directly or through others. -/
theorem C73_only_dependents_partial {sch : Schema} {s : St K V} (hr : Reached sch s)
    (hns : ∀ (n : Nat) (a : Assoc), sch[n]? = some a → a.fromSet ≠ a.toSet)
    (depth set : Nat) (key : K) (n : Nat) (k : K) (hx : Exists s n k)
    (h : (step sch depth s (.delete set key)).1.data n k = none) :
    Relation.ReflTransGen (Needs sch s) (set, key) (n, k) :=
  inv_only_dependents hr.inv.1 hns depth set key n k hx h

/-- C73: an existing entity that no other needs can be deleted, and no other entity goes with it. -/
theorem C73_leaf_deletes {sch : Schema} {s : St K V} (hr : Reached sch s)
    (hns : ∀ (n : Nat) (a : Assoc), sch[n]? = some a → a.fromSet ≠ a.toSet)
    (depth set : Nat) (key : K) (hx : Exists s set key) (hl : ∀ q, ¬ Needs sch s (set, key) q) :
    (step sch (depth + 1) s (.delete set key)).2 = .ok ∧
      ∀ n k, (n, k) ≠ (set, key) →
        (step sch (depth + 1) s (.delete set key)).1.data n k = s.data n k :=
  inv_leaf_deletes hr.inv.1 hr.inv.2 hns depth set key hx hl

/-- C73: a successful deletion leaves no orphans: when an entity has gone, every entity that needed
it has gone too. -/
theorem C73_no_orphans_partial {sch : Schema} {s : St K V} (hr : Reached sch s)
    (hns : ∀ (n : Nat) (a : Assoc), sch[n]? = some a → a.fromSet ≠ a.toSet)
    (depth set : Nat) (key : K) (hok : (step sch depth s (.delete set key)).2 = .ok)
    (p q : Nat × K) (hp : Exists s p.1 p.2)
    (hgone : (step sch depth s (.delete set key)).1.data p.1 p.2 = none)
    (hneed : Needs sch s p q) :
    (step sch depth s (.delete set key)).1.data q.1 q.2 = none :=
  inv_no_orphans hr.inv.1 hr.inv.2 hns depth set key hok p q hp hgone hneed

end Verif.MemDs

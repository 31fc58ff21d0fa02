import Verif.MemDs.Container
import Mathlib.Logic.Relation

/-!
# Integrity of the in-memory container (C72, C73)
-/
namespace Verif.MemDs

variable {K V : Type} [DecidableEq K]

/-! ## Specification -/

/-- `x` and `y` are linked in association `n`. -/
def L (s : St K V) (n : Nat) (x y : K) : Prop := y ∈ (s.idx n).linksFrom x

/-- Does an entity exist? -/
def Exists (s : St K V) (set : Nat) (k : K) : Prop := (s.data set k).isSome = true

/-- Integrity of a container. -/
structure Inv (sch : Schema) (s : St K V) : Prop where
  /-- the two directions of every association agree -/
  ok : ∀ n, (s.idx n).Ok
  /-- links join existing entities -/
  ends : ∀ n a, sch[n]? = some a → ∀ x y, L s n x y → Exists s a.fromSet x ∧ Exists s a.toSet y
  /-- an end that is not "many" has at most one entity for each entity at the other end -/
  to1 : ∀ n a, sch[n]? = some a → a.toMult ≠ .many → ∀ x y y', L s n x y → L s n x y' → y = y'
  from1 : ∀ n a, sch[n]? = some a → a.fromMult ≠ .many → ∀ x x' y, L s n x y → L s n x' y → x = x'
  /-- only existing entities have streams -/
  streams : ∀ n k, (s.streams n k).isSome = true → Exists s n k

/-! ## Links -/

/-- A link seen in the direction of a navigation. -/
def Lk (s : St K V) (n : Nat) (rev : Bool) (self key : K) : Prop :=
  if rev then L s n key self else L s n self key

omit [DecidableEq K] in
theorem mem_lookup {s : St K V} {n : Nat} (h : (s.idx n).Ok) (rev : Bool) (self key : K) :
    key ∈ s.lookup n rev self ↔ Lk s n rev self key := by
  unfold St.lookup Lk L
  cases rev with
  | false => simp
  | true => simp only [if_true]; exact (h.mirror key self).symm

theorem link_ok {s : St K V} (h : ∀ n, (s.idx n).Ok) (aid : Nat) (rev : Bool) (self key : K) (n : Nat) :
    ((s.link aid rev self key).idx n).Ok := by
  unfold St.link St.setIdx
  dsimp only
  split
  · cases rev with
    | false => exact addLink_ok _ (h aid) _ _
    | true => exact addLink_ok _ (h aid) _ _
  · exact h n

theorem unlink_ok {s : St K V} (h : ∀ n, (s.idx n).Ok) (aid : Nat) (rev : Bool) (self key : K)
    (n : Nat) : ((s.unlink aid rev self key).idx n).Ok := by
  unfold St.unlink St.setIdx
  dsimp only
  split
  · cases rev with
    | false => exact removeLink_ok _ (h aid) _ _
    | true => exact removeLink_ok _ (h aid) _ _
  · exact h n

theorem link_L (s : St K V) (aid : Nat) (rev : Bool) (self key : K) (n : Nat) (x y : K) :
    L (s.link aid rev self key) n x y ↔
      (n = aid ∧ (if rev then x = key ∧ y = self else x = self ∧ y = key)) ∨ L s n x y := by
  unfold L St.link St.setIdx
  dsimp only
  by_cases hn : n = aid
  · subst hn
    rw [if_pos rfl]
    cases rev with
    | false => simp [addLink_mem]
    | true => simp [addLink_mem]
  · rw [if_neg hn]; simp [hn]

theorem unlink_L {s : St K V} (h : ∀ n, (s.idx n).Ok) (aid : Nat) (rev : Bool) (self key : K)
    (n : Nat) (x y : K) :
    L (s.unlink aid rev self key) n x y ↔
      ¬ (n = aid ∧ (if rev then x = key ∧ y = self else x = self ∧ y = key)) ∧ L s n x y := by
  unfold L St.unlink St.setIdx
  dsimp only
  by_cases hn : n = aid
  · subst hn
    rw [if_pos rfl]
    cases rev with
    | false => simp [removeLink_mem _ (h n)]
    | true => simp [removeLink_mem _ (h n)]
  · rw [if_neg hn]; simp [hn]

theorem unlink_sub {s : St K V} (h : ∀ n, (s.idx n).Ok) {aid : Nat} {rev : Bool} {self key : K}
    {n : Nat} {x y : K} (hl : L (s.unlink aid rev self key) n x y) : L s n x y :=
  ((unlink_L h aid rev self key n x y).1 hl).2

omit [DecidableEq K] in
/-- Fewer links, the same entities. -/
theorem inv_fewer {sch : Schema} {s s' : St K V} (hi : Inv sch s) (hok : ∀ n, (s'.idx n).Ok)
    (hl : ∀ n x y, L s' n x y → L s n x y) (hd : s'.data = s.data) (hs : s'.streams = s.streams) :
    Inv sch s' where
  ok := hok
  ends n a ha x y h := by
    have := hi.ends n a ha x y (hl n x y h)
    unfold Exists at *; rw [hd]; exact this
  to1 n a ha hm x y y' h1 h2 := hi.to1 n a ha hm x y y' (hl _ _ _ h1) (hl _ _ _ h2)
  from1 n a ha hm x x' y h1 h2 := hi.from1 n a ha hm x x' y (hl _ _ _ h1) (hl _ _ _ h2)
  streams n k h := by
    unfold Exists; rw [hd]; rw [hs] at h; exact hi.streams n k h

/-- One more link between existing entities, within the multiplicities. -/
theorem inv_link {sch : Schema} {s : St K V} (hi : Inv sch s) {aid : Nat} {a : Assoc}
    (ha : sch[aid]? = some a) (rev : Bool) (self key : K) (hs : Exists s (a.srcSet rev) self)
    (ht : Exists s (a.tgtSet rev) key)
    (h1 : a.tgtMult rev ≠ .many → ∀ k, ¬ Lk s aid rev self k)
    (h2 : a.srcMult rev ≠ .many → ∀ k, ¬ Lk s aid (!rev) key k) :
    Inv sch (s.link aid rev self key) where
  ok := link_ok hi.ok aid rev self key
  ends n b hb x y h := by
    rw [link_L] at h
    rcases h with ⟨rfl, h⟩ | h
    · rw [ha] at hb; injection hb with hb; subst hb
      cases rev with
      | false =>
        simp only [Bool.false_eq_true, if_false] at h
        obtain ⟨rfl, rfl⟩ := h
        exact ⟨hs, ht⟩
      | true =>
        simp only [if_true] at h
        obtain ⟨rfl, rfl⟩ := h
        exact ⟨ht, hs⟩
    · exact hi.ends n b hb x y h
  to1 n b hb hm x y y' g1 g2 := by
    rw [link_L] at g1 g2
    by_cases hn : n = aid
    · subst hn
      rw [ha] at hb; injection hb with hb; subst hb
      cases rev with
      | false =>
        simp only [Bool.false_eq_true, if_false, true_and, Assoc.tgtMult] at g1 g2 h1
        have h1 := h1 hm
        unfold Lk at h1
        simp only [Bool.false_eq_true, if_false] at h1
        rcases g1 with ⟨rfl, rfl⟩ | g1 <;> rcases g2 with ⟨e, rfl⟩ | g2
        · rfl
        · exact absurd g2 (h1 _)
        · subst e; exact absurd g1 (h1 _)
        · exact hi.to1 n a ha hm x y y' g1 g2
      | true =>
        simp only [if_true, true_and, Assoc.srcMult] at g1 g2 h2
        have h2 := h2 hm
        unfold Lk at h2
        simp only [Bool.not_true, Bool.false_eq_true, if_false] at h2
        rcases g1 with ⟨rfl, rfl⟩ | g1 <;> rcases g2 with ⟨e, rfl⟩ | g2
        · rfl
        · exact absurd g2 (h2 _)
        · subst e; exact absurd g1 (h2 _)
        · exact hi.to1 n a ha hm x y y' g1 g2
    · simp only [hn, false_and, false_or] at g1 g2
      exact hi.to1 n b hb hm x y y' g1 g2
  from1 n b hb hm x x' y g1 g2 := by
    rw [link_L] at g1 g2
    by_cases hn : n = aid
    · subst hn
      rw [ha] at hb; injection hb with hb; subst hb
      cases rev with
      | false =>
        simp only [Bool.false_eq_true, if_false, true_and, Assoc.srcMult] at g1 g2 h2
        have h2 := h2 hm
        unfold Lk at h2
        simp only [Bool.not_false, if_true] at h2
        rcases g1 with ⟨rfl, rfl⟩ | g1 <;> rcases g2 with ⟨rfl, e⟩ | g2
        · rfl
        · exact absurd g2 (h2 _)
        · subst e; exact absurd g1 (h2 _)
        · exact hi.from1 n a ha hm x x' y g1 g2
      | true =>
        simp only [if_true, true_and, Assoc.tgtMult] at g1 g2 h1
        have h1 := h1 hm
        unfold Lk at h1
        simp only [if_true] at h1
        rcases g1 with ⟨rfl, rfl⟩ | g1 <;> rcases g2 with ⟨rfl, e⟩ | g2
        · rfl
        · exact absurd g2 (h1 _)
        · subst e; exact absurd g1 (h1 _)
        · exact hi.from1 n a ha hm x x' y g1 g2
    · simp only [hn, false_and, false_or] at g1 g2
      exact hi.from1 n b hb hm x x' y g1 g2
  streams n k h := hi.streams n k h

/-! ## Navigation calls -/

/-- The entities and streams are untouched. -/
def SameData (s s' : St K V) : Prop := s'.data = s.data ∧ s'.streams = s.streams ∧ s'.deleting = s.deleting

omit [DecidableEq K] in
theorem lookup_nil {s : St K V} (hok : ∀ n, (s.idx n).Ok) {n : Nat} {rev : Bool} {k : K}
    (h : s.lookup n rev k = []) : ∀ j, ¬ Lk s n rev k j := by
  intro j hj
  rw [← mem_lookup (hok n)] at hj
  rw [h] at hj
  simp at hj

theorem navSet_spec {sch : Schema} {s : St K V} (hi : Inv sch s) {aid : Nat} {a : Assoc}
    (ha : sch[aid]? = some a) (rev : Bool) (self key : K) (hs : Exists s (a.srcSet rev) self) :
    Inv sch (navSet a aid rev s self key).1 ∧ SameData s (navSet a aid rev s self key).1 := by
  unfold navSet
  split
  · exact ⟨hi, rfl, rfl, rfl⟩
  · split
    · exact ⟨hi, rfl, rfl, rfl⟩
    · rename_i hx
      split
      · exact ⟨hi, rfl, rfl, rfl⟩
      · rename_i h1
        split
        · exact ⟨hi, rfl, rfl, rfl⟩
        · rename_i h2
          refine ⟨inv_link hi ha rev self key hs ?_ ?_ ?_, rfl, rfl, rfl⟩
          · unfold Exists
            cases hd : s.data (a.tgtSet rev) key with
            | none => rw [hd] at hx; simp at hx
            | some v => rfl
          · intro hm
            apply lookup_nil hi.ok
            apply Classical.byContradiction
            intro hne
            exact h1 ⟨hm, hne⟩
          · intro hm
            apply lookup_nil hi.ok
            apply Classical.byContradiction
            intro hne
            exact h2 ⟨hm, hne⟩

theorem navDel_spec {sch : Schema} {s : St K V} (hi : Inv sch s) {aid : Nat} {a : Assoc}
    (rev : Bool) (self key : K) :
    Inv sch (navDel a aid rev s self key).1 ∧ SameData s (navDel a aid rev s self key).1 := by
  unfold navDel
  split
  · exact ⟨hi, rfl, rfl, rfl⟩
  · split
    · exact ⟨hi, rfl, rfl, rfl⟩
    · exact ⟨inv_fewer hi (unlink_ok hi.ok aid rev self key) (fun _ _ _ h => unlink_sub hi.ok h) rfl rfl,
        rfl, rfl, rfl⟩

/-- What the loop over the old links leaves. -/
theorem unlinkOthers_spec (aid : Nat) (rev : Bool) (self key : K) : ∀ (os : List K) (s : St K V),
    (∀ n, (s.idx n).Ok) →
    (∀ n, ((unlinkOthers aid rev self key os s).idx n).Ok) ∧
    SameData s (unlinkOthers aid rev self key os s) ∧
    (∀ n x y, L (unlinkOthers aid rev self key os s) n x y ↔
      L s n x y ∧ ¬ (n = aid ∧ (if rev then y = self ∧ x ∈ os ∧ x ≠ key
        else x = self ∧ y ∈ os ∧ y ≠ key)))
  | [], s, hok => by
    refine ⟨hok, ⟨rfl, rfl, rfl⟩, fun n x y => ?_⟩
    cases rev <;> simp [unlinkOthers]
  | o :: os, s, hok => by
    unfold unlinkOthers
    by_cases ho : o ≠ key
    · rw [if_pos ho]
      have ih := unlinkOthers_spec aid rev self key os (s.unlink aid rev self o)
        (unlink_ok hok aid rev self o)
      refine ⟨ih.1, ih.2.1, fun n x y => ?_⟩
      rw [ih.2.2, unlink_L hok]
      cases rev with
      | false =>
        simp only [Bool.false_eq_true, if_false, List.mem_cons]
        constructor
        · rintro ⟨⟨h1, h2⟩, h3⟩
          refine ⟨h2, ?_⟩
          rintro ⟨h4, h5, h6 | h6, h7⟩
          · exact h1 ⟨h4, h5, h6⟩
          · exact h3 ⟨h4, h5, h6, h7⟩
        · rintro ⟨h2, h3⟩
          refine ⟨⟨?_, h2⟩, fun h4 => h3 ⟨h4.1, h4.2.1, Or.inr h4.2.2.1, h4.2.2.2⟩⟩
          rintro ⟨h4, h5, h6⟩
          exact h3 ⟨h4, h5, Or.inl h6, by rw [h6]; exact ho⟩
      | true =>
        simp only [if_true, List.mem_cons]
        constructor
        · rintro ⟨⟨h1, h2⟩, h3⟩
          refine ⟨h2, ?_⟩
          rintro ⟨h4, h5, h6 | h6, h7⟩
          · exact h1 ⟨h4, h6, h5⟩
          · exact h3 ⟨h4, h5, h6, h7⟩
        · rintro ⟨h2, h3⟩
          refine ⟨⟨?_, h2⟩, fun h4 => h3 ⟨h4.1, h4.2.1, Or.inr h4.2.2.1, h4.2.2.2⟩⟩
          rintro ⟨h4, h5, h6⟩
          exact h3 ⟨h4, h6, Or.inl h5, by rw [h5]; exact ho⟩
    · rw [if_neg ho]
      simp only [ne_eq, Decidable.not_not] at ho
      have ih := unlinkOthers_spec aid rev self key os s hok
      refine ⟨ih.1, ih.2.1, fun n x y => ?_⟩
      rw [ih.2.2]
      cases rev with
      | false =>
        simp only [Bool.false_eq_true, if_false, List.mem_cons]
        subst ho
        constructor
        · rintro ⟨h1, h2⟩
          refine ⟨h1, ?_⟩
          rintro ⟨h4, h5, h6 | h6, h7⟩
          · exact h7 h6
          · exact h2 ⟨h4, h5, h6, h7⟩
        · rintro ⟨h1, h2⟩
          exact ⟨h1, fun h4 => h2 ⟨h4.1, h4.2.1, Or.inr h4.2.2.1, h4.2.2.2⟩⟩
      | true =>
        simp only [if_true, List.mem_cons]
        subst ho
        constructor
        · rintro ⟨h1, h2⟩
          refine ⟨h1, ?_⟩
          rintro ⟨h4, h5, h6 | h6, h7⟩
          · exact h7 h6
          · exact h2 ⟨h4, h5, h6, h7⟩
        · rintro ⟨h1, h2⟩
          exact ⟨h1, fun h4 => h2 ⟨h4.1, h4.2.1, Or.inr h4.2.2.1, h4.2.2.2⟩⟩

/-- The links after a replacement that is carried out: `self` is linked to `key` only, everything
else is as before. -/
theorem navReplace_L {s : St K V} (hok : ∀ n, (s.idx n).Ok) (aid : Nat) (rev : Bool) (self key : K)
    (n : Nat) (x y : K) :
    L (unlinkOthers aid rev self key (s.lookup aid rev self)
        (if key ∉ s.lookup aid rev self then s.link aid rev self key else s)) n x y ↔
      if n = aid ∧ (if rev then y = self else x = self) then (if rev then x = key else y = key)
      else L s n x y := by
  have hok' : ∀ n, ((if key ∉ s.lookup aid rev self then s.link aid rev self key else s).idx n).Ok := by
    intro n; split
    · exact link_ok hok aid rev self key n
    · exact hok n
  have hL : L (if key ∉ s.lookup aid rev self then s.link aid rev self key else s) n x y ↔
      (n = aid ∧ (if rev then x = key ∧ y = self else x = self ∧ y = key)) ∨ L s n x y := by
    split
    · rw [link_L]
    · rename_i hk
      rw [Decidable.not_not, mem_lookup (hok aid)] at hk
      constructor
      · exact Or.inr
      · rintro (⟨rfl, h⟩ | h)
        · cases rev with
          | false =>
            simp only [Bool.false_eq_true, if_false] at h
            obtain ⟨rfl, rfl⟩ := h
            simpa [Lk] using hk
          | true =>
            simp only [if_true] at h
            obtain ⟨rfl, rfl⟩ := h
            simpa [Lk] using hk
        · exact h
  rw [(unlinkOthers_spec aid rev self key _ _ hok').2.2, hL]
  simp only [mem_lookup (hok aid)]
  cases rev with
  | false =>
    simp only [Bool.false_eq_true, if_false]
    unfold Lk
    simp only [Bool.false_eq_true, if_false]
    by_cases hc : n = aid ∧ x = self
    · rw [if_pos hc]
      obtain ⟨rfl, rfl⟩ := hc
      simp only [true_and]
      constructor
      · rintro ⟨h1 | h1, h2⟩
        · exact h1
        · exact Classical.byContradiction fun h3 => h2 ⟨h1, h3⟩
      · rintro rfl; exact ⟨Or.inl rfl, fun h => h.2 rfl⟩
    · rw [if_neg hc]
      constructor
      · rintro ⟨h1 | h1, _⟩
        · exact absurd ⟨h1.1, h1.2.1⟩ hc
        · exact h1
      · intro h; exact ⟨Or.inr h, fun h4 => hc ⟨h4.1, h4.2.1⟩⟩
  | true =>
    simp only [if_true]
    unfold Lk
    simp only [if_true]
    by_cases hc : n = aid ∧ y = self
    · rw [if_pos hc]
      obtain ⟨rfl, rfl⟩ := hc
      simp only [true_and]
      constructor
      · rintro ⟨h1 | h1, h2⟩
        · exact h1.1
        · exact Classical.byContradiction fun h3 => h2 ⟨h1, h3⟩
      · rintro rfl; exact ⟨Or.inl ⟨rfl, trivial⟩, fun h => h.2 rfl⟩
    · rw [if_neg hc]
      constructor
      · rintro ⟨h1 | h1, _⟩
        · exact absurd ⟨h1.1, h1.2.2⟩ hc
        · exact h1
      · intro h; exact ⟨Or.inr h, fun h4 => hc ⟨h4.1, h4.2.1⟩⟩

/-- `replace` does not take a target away from another source when a target may have at most one. -/
def NoSteal (a : Assoc) (aid : Nat) (rev : Bool) (s : St K V) (self key : K) : Prop :=
  a.srcMult rev = .zeroToOne → ∀ k, Lk s aid (!rev) key k → k = self

theorem navReplace_spec {sch : Schema} {s : St K V} (hi : Inv sch s) {aid : Nat} {a : Assoc}
    (ha : sch[aid]? = some a) (rev : Bool) (self key : K) (hs : Exists s (a.srcSet rev) self)
    (ht : Exists s (a.tgtSet rev) key) (hns : NoSteal a aid rev s self key) :
    Inv sch (navReplace a aid rev s self key).1 ∧ SameData s (navReplace a aid rev s self key).1 := by
  unfold navReplace
  split
  · exact ⟨hi, rfl, rfl, rfl⟩
  · split
    · split
      · exact ⟨hi, rfl, rfl, rfl⟩
      · exact navSet_spec hi ha rev self key hs
    · rename_i hone
      have hL := navReplace_L hi.ok aid rev self key
      have hbase : SameData s (if key ∉ s.lookup aid rev self then s.link aid rev self key else s) := by
        split
        · exact ⟨rfl, rfl, rfl⟩
        · exact ⟨rfl, rfl, rfl⟩
      have hok' : ∀ n, ((if key ∉ s.lookup aid rev self then s.link aid rev self key else s).idx n).Ok := by
        intro n; split
        · exact link_ok hi.ok aid rev self key n
        · exact hi.ok n
      have hsp := unlinkOthers_spec aid rev self key (s.lookup aid rev self) _ hok'
      have hd : SameData s (unlinkOthers aid rev self key (s.lookup aid rev self)
          (if key ∉ s.lookup aid rev self then s.link aid rev self key else s)) :=
        ⟨hsp.2.1.1.trans hbase.1, hsp.2.1.2.1.trans hbase.2.1, hsp.2.1.2.2.trans hbase.2.2⟩
      refine ⟨⟨hsp.1, ?_, ?_, ?_, ?_⟩, hd⟩
      · intro n b hb x y h
        rw [hL] at h
        unfold Exists
        rw [hd.1]
        by_cases hc : n = aid ∧ (if rev then y = self else x = self)
        · rw [if_pos hc] at h
          obtain ⟨rfl, hc⟩ := hc
          rw [ha] at hb; injection hb with hb; subst hb
          cases rev with
          | false =>
            simp only [Bool.false_eq_true, if_false] at h hc
            subst h; subst hc; exact ⟨hs, ht⟩
          | true =>
            simp only [if_true] at h hc
            subst h; subst hc; exact ⟨ht, hs⟩
        · rw [if_neg hc] at h
          exact hi.ends n b hb x y h
      · intro n b hb hm x y y' g1 g2
        rw [hL] at g1 g2
        by_cases hn : n = aid
        · subst hn
          rw [ha] at hb; injection hb with hb; subst hb
          cases rev with
          | false =>
            simp only [Bool.false_eq_true, if_false, true_and] at g1 g2
            by_cases hx : x = self
            · rw [if_pos hx] at g1 g2; rw [g1, g2]
            · rw [if_neg hx] at g1 g2; exact hi.to1 n a ha hm x y y' g1 g2
          | true =>
            simp only [if_true, true_and] at g1 g2
            have hz : a.srcMult true = .zeroToOne := by
              simp only [Assoc.srcMult, if_true] at hone ⊢
              cases hm' : a.toMult with
              | zeroToOne => rfl
              | one => exact absurd hm' hone
              | many => exact absurd hm' hm
            have hns := hns hz
            unfold Lk at hns
            simp only [Bool.not_true, Bool.false_eq_true, if_false] at hns
            by_cases hy : y = self <;> by_cases hy' : y' = self
            · rw [hy, hy']
            · rw [if_pos hy] at g1; rw [if_neg hy'] at g2
              subst g1; exact absurd (hns _ g2) hy'
            · rw [if_neg hy] at g1; rw [if_pos hy'] at g2
              subst g2; exact absurd (hns _ g1) hy
            · rw [if_neg hy] at g1; rw [if_neg hy'] at g2
              exact hi.to1 n a ha hm x y y' g1 g2
        · simp only [hn, false_and, if_false] at g1 g2
          exact hi.to1 n b hb hm x y y' g1 g2
      · intro n b hb hm x x' y g1 g2
        rw [hL] at g1 g2
        by_cases hn : n = aid
        · subst hn
          rw [ha] at hb; injection hb with hb; subst hb
          cases rev with
          | true =>
            simp only [if_true, true_and] at g1 g2
            by_cases hx : y = self
            · rw [if_pos hx] at g1 g2; rw [g1, g2]
            · rw [if_neg hx] at g1 g2; exact hi.from1 n a ha hm x x' y g1 g2
          | false =>
            simp only [Bool.false_eq_true, if_false, true_and] at g1 g2
            have hz : a.srcMult false = .zeroToOne := by
              simp only [Assoc.srcMult, Bool.false_eq_true, if_false] at hone ⊢
              cases hm' : a.fromMult with
              | zeroToOne => rfl
              | one => exact absurd hm' hone
              | many => exact absurd hm' hm
            have hns := hns hz
            unfold Lk at hns
            simp only [Bool.not_false, if_true] at hns
            by_cases hy : x = self <;> by_cases hy' : x' = self
            · rw [hy, hy']
            · rw [if_pos hy] at g1; rw [if_neg hy'] at g2
              subst g1; exact absurd (hns _ g2) hy'
            · rw [if_neg hy] at g1; rw [if_pos hy'] at g2
              subst g2; exact absurd (hns _ g1) hy
            · rw [if_neg hy] at g1; rw [if_neg hy'] at g2
              exact hi.from1 n a ha hm x x' y g1 g2
        · simp only [hn, false_and, if_false] at g1 g2
          exact hi.from1 n b hb hm x x' y g1 g2
      · intro n k h
        unfold Exists
        rw [hd.1]
        rw [hd.2.1] at h
        exact hi.streams n k h

end Verif.MemDs

import Verif.Qti.Numeric2
import Mathlib.Data.List.Dedup
import Mathlib.Data.List.Perm.Basic
/-
C95: mappings and lookup tables.
-/
namespace Verif.Qti

/-! ## Specification -/

/-- The number for a key: that of the last entry with this key, else the default. -/
def entryFor {α β : Type} [DecidableEq α] (l : List (α × β)) (dflt : β) (k : α) : β :=
  match l.reverse.find? (fun e => e.1 = k) with
  | some e => e.2
  | none => dflt

/-- x moved into the bounds, when the lower one does not exceed the upper one. -/
def InBounds (lo hi : Option Rat) (x r : Rat) : Prop :=
  (∀ l, lo = some l → l ≤ r) ∧ (∀ h, hi = some h → r ≤ h) ∧
    ((∀ l, lo = some l → l ≤ x) → (∀ h, hi = some h → x ≤ h) → r = x) ∧
    (∀ l, lo = some l → x < l → r = l) ∧ (∀ h, hi = some h → h < x → r = h)

/-! ## Lemmas -/

theorem clip_spec {lo hi : Option Rat} (hb : ∀ l h, lo = some l → hi = some h → l ≤ h) (x : Rat) :
    InBounds lo hi x (clip lo hi x) := by
  unfold InBounds clip
  cases lo with
  | none =>
    cases hi with
    | none => simp
    | some h =>
      refine ⟨by simp, ?_, ?_, by simp, ?_⟩
      · intro h' e; cases e; dsimp only; split <;> linarith
      · intro _ e; have := e h rfl; dsimp only; rw [if_neg (by linarith)]
      · intro h' e; cases e; intro hx; dsimp only; rw [if_pos (by linarith)]
  | some l =>
    cases hi with
    | none =>
      refine ⟨?_, by simp, ?_, ?_, by simp⟩
      · intro h' e; cases e; dsimp only; split <;> linarith
      · intro e _; have := e l rfl; dsimp only; rw [if_neg (by linarith)]
      · intro h' e; cases e; intro hx; dsimp only; rw [if_pos (by linarith)]
    | some h =>
      have hlh := hb l h rfl rfl
      refine ⟨?_, ?_, ?_, ?_, ?_⟩
      · intro h' e; cases e; dsimp only; split
        · linarith
        · split <;> linarith
      · intro h' e; cases e; dsimp only; split
        · linarith
        · split <;> linarith
      · intro e e'; have := e l rfl; have := e' h rfl; dsimp only
        rw [if_neg (by linarith), if_neg (by linarith)]
      · intro h' e; cases e; intro hx; dsimp only; rw [if_pos (by linarith)]
      · intro h' e; cases e; intro hx; dsimp only; rw [if_neg (by linarith), if_pos (by linarith)]

theorem dget_foldl {α β : Type} [DecidableEq α] (k : α) : ∀ (l : List (α × β)) (acc : List (α × β)),
    dget k (l.foldl (fun acc e => dset e.1 e.2 acc) acc) =
      (match l.reverse.find? (fun e => e.1 = k) with
        | some e => some e.2
        | none => dget k acc)
  | [], acc => rfl
  | (a, b) :: l, acc => by
    rw [List.foldl_cons, dget_foldl k l, List.reverse_cons, List.find?_append]
    cases hf : l.reverse.find? (fun e => e.1 = k) with
    | some e => rfl
    | none =>
      simp only [Option.none_or, List.find?_cons, List.find?_nil]
      by_cases h : a = k
      · subst h; simp [dget_dset]
      · simp [h, dget_dset, Ne.symm h]

theorem dget_entry {α β : Type} [DecidableEq α] (l : List (α × β)) (d : β) (k : α) :
    (dget k (l.foldl (fun acc e => dset e.1 e.2 acc) [])).getD d = entryFor l d k := by
  rw [dget_foldl]
  unfold entryFor
  cases l.reverse.find? (fun e => e.1 = k) <;> rfl

theorem mapLoop_spec (m : Mapping) : ∀ (l been : List Datum) (r : Rat),
    mapLoop m l been r =
      r + ((l.dedup.filter (· ∉ been)).map (entryFor m.entries m.dflt)).sum
  | [], been, r => by simp [mapLoop]
  | d :: l, been, r => by
    simp only [mapLoop]
    split
    · rename_i hd
      rw [mapLoop_spec m l been r]
      by_cases hl : d ∈ l
      · rw [List.dedup_cons_of_mem hl]
      · rw [List.dedup_cons_of_notMem hl, List.filter_cons_of_neg (by simpa using hd)]
    · rename_i hd
      rw [mapLoop_spec m l (d :: been), Mapping.map, dget_entry]
      have key : ((d :: l).dedup.filter (· ∉ been)).Perm
          (d :: (l.dedup.filter (· ∉ d :: been))) := by
        rw [List.perm_iff_count]
        intro x
        have n1 : ((d :: l).dedup.filter (· ∉ been)).Nodup := (List.nodup_dedup _).filter _
        have n2 : (d :: (l.dedup.filter (· ∉ d :: been))).Nodup := by
          rw [List.nodup_cons]
          exact ⟨by simp, (List.nodup_dedup _).filter _⟩
        rw [List.Nodup.count n1, List.Nodup.count n2]
        congr 1
        simp only [List.mem_filter, List.mem_dedup, List.mem_cons, decide_eq_true_eq, eq_iff_iff]
        by_cases hx : x = d
        · subst hx; simp [hd]
        · simp [hx]
      rw [((key.map (entryFor m.entries m.dflt)).sum_eq)]
      simp only [List.map_cons, List.sum_cons]
      ring

/-- The elements of a container or single value, each once. -/
def Val.mapElems (v : Val) : List Datum :=
  match v with
  | .single _ (some d) => [d]
  | .ordered _ (some l) => l
  | .multiple _ (some m) => m.map (·.1)
  | _ => []

/-- C95, mapping: for a value that is not NULL (and not a record) the result is the sum, over the
distinct elements of the value, of the number mapped to the element (by the last entry that has it
as key) or the default, then moved to the nearer bound. -/
theorem C95_map (m : Mapping) (v : Val) (hr : v.card ≠ some .record) (hs : v.isSet = true) (hb : v.bt ≠ none)
    (hlh : ∀ l h, m.lower = some l → m.upper = some h → l ≤ h) :
    ∃ r, m.mapValue v = .ok r ∧
      InBounds m.lower m.upper ((v.mapElems.dedup.map (entryFor m.entries m.dflt)).sum) r := by
  have hsrc : srcValues v = .ok v.mapElems := by
    cases v with
    | null => rfl
    | container t => rfl
    | single t o => cases o <;> rfl
    | ordered t o => cases o <;> rfl
    | multiple t o => cases o <;> rfl
    | record o => exact absurd rfl hr
  have hbn : v.bt.isNone = false := by
    cases h : v.bt with
    | none => exact absurd h hb
    | some t => rfl
  have e : m.mapValue v = .ok (clip m.lower m.upper (mapLoop m v.mapElems [] 0)) := by
    unfold Mapping.mapValue
    rw [hsrc]
    change (if (!v.isSet || v.bt.isNone) = true then pure (0:Rat) else _ : R Rat) = _
    rw [hs, hbn]
    rfl
  refine ⟨_, e, ?_⟩
  rw [mapLoop_spec]
  have : (v.mapElems.dedup.filter (· ∉ ([] : List Datum))) = v.mapElems.dedup := by simp
  rw [this, zero_add]
  exact clip_spec hlh _

/-- C95, mapping: NULL is mapped to 0. -/
theorem C95_map_null (m : Mapping) (v : Val) (hs : v.isSet = false) : m.mapValue v = .ok 0 := by
  have hsrc : srcValues v = .ok [] := by
    cases v with
    | null => rfl
    | container t => rfl
    | single t o => cases o with
      | none => rfl
      | some => cases hs
    | ordered t o => cases o with
      | none => rfl
      | some => cases hs
    | multiple t o => cases o with
      | none => rfl
      | some => cases hs
    | record o => cases o with
      | none => rfl
      | some => cases hs
  unfold Mapping.mapValue
  rw [hsrc]
  change (if (!v.isSet || v.bt.isNone) = true then pure (0:Rat) else _ : R Rat) = _
  rw [hs]
  rfl

/-- The bounds matter in this order: when the lower bound exceeds the upper one the result can
leave the upper bound. -/
theorem C95_bounds_inverted : (Mapping.mapValue ⟨some 5, some 3, 0, []⟩
    (.single (some .integer) (some (.int 1)))) = .ok 5 := by decide +kernel

/-- The area that a point belongs to: the first that holds it. -/
def Hits (m : AreaMapping) (w h : Option Int) (x y : Int) (o : Option Nat) : Prop :=
  match o with
  | some i => ∃ s q, m.entries[i]? = some (s, q) ∧ s.test x y w h = .ok true ∧
      ∀ j < i, ∀ s q, m.entries[j]? = some (s, q) → s.test x y w h = .ok false
  | none => ∀ s q, (s, q) ∈ m.entries → s.test x y w h = .ok false

theorem firstArea_spec {x y : Int} {w h : Option Int} : ∀ {l : List (Shape × Rat)} {n : Nat} {o : Option Nat},
    firstArea x y w h n l = .ok o →
    (∀ i, o = some i → n ≤ i ∧ ∃ s q, l[i - n]? = some (s, q) ∧ s.test x y w h = .ok true ∧
      ∀ j < i - n, ∀ s q, l[j]? = some (s, q) → s.test x y w h = .ok false) ∧
    (o = none → ∀ s q, (s, q) ∈ l → s.test x y w h = .ok false)
  | [], n, o, he => by
    simp only [firstArea] at he
    cases he
    simp
  | (s, q) :: l, n, o, he => by
    simp only [firstArea, bind_ok] at he
    obtain ⟨b, hb, he⟩ := he
    cases b with
    | true =>
      cases he
      refine ⟨?_, by simp⟩
      intro i hi
      cases hi
      refine ⟨le_refl _, s, q, by simp, hb, by simp⟩
    | false =>
      obtain ⟨h1, h2⟩ := firstArea_spec (l := l) (n := n + 1) he
      refine ⟨?_, ?_⟩
      · intro i hi
        obtain ⟨hni, s', q', g1, g2, g3⟩ := h1 i hi
        have e : i - n = (i - (n + 1)) + 1 := by omega
        refine ⟨by omega, s', q', ?_, g2, ?_⟩
        · rw [e, List.getElem?_cons_succ]; exact g1
        · intro j hj s'' q'' hg
          cases j with
          | zero => simp at hg; obtain ⟨rfl, rfl⟩ := hg; exact hb
          | succ j => rw [List.getElem?_cons_succ] at hg; exact g3 j (by omega) _ _ hg
      · intro ho s' q' hm
        rcases List.mem_cons.1 hm with hh | hh
        · cases hh; exact hb
        · exact h2 ho _ _ hh

theorem firstArea_hits {m : AreaMapping} {x y : Int} {w h : Option Int} {o : Option Nat}
    (he : firstArea x y w h 0 m.entries = .ok o) : Hits m w h x y o := by
  obtain ⟨h1, h2⟩ := firstArea_spec he
  cases o with
  | none => exact h2 rfl
  | some i =>
    obtain ⟨_, s, q, g1, g2, g3⟩ := h1 i rfl
    exact ⟨s, q, g1, g2, g3⟩

/-- The area each point of the list belongs to. -/
def AreasOf (m : AreaMapping) (w h : Option Int) (l : List Datum) (as : List (Option Nat)) : Prop :=
  List.Forall₂ (fun d o => ∃ x y, d = .point x y ∧ Hits m w h x y o) l as

/-- The number for an area. -/
def AreaMapping.value (m : AreaMapping) (i : Nat) : Rat := ((m.entries[i]?).map (·.2)).getD 0

theorem areaLoop_spec {m : AreaMapping} {w h : Option Int} : ∀ {l : List Datum} {been : List Nat} {r x : Rat},
    areaLoop m w h l been r = .ok x → ∃ as, AreasOf m w h l as ∧
      x = r + (as.filter (· = none)).length * m.dflt +
        (((as.filterMap id).dedup.filter (· ∉ been)).map m.value).sum
  | [], been, r, x, he => by
    simp only [areaLoop] at he
    cases he
    exact ⟨[], List.Forall₂.nil, by simp⟩
  | d :: l, been, r, x, he => by
    cases d with
    | point px py =>
      simp only [areaLoop, bind_ok] at he
      obtain ⟨o, ho, he⟩ := he
      have hh := firstArea_hits ho
      cases o with
      | none =>
        dsimp only at he
        obtain ⟨as, ha, rfl⟩ := areaLoop_spec he
        refine ⟨none :: as, List.Forall₂.cons ⟨px, py, rfl, hh⟩ ha, ?_⟩
        simp only [List.filter_cons, decide_true, if_true, List.length_cons, List.filterMap_cons, id]
        push_cast
        ring
      | some i =>
        dsimp only at he
        split at he
        · rename_i hi
          obtain ⟨as, ha, rfl⟩ := areaLoop_spec he
          refine ⟨some i :: as, List.Forall₂.cons ⟨px, py, rfl, hh⟩ ha, ?_⟩
          have e1 : (some i :: as).filterMap id = i :: as.filterMap id := rfl
          have e2 : (some i :: as).filter (· = none) = as.filter (· = none) := rfl
          rw [e1, e2]
          by_cases hl : i ∈ as.filterMap id
          · rw [List.dedup_cons_of_mem hl]
          · rw [List.dedup_cons_of_notMem hl, List.filter_cons_of_neg (by simpa using hi)]
        · rename_i hi
          obtain ⟨as, ha, rfl⟩ := areaLoop_spec he
          refine ⟨some i :: as, List.Forall₂.cons ⟨px, py, rfl, hh⟩ ha, ?_⟩
          have e1 : (some i :: as).filterMap id = i :: as.filterMap id := rfl
          have e2 : (some i :: as).filter (· = none) = as.filter (· = none) := rfl
          rw [e1, e2]
          have key : (((i :: as.filterMap id)).dedup.filter (· ∉ been)).Perm
              (i :: ((as.filterMap id).dedup.filter (· ∉ i :: been))) := by
            rw [List.perm_iff_count]
            intro z
            have n1 : (((i :: as.filterMap id)).dedup.filter (· ∉ been)).Nodup := (List.nodup_dedup _).filter _
            have n2 : (i :: ((as.filterMap id).dedup.filter (· ∉ i :: been))).Nodup := by
              rw [List.nodup_cons]
              exact ⟨by simp, (List.nodup_dedup _).filter _⟩
            rw [List.Nodup.count n1, List.Nodup.count n2]
            congr 1
            simp only [List.mem_filter, List.mem_dedup, List.mem_cons, decide_eq_true_eq, eq_iff_iff]
            by_cases hx : z = i
            · subst hx; simp [hi]
            · simp [hx]
          rw [(key.map m.value).sum_eq]
          simp only [List.map_cons, List.sum_cons, AreaMapping.value]
          ring
    | _ => simp [areaLoop] at he

/-- C95, area mapping: each point of the value belongs to the first area that holds it, or to none;
the result is the sum of the numbers of the areas hit, each counted once, plus the default for
each point outside all areas, moved to the nearer bound. -/
theorem C95_area_map (m : AreaMapping) (v : Val) (w h : Option Int) (r : Rat)
    (hlh : ∀ l h, m.lower = some l → m.upper = some h → l ≤ h)
    (hs : v.isSet = true) (hb : v.bt = some .point) (he : m.mapValue v w h = .ok r) :
    ∃ as, AreasOf m w h v.mapElems as ∧
      InBounds m.lower m.upper ((as.filter (· = none)).length * m.dflt +
        ((as.filterMap id).dedup.map m.value).sum) r := by
  have hsrc : ∀ l, srcValues v = .ok l → l = v.mapElems := by
    cases v with
    | null => intro l h; cases h; rfl
    | container t => intro l h; cases h; rfl
    | single t o => cases o <;> (intro l h; cases h; rfl)
    | ordered t o => cases o <;> (intro l h; cases h; rfl)
    | multiple t o => cases o <;> (intro l h; cases h; rfl)
    | record o => cases hb
  unfold AreaMapping.mapValue at he
  rw [bind_ok] at he
  obtain ⟨l, hl, he⟩ := he
  obtain rfl := hsrc l hl
  rw [hb] at he
  simp only [ne_eq, not_true, if_false, bind_ok] at he
  obtain ⟨x, hx, he⟩ := he
  rw [hs] at he
  cases he
  obtain ⟨as, ha, rfl⟩ := areaLoop_spec hx
  refine ⟨as, ha, ?_⟩
  have : ((as.filterMap id).dedup.filter (· ∉ ([] : List Nat))) = (as.filterMap id).dedup := by simp
  rw [this]
  simp only [zero_add]
  exact clip_spec hlh _

/-- The coercion of a target to the base type of the table. -/
def isCoerced (bt : BaseType) (o : Option Datum) (w : Val) : Prop :=
  newSingle (some bt) o = .ok w

/-- C95, match table: the target of the last entry with the number looked up, else the default;
NULL for NULL; and only a single integer can be looked up. -/
theorem C95_match_table (m : MatchTable) (v w : Val) (h : m.lookup v = .ok w) :
    (v.isSet = false → w = .single (some m.bt) none) ∧
    (v.isSet = true → ∃ i : Int, v = .single (some .integer) (some (.int i)) ∧
      newSingle (some m.bt) (entryFor m.entries m.dflt i) = .ok w) := by
  unfold MatchTable.lookup at h
  cases hs : v.isSet with
  | false =>
    rw [hs] at h
    refine ⟨fun _ => ?_, by simp⟩
    cases h; rfl
  | true =>
    rw [hs] at h
    refine ⟨by simp, fun _ => ?_⟩
    simp only [Bool.not_true, Bool.false_eq_true, if_false] at h
    split at h
    · rename_i i
      exact ⟨i, rfl, by rw [← dget_entry]; exact h⟩
    · cases h

/-- C95, interpolation table: the target of the first entry whose source value is below the number
looked up, or equal to it when the entry includes its boundary; else the default. -/
theorem C95_interpolation_table (m : InterpTable) (v w : Val) (h : m.lookup v = .ok w) :
    (v.isSet = false → w = .single (some m.bt) none) ∧
    (v.isSet = true → ∃ x : Rat, toNum v = some x ∧
      newSingle (some m.bt) (match m.table.find? (fun e => e.1 < x || (e.2.1 && e.1 = x)) with
        | some e => e.2.2
        | none => m.dflt) = .ok w) := by
  have loop : ∀ (x : Rat) (l : List (Rat × Bool × Option Datum)),
      interpLoop x m.dflt l = (match l.find? (fun e => e.1 < x || (e.2.1 && e.1 = x)) with
        | some e => e.2.2
        | none => m.dflt) := by
    intro x l
    induction l with
    | nil => rfl
    | cons e l ih =>
      obtain ⟨s, b, t⟩ := e
      simp only [interpLoop, List.find?_cons]
      by_cases hc : s < x ∨ b = true ∧ s = x
      · rw [if_pos hc]
        have : (decide (s < x) || (b && decide (s = x))) = true := by simpa using hc
        rw [this]
      · rw [if_neg hc]
        have : (decide (s < x) || (b && decide (s = x))) = false := by
          rw [Bool.eq_false_iff]; simpa using hc
        rw [this]
        exact ih
  unfold InterpTable.lookup at h
  cases hs : v.isSet with
  | false =>
    rw [hs] at h
    refine ⟨fun _ => ?_, by simp⟩
    cases h; rfl
  | true =>
    rw [hs] at h
    refine ⟨by simp, fun _ => ?_⟩
    simp only [Bool.not_true, Bool.false_eq_true, if_false, bind_ok] at h
    obtain ⟨x, hx, h⟩ := h
    rw [loop] at h
    refine ⟨x, ?_, h⟩
    unfold interpSrc at hx
    split at hx <;> cases hx <;> rfl

example : Mapping.mapValue ⟨none, some 3, 1, [(.str [65], 2), (.str [65], 5/2)]⟩
    (.multiple (some .identifier) (some [(.str [65], 4), (.str [66], 1)])) = .ok 3 := by decide +kernel

example : AreaMapping.mapValue ⟨none, none, -1, [(.rect [.pixel 0, .pixel 0, .pixel 5, .pixel 5], 2), (.default, 3)]⟩
    (.ordered (some .point) (some [.point 1 1, .point 2 2, .point 7 7, .point (-1) 0])) (some 100) (some 100) = .ok 4 := by decide +kernel

example : MatchTable.lookup ⟨.integer, some (.int 9), [(1, some (.int 5)), (1, some (.int 6))]⟩
    (.single (some .integer) (some (.int 1))) = .ok (.single (some .integer) (some (.int 6))) := by decide +kernel

example : InterpTable.lookup ⟨.integer, some (.int 9), [(3, false, some (.int 5)), (2, true, some (.int 6))]⟩
    (.single (some .integer) (some (.int 3))) = .ok (.single (some .integer) (some (.int 6))) := by decide +kernel

end Verif.Qti

import Verif.Qti.Logic
import Mathlib.Data.List.Perm.Basic
import Mathlib.Data.List.Perm.Subperm
/-
C93: multiple containers are bags, ordered containers are sequences.
-/
namespace Verif.Qti

/-! ## Specification -/

/-- The values that a value contributes to a container built from it. -/
def Val.elems : Val → List Datum
  | .single _ (some d) => [d]
  | v => v.getValues

/-! ## Lemmas -/

theorem count_replicate_self {d e : Datum} {n : Nat} :
    (List.replicate n e).count d = if e = d then n else 0 := by
  rw [List.count_replicate]
  by_cases h : e = d <;> simp [h]

theorem count_expand (d : Datum) : ∀ {m : List (Datum × Nat)}, (m.map (·.1)).Nodup →
    (expand m).count d = (dget d m).getD 0
  | [], _ => by simp [expand, dget]
  | (a, n) :: l, h => by
    simp only [List.map_cons, List.nodup_cons] at h
    have ih := count_expand d h.2
    simp only [expand, List.flatMap_cons, List.count_append] at ih ⊢
    rw [ih, count_replicate_self]
    simp only [dget]
    split
    · rename_i he
      subst he
      have : dget a l = none := dget_eq_none.2 h.1
      rw [this]; simp
    · simp

theorem dget_countFold (d : Datum) : ∀ (l : List Datum) (m : List (Datum × Nat)),
    (dget d (l.foldl (fun m d => bump d m) m)).getD 0 = (dget d m).getD 0 + l.count d
  | [], m => by simp
  | e :: l, m => by
    rw [List.foldl_cons, dget_countFold d l, bump, dget_dset, List.count_cons]
    split
    · rename_i he
      subst he
      simp; omega
    · rename_i he
      simp [he]

theorem dget_countAll (d : Datum) (l : List Datum) : (dget d (countAll l)).getD 0 = l.count d := by
  rw [countAll, dget_countFold]; simp [dget]

theorem expand_countAll (l : List Datum) : (expand (countAll l)).Perm l := by
  rw [List.perm_iff_count]
  intro d
  rw [count_expand d (countAll_wf (P := fun _ => True) (by simp)).1, dget_countAll]

theorem mem_expand {d : Datum} {m : List (Datum × Nat)} (hp : ∀ p ∈ m, 0 < p.2) :
    d ∈ expand m ↔ d ∈ m.map (·.1) := by
  simp only [expand, List.mem_flatMap, List.mem_map]
  constructor
  · rintro ⟨p, hp, hd⟩
    exact ⟨p, hp, (List.eq_of_mem_replicate hd).symm⟩
  · rintro ⟨p, hm, rfl⟩
    refine ⟨p, hm, ?_⟩
    rw [List.mem_replicate]
    have := hp p hm
    exact ⟨by omega, rfl⟩

theorem setMultiple_values {bt : BaseType} {l : List Datum} (h : ∀ d ∈ l, d.ok bt) :
    ∃ w, setMultiple (some bt) l = .ok w ∧ w.getValues.Perm l := by
  simp only [setMultiple, coerceAll_id h]
  refine ⟨_, rfl, ?_⟩
  split
  · rename_i hn
    rw [countAll_nil.1 hn]; simp [Val.getValues]
  · exact expand_countAll l

theorem setOrdered_values {bt : BaseType} {l : List Datum} (h : ∀ d ∈ l, d.ok bt) :
    ∃ w, setOrdered (some bt) l = .ok w ∧ w.getValues = l := by
  simp only [setOrdered, coerceAll_id h]
  refine ⟨_, rfl, ?_⟩
  split
  · rename_i hn
    subst hn; simp [Val.getValues]
  · rfl

theorem elems_ok {v : Val} (hv : v.wf) {bt : BaseType} (hb : v.bt = some bt) :
    ∀ d ∈ v.elems, d.ok bt := by
  intro d hd
  cases v with
  | null => simp [Val.bt] at hb
  | record r => simp [Val.bt] at hb
  | container t => simp [Val.elems, Val.getValues] at hd
  | single t o =>
    cases o with
    | none => simp [Val.elems, Val.getValues] at hd
    | some e =>
      simp [Val.elems] at hd
      subst hd
      obtain ⟨bt', rfl, h⟩ := hv d rfl
      cases hb
      exact h
  | ordered t o =>
    cases o with
    | none => simp [Val.elems, Val.getValues] at hd
    | some l =>
      obtain ⟨_, bt', rfl, h⟩ := hv l rfl
      cases hb
      exact h d hd
  | multiple t o =>
    cases o with
    | none => simp [Val.elems, Val.getValues] at hd
    | some m =>
      obtain ⟨_, _, bt', rfl, h⟩ := hv m rfl
      cases hb
      simp only [Val.elems, Val.getValues] at hd
      rw [mem_expand fun p hp => (h p hp).2, List.mem_map] at hd
      obtain ⟨p, hp, rfl⟩ := hd
      exact (h p hp).1

theorem elems_nobt {v : Val} (hv : v.wf) (hb : v.bt = none) : v.elems = [] := by
  cases v with
  | null => rfl
  | record r => rfl
  | container t => rfl
  | single t o =>
    cases o with
    | none => rfl
    | some e => obtain ⟨bt', rfl, h⟩ := hv e rfl; cases hb
  | ordered t o =>
    cases o with
    | none => rfl
    | some l => obtain ⟨_, bt', rfl, h⟩ := hv l rfl; cases hb
  | multiple t o =>
    cases o with
    | none => rfl
    | some m => obtain ⟨_, _, bt', rfl, h⟩ := hv m rfl; cases hb

theorem elems_unset {v : Val} (h : v.isSet = false) : v.elems = [] := by
  cases v with
  | null => rfl
  | record r => rfl
  | container t => rfl
  | single t o => cases o <;> simp_all [Val.isSet, Val.elems, Val.getValues]
  | ordered t o => cases o <;> simp_all [Val.isSet, Val.elems, Val.getValues]
  | multiple t o => cases o <;> simp_all [Val.isSet, Val.elems, Val.getValues]

theorem gather_spec {grab : Val → Option (List Datum)}
    (hg : ∀ v l, grab v = some l → l = v.elems) : ∀ (vs : List Val) (t : Option BaseType)
    (acc : List Datum) (r : Option BaseType × List Datum), (∀ v ∈ vs, v.wf) →
    (∀ bt, t = some bt → ∀ d ∈ acc, d.ok bt) → (t = none → acc = []) →
    gather grab vs t acc = .ok r →
    r.2 = acc ++ vs.flatMap Val.elems ∧ (∀ bt, r.1 = some bt → ∀ d ∈ r.2, d.ok bt) ∧
      (r.1 = none → r.2 = [])
  | [], t, acc, r, _, h1, h2, h => by
    simp only [gather] at h; cases h
    simpa using ⟨h1, h2⟩
  | v :: vs, t, acc, r, hw, h1, h2, h => by
    have hv := hw v (by simp)
    have hw' : ∀ v ∈ vs, v.wf := fun v hv => hw v (by simp [hv])
    simp only [gather] at h
    cases hb : v.bt with
    | none =>
      rw [hb] at h
      have := gather_spec hg vs t acc r hw' h1 h2 h
      simpa [elems_nobt hv hb] using this
    | some b =>
      rw [hb] at h
      dsimp only at h
      split at h
      · rename_i ht
        have hacc : ∀ d ∈ acc, d.ok b := by
          rcases ht with ht | ht
          · simp [h2 ht]
          · exact h1 b ht
        have step : ∀ ds, ds = v.elems → gather grab vs (some b) (acc ++ ds) = .ok r →
            r.2 = acc ++ (v :: vs).flatMap Val.elems ∧ (∀ bt, r.1 = some bt → ∀ d ∈ r.2, d.ok bt) ∧
            (r.1 = none → r.2 = []) := by
          intro ds hds hr
          subst hds
          have := gather_spec hg vs (some b) (acc ++ v.elems) r hw'
            (by
              intro bt hbt d hd
              cases hbt
              rcases List.mem_append.1 hd with hd | hd
              · exact hacc d hd
              · exact elems_ok hv hb d hd) (by simp) hr
          simpa using this
        split at h
        · rename_i hn
          apply step []
          · rw [elems_unset]; simpa using hn
          · simpa using h
        · split at h
          · exact step _ rfl h
          · split at h
            · rename_i ds hds
              exact step ds (hg _ _ hds) h
            · cases h
      · cases h

/-- C93, `multiple`: the container holds exactly the values of the operands, each as often as it
occurs in them. -/
theorem C93_multiple (st : State) (vs : List Val) (w : Val) (hw : ∀ v ∈ vs, v.wf)
    (h : opN st .multiple vs = .ok w) : w.getValues.Perm (vs.flatMap Val.elems) := by
  simp only [opN, bind_ok] at h
  obtain ⟨r, hr, h⟩ := h
  obtain ⟨h1, h2, h3⟩ := gather_spec (by
    intro v l hl
    cases v with
    | multiple t o =>
      cases o with
      | none => simp [grabMultiple] at hl
      | some m => simp [grabMultiple] at hl; rw [← hl]; rfl
    | _ => simp [grabMultiple] at hl) vs none [] r hw (by simp) (by simp) hr
  simp only [List.nil_append] at h1
  rw [← h1]
  cases hb : r.1 with
  | none =>
    rw [h3 hb, hb] at h
    rw [h3 hb]
    simp only [setMultiple, coerceAll, bind_ok, pure_ok] at h
    obtain ⟨_, hx, rfl⟩ := h
    cases hx
    simp [Val.getValues, countAll]
  | some bt =>
    rw [hb] at h
    obtain ⟨w', hw', hp⟩ := setMultiple_values (h2 bt hb)
    rw [hw'] at h; cases h
    exact hp

/-- C93, `ordered`: the container holds the values of the operands in order. -/
theorem C93_ordered (st : State) (vs : List Val) (w : Val) (hw : ∀ v ∈ vs, v.wf)
    (h : opN st .ordered vs = .ok w) : w.getValues = vs.flatMap Val.elems := by
  simp only [opN, bind_ok] at h
  obtain ⟨r, hr, h⟩ := h
  obtain ⟨h1, h2, h3⟩ := gather_spec (by
    intro v l hl
    cases v with
    | ordered t o =>
      cases o with
      | none => simp [grabOrdered] at hl
      | some m => simp [grabOrdered] at hl; rw [← hl]; rfl
    | _ => simp [grabOrdered] at hl) vs none [] r hw (by simp) (by simp) hr
  simp only [List.nil_append] at h1
  rw [← h1]
  cases hb : r.1 with
  | none =>
    rw [h3 hb, hb] at h
    rw [h3 hb]
    simp only [setOrdered, coerceAll, bind_ok, pure_ok] at h
    obtain ⟨_, hx, rfl⟩ := h
    cases hx
    simp [Val.getValues]
  | some bt =>
    rw [hb] at h
    obtain ⟨w', hw', hp⟩ := setOrdered_values (h2 bt hb)
    rw [hw'] at h; cases h
    exact hp

theorem expand_length : ∀ (m : List (Datum × Nat)), (expand m).length = (m.map (·.2)).sum
  | [] => rfl
  | p :: m => by
    have := expand_length m
    simp only [expand] at this
    simp [expand, this]

/-- C93, `containerSize`: the number of values, repeated values counted each time. -/
theorem C93_container_size (v w : Val) (h : op1 .containerSize v = .ok w) :
    w = .single (some .integer) (some (.int v.getValues.length)) := by
  cases v <;> simp only [op1] at h <;> try cases h
  · rename_i t o
    obtain ⟨rfl, _⟩ := intVal_ok h
    cases o <;> rfl
  · rename_i t o
    obtain ⟨rfl, _⟩ := intVal_ok h
    cases o with
    | none => rfl
    | some m => simp [Val.getValues, expand_length]

/-- C93, `isNull`: a well-formed container is NULL exactly when it holds nothing. -/
theorem C93_is_null (v : Val) (hv : v.wf) (hc : v.card = some .ordered ∨ v.card = some .multiple) :
    op1 .isNull v = .ok (boolVal (some (decide (v.getValues = [])))) := by
  simp only [op1]
  congr 3
  cases v with
  | ordered t o =>
    cases o with
    | none => rfl
    | some l => simp [Val.isSet, Val.getValues, (hv l rfl).1]
  | multiple t o =>
    cases o with
    | none => rfl
    | some m =>
      obtain ⟨h1, h2, bt, _, h3⟩ := hv m rfl
      cases m with
      | nil => exact absurd rfl h1
      | cons p m =>
        have hp := (h3 p (by simp)).2
        have hne : p.2 ≠ 0 := by omega
        simp [Val.isSet, Val.getValues, expand, hne]
  | _ => simp [Val.card] at hc

theorem dictEq_perm {a b : List (Datum × Nat)} (ha : (a.map (·.1)).Nodup) (hb : (b.map (·.1)).Nodup)
    (pa : ∀ p ∈ a, 0 < p.2) (pb : ∀ p ∈ b, 0 < p.2) :
    dictEq a b = true ↔ (expand a).Perm (expand b) := by
  simp only [dictEq, Bool.and_eq_true, decide_eq_true_eq, List.all_eq_true]
  constructor
  · rintro ⟨hl, hall⟩
    rw [List.perm_iff_count]
    intro d
    rw [count_expand d ha, count_expand d hb]
    by_cases hd : d ∈ a.map (·.1)
    · rw [List.mem_map] at hd
      obtain ⟨p, hp, rfl⟩ := hd
      rw [hall p hp, dget_of_mem ha (show (p.1, p.2) ∈ a from hp)]
    · have hsub : (a.map (·.1)) ⊆ (b.map (·.1)) := by
        intro x hx
        rw [List.mem_map] at hx
        obtain ⟨p, hp, rfl⟩ := hx
        exact List.mem_map_of_mem (f := (·.1)) (dget_mem (hall p hp))
      have hperm := (List.subperm_of_subset ha hsub).perm_of_length_le (by simp [hl])
      rw [dget_eq_none.2 hd, dget_eq_none.2 (fun h => hd (hperm.mem_iff.2 h))]
  · intro h
    have hc : ∀ d, (dget d a).getD 0 = (dget d b).getD 0 := by
      intro d
      rw [← count_expand d ha, ← count_expand d hb, h.count_eq]
    have hkeys : (a.map (·.1)).Perm (b.map (·.1)) := by
      rw [List.perm_ext_iff_of_nodup ha hb]
      intro d
      rw [← mem_expand pa, ← mem_expand pb, h.mem_iff]
    refine ⟨by simpa using hkeys.length_eq, ?_⟩
    intro p hp
    have h1 : dget p.1 a = some p.2 := dget_of_mem ha hp
    have h2 := hc p.1
    rw [h1] at h2
    have := pa p hp
    cases hb' : dget p.1 b with
    | none => rw [hb'] at h2; simp at h2; omega
    | some n => rw [hb'] at h2; simp at h2; rw [h2]

/-- C93, `match` on multiple containers: true exactly when one is a rearrangement of the other. -/
theorem C93_match_multiple (t t' : Option BaseType) (a b : List (Datum × Nat)) (w : Val) (st : State)
    (ha : (Val.multiple t (some a)).wf) (hb : (Val.multiple t' (some b)).wf)
    (h : opN st .matches [.multiple t (some a), .multiple t' (some b)] = .ok w) :
    w = boolVal (some true) ↔ ((Val.multiple t (some a)).getValues).Perm
      ((Val.multiple t' (some b)).getValues) := by
  simp only [opN, two, bind_ok, pure_ok, valEq, Except.ok.injEq] at h
  obtain ⟨_, rfl, r, ⟨_, _, _, _, hr⟩, rfl⟩ := h
  split at hr
  · cases hr
  · dsimp only at hr
    rw [pure_ok] at hr
    subst hr
    obtain ⟨_, h2, bt, _, h3⟩ := ha a rfl
    obtain ⟨_, k2, bt', _, k3⟩ := hb b rfl
    rw [boolVal_inj]
    simp only [Option.some.injEq]
    exact dictEq_perm h2 k2 (fun p hp => (h3 p hp).2) (fun p hp => (k3 p hp).2)

/-- C93, `match` on ordered containers and on single values: true exactly when they are equal. -/
theorem C93_match_ordered (t t' : Option BaseType) (a b : List Datum) (w : Val) (st : State)
    (h : opN st .matches [.ordered t (some a), .ordered t' (some b)] = .ok w) :
    w = boolVal (some true) ↔ a = b := by
  simp only [opN, two, bind_ok, pure_ok, valEq, Except.ok.injEq] at h
  obtain ⟨_, rfl, r, ⟨_, _, _, _, hr⟩, rfl⟩ := h
  split at hr
  · cases hr
  · dsimp only at hr
    rw [pure_ok] at hr
    subst hr
    rw [boolVal_inj]; simp

theorem C93_match_single (t t' : Option BaseType) (a b : Datum) (w : Val) (st : State)
    (h : opN st .matches [.single t (some a), .single t' (some b)] = .ok w) :
    w = boolVal (some true) ↔ a = b := by
  simp only [opN, two, bind_ok, pure_ok, valEq, Except.ok.injEq] at h
  obtain ⟨_, rfl, r, ⟨_, _, _, _, hr⟩, rfl⟩ := h
  split at hr
  · cases hr
  · dsimp only at hr
    rw [pure_ok] at hr
    subst hr
    rw [boolVal_inj]; simp

/-- C93, `match` of a NULL is NULL. -/
theorem C93_match_null (v v' w : Val) (st : State) (hn : v.isSet = false ∨ v'.isSet = false)
    (h : opN st .matches [v, v'] = .ok w) : w = boolVal none := by
  simp only [opN, two, bind_ok, pure_ok, valEq, Except.ok.injEq] at h
  obtain ⟨_, rfl, r, ⟨_, _, _, _, hr⟩, rfl⟩ := h
  split at hr
  · cases hr
  · dsimp only at hr
    split at hr
    · simp [Val.isSet] at hn
    · simp [Val.isSet] at hn
    · simp [Val.isSet] at hn
    · simp [Val.isSet] at hn
    · cases hr; rfl

/-- C93, `member`: of two operands that are not NULL, the first is a single value, and the result
tells whether it is one of the values of the container. -/
theorem C93_member (v c w : Val) (st : State) (hc : c.wf) (hs : v.isSet = true ∧ c.isSet = true)
    (hb : v.bt ≠ none ∧ c.bt ≠ none)
    (h : opN st .member [v, c] = .ok w) :
    ∃ t d, v = .single t (some d) ∧ w = boolVal (some (decide (d ∈ c.getValues))) := by
  simp only [opN, two, bind_ok, Except.ok.injEq] at h
  obtain ⟨_, rfl, h⟩ := h
  simp only [memberOp] at h
  split at h
  · split at h
    · cases h
    · split at h
      · cases h
      · split at h
        · split at h
          · refine ⟨_, _, rfl, ?_⟩
            cases c with
            | ordered t' o =>
              cases o with
              | none => simp [Val.isSet] at hs
              | some l => cases h; rfl
            | multiple t' o =>
              cases o with
              | none => simp [Val.isSet] at hs
              | some m =>
                cases h
                obtain ⟨_, _, bt, _, h3⟩ := hc m rfl
                simp only [Val.getValues, mem_expand (m := m) fun p hp => (h3 p hp).2]
            | _ => simp at h
          · cases h
        · simp_all
  · rename_i hx
    obtain ⟨a, ha⟩ := Option.ne_none_iff_exists'.1 hb.1
    obtain ⟨b, hb⟩ := Option.ne_none_iff_exists'.1 hb.2
    exact absurd hb (hx a b ha)

theorem filter_ok {bt : BaseType} {l : List Datum} {f : Datum → Bool} (h : ∀ d ∈ l, d.ok bt) :
    ∀ d ∈ l.filter f, d.ok bt := fun d hd => h d (List.mem_of_mem_filter hd)

/-- C93, `delete`: every occurrence of the value is taken out, the others stay (in order, for an
ordered container). -/
theorem C93_delete (t : Option BaseType) (d : Datum) (c w : Val) (st : State) (hc : c.wf)
    (ht : t ≠ none) (hb : c.bt ≠ none) (hs : c.isSet = true)
    (h : opN st .delete [.single t (some d), c] = .ok w) :
    w.card = c.card ∧ w.getValues.Perm (c.getValues.filter fun x => decide (x ≠ d)) ∧
      (c.card = some .ordered → w.getValues = c.getValues.filter fun x => decide (x ≠ d)) := by
  have hflip : ∀ l : List Datum, l.filter (fun x => decide (d ≠ x)) = l.filter fun x => decide (x ≠ d) := by
    intro l
    apply List.filter_congr
    intro x _
    simp [eq_comm]
  simp only [opN, two, bind_ok, Except.ok.injEq] at h
  obtain ⟨_, rfl, h⟩ := h
  simp only [deleteOp] at h
  split at h
  · rename_i hn; exact absurd hn hb
  · split at h
    · rename_i hn; exact absurd hn ht
    · split at h
      · cases h
      · split at h
        · cases h
        · split at h
          · cases h
          · split at h
            · cases h
            · rename_i hcard
              cases c with
              | null => simp [Val.isSet] at hs
              | container t => simp [Val.isSet] at hs
              | single t o => simp [Val.card] at hcard
              | record r => simp [Val.card] at hcard
              | ordered t' o =>
                cases o with
                | none => simp [Val.isSet] at hs
                | some l =>
                  obtain ⟨_, bt, rfl, hl⟩ := hc l rfl
                  dsimp only at h
                  obtain ⟨w', hw', hv⟩ := setOrdered_values (filter_ok (f := fun x => decide (d ≠ x)) hl)
                  have hcard' := setOrdered_card' h
                  rw [hw'] at h; cases h
                  refine ⟨hcard', ?_, fun _ => ?_⟩
                  · rw [hv]; simp only [Val.getValues, hflip]; exact List.Perm.refl _
                  · rw [hv]; simp only [Val.getValues, hflip]
              | multiple t' o =>
                cases o with
                | none => simp [Val.isSet] at hs
                | some m =>
                  obtain ⟨_, _, bt, rfl, hl⟩ := hc m rfl
                  dsimp only at h
                  have hl' : ∀ x ∈ expand m, x.ok bt := by
                    intro x hx
                    rw [mem_expand fun p hp => (hl p hp).2, List.mem_map] at hx
                    obtain ⟨p, hp, rfl⟩ := hx
                    exact (hl p hp).1
                  obtain ⟨w', hw', hv⟩ := setMultiple_values (filter_ok (f := fun x => decide (d ≠ x)) hl')
                  have hcard' := setMultiple_card' h
                  rw [hw'] at h; cases h
                  refine ⟨hcard', ?_, fun hx => by simp [Val.card] at hx⟩
                  refine hv.trans ?_
                  simp only [Val.getValues, hflip]; exact List.Perm.refl _
where
  setOrdered_card' {t : Option BaseType} {l : List Datum} {v : Val}
      (h : setOrdered t l = .ok v) : v.card = some .ordered := by
    simp only [setOrdered, bind_ok, pure_ok] at h
    obtain ⟨_, _, rfl⟩ := h
    rfl
  setMultiple_card' {t : Option BaseType} {l : List Datum} {v : Val}
      (h : setMultiple t l = .ok v) : v.card = some .multiple := by
    simp only [setMultiple, bind_ok, pure_ok] at h
    obtain ⟨_, _, rfl⟩ := h
    rfl

theorem zip_all_prefix : ∀ {a b : List Datum}, a.length ≤ b.length →
    (((a.zip b).all fun p => decide (p.1 = p.2)) = true ↔ a <+: b)
  | [], b, _ => by simp
  | x :: a, [], h => by simp at h
  | x :: a, y :: b, h => by
    have ih := zip_all_prefix (a := a) (b := b) (by simpa using h)
    simp only [List.zip_cons_cons, List.all_cons, Bool.and_eq_true, decide_eq_true_eq, ih,
      List.cons_prefix_cons]

theorem infixLoop_iff {a b : List Datum} : ∀ {n i : Nat}, (0 < n → i + n + a.length ≤ b.length + 1) →
    (infixLoop a b n i = true ↔ ∃ j, i ≤ j ∧ j < i + n ∧ a <+: b.drop j)
  | 0, i, _ => by simp [infixLoop]; intros; omega
  | n + 1, i, h => by
    have h := h (by omega)
    simp only [infixLoop]
    have hz := zip_all_prefix (a := a) (b := b.drop i) (by simp; omega)
    split
    · rename_i hc
      simp only [true_iff]
      exact ⟨i, by omega, by omega, hz.1 hc⟩
    · rename_i hc
      rw [infixLoop_iff (by intro _; omega)]
      constructor
      · rintro ⟨j, h1, h2, h3⟩
        exact ⟨j, by omega, by omega, h3⟩
      · rintro ⟨j, h1, h2, h3⟩
        refine ⟨j, ?_, by omega, h3⟩
        rcases Nat.lt_or_ge i j with hij | hij
        · omega
        · have : j = i := by omega
          subst this
          exact absurd (hz.2 h3) hc

theorem infixTest_iff (a b : List Datum) : infixTest a b = true ↔ a <:+: b := by
  rw [infixTest, infixLoop_iff (by intro _; omega)]
  constructor
  · rintro ⟨j, _, _, h⟩
    obtain ⟨r, hr⟩ := h
    exact ⟨b.take j, r, by rw [List.append_assoc, hr, List.take_append_drop]⟩
  · rintro ⟨p, s, rfl⟩
    refine ⟨p.length, by omega, ?_, ?_⟩
    · simp; omega
    · rw [List.append_assoc, List.drop_left]; exact List.prefix_append _ _

/-- C93, `contains` on ordered containers: the values of the first occur in the second, one after
the other. -/
theorem C93_contains_ordered (t t' : Option BaseType) (a b : List Datum) (w : Val) (st : State)
    (ht : t ≠ none)
    (h : opN st .contains [.ordered t (some a), .ordered t' (some b)] = .ok w) :
    w = boolVal (some true) ↔ a <:+: b := by
  simp only [opN, two, bind_ok, pure_ok, containsOp, Except.ok.injEq] at h
  obtain ⟨_, rfl, x, hx, c, hc, h⟩ := h
  have hcn : c ≠ none := by
    simp only [Val.card, checkCards, checkCards.go] at hc
    simp at hc; simp [← hc]
  have hxn : x ≠ none := by
    cases t with
    | none => exact absurd rfl ht
    | some t =>
      cases t' with
      | none => simp only [Val.bt, checkBaseTypes, checkBaseTypes.go] at hx; simp at hx; simp [← hx]
      | some t' =>
        simp only [Val.bt, checkBaseTypes, checkBaseTypes.go] at hx
        split at hx
        · simp at hx; simp [← hx]
        · cases hx
  split at h
  · cases h
  · simp only [hcn, hxn, or_self, if_false, Val.isSet, Option.isSome_some, Bool.and_self, if_true] at h
    rw [pure_ok] at h
    subst h
    rw [boolVal_inj]
    simp only [Option.some.injEq]
    exact infixTest_iff a b

theorem subBag_iff {a b : List (Datum × Nat)} (ha : (a.map (·.1)).Nodup)
    (hb : (b.map (·.1)).Nodup) : subBag a b = true ↔ (expand a).Subperm (expand b) := by
  rw [List.subperm_ext_iff]
  simp only [subBag, List.all_eq_true, decide_eq_true_eq]
  constructor
  · intro h d hd
    rw [count_expand d ha, count_expand d hb]
    cases hg : dget d a with
    | none => simp
    | some n => simpa [hg] using h (d, n) (dget_mem hg)
  · intro h p hp
    have hg : dget p.1 a = some p.2 := dget_of_mem ha hp
    by_cases hz : p.2 = 0
    · omega
    · have hm : p.1 ∈ expand a := by
        rw [← List.count_pos_iff, count_expand _ ha, hg]; simp; omega
      have := h p.1 hm
      rwa [count_expand _ ha, count_expand _ hb, hg] at this

/-- C93, `contains` on multiple containers: every value occurs in the second at least as often as
in the first. -/
theorem C93_contains_multiple (t t' : Option BaseType) (a b : List (Datum × Nat)) (w : Val)
    (st : State) (ha : (Val.multiple t (some a)).wf) (hb : (Val.multiple t' (some b)).wf)
    (h : opN st .contains [.multiple t (some a), .multiple t' (some b)] = .ok w) :
    w = boolVal (some true) ↔ ((Val.multiple t (some a)).getValues).Subperm
      ((Val.multiple t' (some b)).getValues) := by
  simp only [opN, two, bind_ok, pure_ok, containsOp, Except.ok.injEq] at h
  obtain ⟨_, rfl, x, hx, c, hc, h⟩ := h
  obtain ⟨_, h2, bt, rfl, h3⟩ := ha a rfl
  obtain ⟨_, k2, bt', rfl, k3⟩ := hb b rfl
  have hcn : c ≠ none := by
    simp only [Val.card, checkCards, checkCards.go] at hc
    simp at hc; simp [← hc]
  have hxn : x ≠ none := by
    simp only [Val.bt, checkBaseTypes, checkBaseTypes.go] at hx
    split at hx
    · simp at hx; simp [← hx]
    · cases hx
  split at h
  · cases h
  · simp only [hcn, hxn, or_self, if_false, Val.isSet, Option.isSome_some, Bool.and_self, if_true] at h
    rw [pure_ok] at h
    subst h
    rw [boolVal_inj]
    simp only [Option.some.injEq]
    exact subBag_iff h2 k2

/-- C93, `index`: the n-th value of an ordered container, counted from 1; NULL beyond its end. -/
theorem C93_index (n : Int) (t : Option BaseType) (o : Option (List Datum)) (w : Val)
    (hv : (Val.ordered t o).wf) (h : op1 (.index n) (.ordered t o) = .ok w) :
    w = .single t ((Val.ordered t o).getValues[(n - 1).toNat]?) ∧ (o ≠ none → 1 ≤ n) := by
  cases o with
  | none => simp only [op1] at h; cases t <;> cases h <;> exact ⟨rfl, by simp⟩
  | some l =>
    obtain ⟨_, bt, rfl, hl⟩ := hv l rfl
    simp only [op1] at h
    split at h
    · cases h
    · rename_i hn
      refine ⟨?_, fun _ => by omega⟩
      split at h
      · rename_i hle
        have hlt : (n - 1).toNat < l.length := by omega
        rw [List.getElem?_eq_getElem hlt] at h
        simp only [newSingle, coerce_id (hl _ (List.getElem_mem hlt))] at h
        cases h
        simp only [Val.getValues, List.getElem?_eq_getElem hlt]
      · rename_i hle
        have : l.length ≤ (n - 1).toNat := by omega
        cases h
        simp only [Val.getValues, List.getElem?_eq_none this]

/-- C93, `random`: one of the values of the container, NULL for an empty one. -/
theorem C93_random (draw : Nat) (v w : Val) (hv : v.wf)
    (h : op1 (.random draw) v = .ok w) :
    ∃ d, w = .single w.bt d ∧ (v.getValues = [] → d = none) ∧
      (v.getValues ≠ [] → ∃ x ∈ v.getValues, d = some x ∧ w.bt = v.bt) := by
  have key : ∀ (bt : BaseType) (l : List Datum), l ≠ [] → (∀ d ∈ l, d.ok bt) →
      newSingle (some bt) (choice l draw) = .ok w →
      ∃ d, w = .single w.bt d ∧ (l = [] → d = none) ∧
        (l ≠ [] → ∃ x ∈ l, d = some x ∧ w.bt = some bt) := by
    intro bt l hne hl hw
    have hlt : draw % l.length < l.length := Nat.mod_lt _ (List.length_pos_of_ne_nil hne)
    simp only [choice, List.getElem?_eq_getElem hlt, newSingle,
      coerce_id (hl _ (List.getElem_mem hlt))] at hw
    cases hw
    exact ⟨_, rfl, fun h => absurd h hne, fun _ => ⟨_, List.getElem_mem hlt, rfl, rfl⟩⟩
  cases v with
  | null => simp only [op1] at h; cases h; exact ⟨none, rfl, fun _ => rfl, fun h => absurd rfl h⟩
  | container t => simp only [op1] at h; cases h; exact ⟨none, rfl, fun _ => rfl, fun h => absurd rfl h⟩
  | single t o => simp only [op1] at h; cases h
  | record r => simp only [op1] at h; cases h
  | ordered t o =>
    cases o with
    | none =>
      simp only [op1] at h
      cases t <;> cases h <;> exact ⟨none, rfl, fun _ => rfl, fun h => absurd rfl h⟩
    | some l =>
      obtain ⟨hne, bt, rfl, hl⟩ := hv l rfl
      exact key bt l hne hl h
  | multiple t o =>
    cases o with
    | none =>
      simp only [op1] at h
      cases t <;> cases h <;> exact ⟨none, rfl, fun _ => rfl, fun h => absurd rfl h⟩
    | some m =>
      obtain ⟨hne, hk, bt, rfl, hl⟩ := hv m rfl
      refine key bt (expand m) ?_ ?_ h
      · cases m with
        | nil => exact absurd rfl hne
        | cons p m =>
          have := (hl p (by simp)).2
          simp [expand]; omega
      · intro x hx
        rw [mem_expand fun p hp => (hl p hp).2, List.mem_map] at hx
        obtain ⟨p, hp, rfl⟩ := hx
        exact (hl p hp).1

/-- C93, `random`: every value of an ordered container can be drawn. -/
theorem C93_random_all (bt : BaseType) (l : List Datum) (d : Datum) (hd : d ∈ l)
    (hl : ∀ d ∈ l, d.ok bt) :
    ∃ draw, op1 (.random draw) (.ordered (some bt) (some l)) = .ok (.single (some bt) (some d)) := by
  obtain ⟨i, hi, rfl⟩ := List.mem_iff_getElem.1 hd
  refine ⟨i, ?_⟩
  simp only [op1, choice, Nat.mod_eq_of_lt hi, List.getElem?_eq_getElem hi, newSingle,
    coerce_id (hl _ hd)]
  rfl

/-- C93, violation: a record is not refused by `multiple` and `ordered` (as the code's own error
message has it) but silently left out. -/
theorem C93_violation_record (st : State) (r : Option (List (Str × BaseType × Datum))) :
    opN st .multiple [.record r] = .ok (.multiple none none) ∧
      opN st .ordered [.record r] = .ok (.ordered none none) := ⟨rfl, rfl⟩

/-! ### Concrete cases -/

def idv (c : Nat) : Val := .single (some .identifier) (some (.str [c]))

example (st : State) : opN st .multiple [idv 65, idv 66, idv 65, .null] =
    .ok (.multiple (some .identifier) (some [(.str [65], 2), (.str [66], 1)])) := by rfl
example (st : State) : opN st .matches
    [.multiple (some .identifier) (some [(.str [65], 2), (.str [66], 1)]),
     .multiple (some .identifier) (some [(.str [66], 1), (.str [65], 2)])] =
    .ok (boolVal (some true)) := by rfl
example (st : State) : opN st .delete
    [idv 65, .multiple (some .identifier) (some [(.str [65], 2), (.str [66], 1)])] =
    .ok (.multiple (some .identifier) (some [(.str [66], 1)])) := by rfl
example (st : State) : opN st .contains
    [.ordered (some .identifier) (some [.str [66], .str [67]]),
     .ordered (some .identifier) (some [.str [65], .str [66], .str [67]])] =
    .ok (boolVal (some true)) := by rfl
example (st : State) : opN st .contains
    [.multiple (some .identifier) (some [(.str [65], 2)]),
     .multiple (some .identifier) (some [(.str [65], 1), (.str [66], 1)])] =
    .ok (boolVal (some false)) := by rfl
example (st : State) : opN st .member
    [idv 66, .multiple (some .identifier) (some [(.str [65], 1), (.str [66], 1)])] =
    .ok (boolVal (some true)) := by rfl

end Verif.Qti

import Verif.Qti.Session
/-
C97: the life of an item session.
-/
namespace Verif.Qti

/-! ## Specification -/

/-- The identifiers of an item are distinct, hold no '.', and are not the names of the built-in
variables.  (The schema allows a '.'; see `C97_violation_dot` and `C96_violation_name_clash`.) -/
structure Item.clean (it : Item) : Prop where
  nodup : (it.decls.map (·.1)).Nodup
  noDot : ∀ p ∈ it.decls, 46 ∉ p.1
  builtin : ∀ p ∈ it.decls, p.1 ≠ nNumAttempts ∧ p.1 ≠ nDuration ∧ p.1 ≠ nCompletion

/-- The value has the cardinality and base type of the declaration. -/
def Fits (d : Decl) (v : Val) : Prop :=
  v.wf ∧ v.card = some d.card ∧ v.bt = if d.card = .record then none else d.bt

/-- The defaults and correct values of the declarations have the declared type. -/
def Item.typed (it : Item) : Prop := ∀ p ∈ it.decls, Fits p.2 p.2.dflt ∧ Fits p.2 p.2.correct

/-- The state of a session of the item. -/
structure Sess (it : Item) (st : State) : Prop where
  decls : st.decls = it.decls
  keys : (st.map.map (·.1)).Nodup
  val : ∀ p ∈ it.decls, ∃ v, dget p.1 st.map = some v ∧ Fits p.2 v
  dflt : ∀ p ∈ it.decls, p.2.kind ≠ .template → ∃ v, dget (p.1 ++ sufDefault) st.map = some v ∧ Fits p.2 v
  correct : ∀ p ∈ it.decls, p.2.kind = .response →
    ∃ v, dget (p.1 ++ sufCorrect) st.map = some v ∧ Fits p.2 v
  saved : ∀ p ∈ it.decls, ∀ v, dget (p.1 ++ sufSaved) st.map = some v → Fits p.2 v
  numAttempts : ∃ o, dget nNumAttempts st.map = some (.single (some .integer) o)
  wf : st.wf

/-! ## Lemmas -/

theorem dget_foldl_of {l : List (Str × Val)} {k : Str} {v : Val} (hm : (k, v) ∈ l)
    (hu : ∀ v', (k, v') ∈ l → v' = v) : dget k (l.foldl (fun acc e => dset e.1 e.2 acc) []) = some v := by
  rw [dget_foldl]
  cases hf : l.reverse.find? (fun e => e.1 = k) with
  | none =>
    rw [List.find?_eq_none] at hf
    have := hf (k, v) (by simpa using hm)
    simp at this
  | some e =>
    have h1 := List.find?_some hf
    have h2 := List.mem_of_find?_eq_some hf
    simp only [decide_eq_true_eq] at h1
    obtain ⟨a, b⟩ := e
    subst h1
    dsimp only
    rw [hu b (by simpa using h2)]

theorem foldl_dset_nodup {α β : Type} [DecidableEq α] : ∀ (l m : List (α × β)), (m.map (·.1)).Nodup →
    ((l.foldl (fun acc e => dset e.1 e.2 acc) m).map (·.1)).Nodup
  | [], m, h => h
  | e :: l, m, h => foldl_dset_nodup l _ (dset_nodup e.1 e.2 m h)

theorem suf_ne {a b : Str} (ha : 46 ∉ a) (s : Str) : b ++ 46 :: s ≠ a := by
  rintro rfl; simp at ha

theorem suf_inj_left {a b s t : Str} (ha : 46 ∉ a) (hb : 46 ∉ b) (h : a ++ 46 :: s = b ++ 46 :: t) :
    a = b ∧ s = t := by
  induction a generalizing b with
  | nil =>
    cases b with
    | nil => simp at h; exact ⟨rfl, h⟩
    | cons c b => simp at h; simp [← h.1] at hb
  | cons c a ih =>
    cases b with
    | nil => simp at h; simp [h.1] at ha
    | cons c' b =>
      simp only [List.cons_append, List.cons.injEq] at h
      obtain ⟨rfl, h⟩ := h
      obtain ⟨rfl, h'⟩ := ih (by simp at ha; exact ha.2) (by simp at hb; exact hb.2) h
      exact ⟨rfl, h'⟩

theorem sd_cons : sufDefault = 46 :: [68, 69, 70, 65, 85, 76, 84] := rfl
theorem sc_cons : sufCorrect = 46 :: [67, 79, 82, 82, 69, 67, 84] := rfl
theorem ss_cons : sufSaved = 46 :: [83, 65, 86, 69, 68] := rfl

theorem dds_d {n : Str} (hn : 46 ∉ n) (q : Str) (v : Val) (m : List (Str × Val)) :
    dget (q ++ sufDefault) (dset n v m) = dget (q ++ sufDefault) m := by
  rw [dget_dset, if_neg]; exact Ne.symm (suf_ne hn _)
theorem dds_c {n : Str} (hn : 46 ∉ n) (q : Str) (v : Val) (m : List (Str × Val)) :
    dget (q ++ sufCorrect) (dset n v m) = dget (q ++ sufCorrect) m := by
  rw [dget_dset, if_neg]; exact Ne.symm (suf_ne hn _)
theorem dds_s {n : Str} (hn : 46 ∉ n) (q : Str) (v : Val) (m : List (Str × Val)) :
    dget (q ++ sufSaved) (dset n v m) = dget (q ++ sufSaved) m := by
  rw [dget_dset, if_neg]; exact Ne.symm (suf_ne hn _)

theorem builtin_noDot : 46 ∉ nNumAttempts ∧ 46 ∉ nDuration ∧ 46 ∉ nCompletion := by decide

theorem builtin_ne : nNumAttempts ≠ nDuration ∧ nNumAttempts ≠ nCompletion ∧ nDuration ≠ nCompletion := by
  decide

theorem mem_ofKind {k : Kind} {l : List (Str × Decl)} {p : Str × Decl} :
    p ∈ ofKind k l ↔ p ∈ l ∧ p.2.kind = k := by
  simp [ofKind]

/-- Declarations of a clean item with the same name are the same. -/
theorem clean_inj {it : Item} (hc : it.clean) {p q : Str × Decl} (hp : p ∈ it.decls) (hq : q ∈ it.decls)
    (h : p.1 = q.1) : p = q := by
  obtain ⟨a, d⟩ := p
  obtain ⟨b, e⟩ := q
  dsimp only at h; subst h
  have h1 := dget_of_mem hc.nodup hp
  have h2 := dget_of_mem hc.nodup hq
  rw [h1] at h2; cases h2; rfl

theorem mem_stores {it : Item} {k : Str} {v : Val} (h : (k, v) ∈ it.stores) :
    (∃ p ∈ it.decls, p.2.kind = .template ∧ k = p.1 ∧ v = p.2.dflt) ∨
    (k = nNumAttempts ∧ v = intNull) ∨ (k = nDuration ∧ v = .single (some .duration) none) ∨
    (k = nCompletion ∧ v = .single (some .identifier) none) ∨
    (∃ p ∈ it.decls, p.2.kind = .response ∧ k = p.1 ++ sufCorrect ∧ v = p.2.correct) ∨
    (∃ p ∈ it.decls, p.2.kind ≠ .template ∧ k = p.1 ++ sufDefault ∧ v = p.2.dflt) ∨
    (∃ p ∈ it.decls, p.2.kind ≠ .template ∧ k = p.1 ∧ v = newVal p.2.card p.2.bt) := by
  simp only [Item.stores, List.mem_append, List.mem_map, List.mem_flatMap, mem_ofKind, Prod.mk.injEq,
    List.mem_cons, List.not_mem_nil, or_false] at h
  rcases h with ((⟨p, ⟨hp, hk⟩, rfl, rfl⟩ | h) | ⟨p, ⟨hp, hk⟩, h⟩) | ⟨p, ⟨hp, hk⟩, h⟩
  · exact Or.inl ⟨p, hp, hk, rfl, rfl⟩
  · tauto
  · have : p.2.kind ≠ .template := by rw [hk]; decide
    rcases h with ⟨rfl, rfl⟩ | ⟨rfl, rfl⟩ | ⟨rfl, rfl⟩
    · exact Or.inr (Or.inr (Or.inr (Or.inr (Or.inl ⟨p, hp, hk, rfl, rfl⟩))))
    · exact Or.inr (Or.inr (Or.inr (Or.inr (Or.inr (Or.inl ⟨p, hp, this, rfl, rfl⟩)))))
    · exact Or.inr (Or.inr (Or.inr (Or.inr (Or.inr (Or.inr ⟨p, hp, this, rfl, rfl⟩)))))
  · have : p.2.kind ≠ .template := by rw [hk]; decide
    rcases h with ⟨rfl, rfl⟩ | ⟨rfl, rfl⟩
    · exact Or.inr (Or.inr (Or.inr (Or.inr (Or.inr (Or.inl ⟨p, hp, this, rfl, rfl⟩)))))
    · exact Or.inr (Or.inr (Or.inr (Or.inr (Or.inr (Or.inr ⟨p, hp, this, rfl, rfl⟩)))))

/-- The store for a plain name. -/
theorem stores_plain {it : Item} (hc : it.clean) {p : Str × Decl} (hp : p ∈ it.decls) {v : Val}
    (h : (p.1, v) ∈ it.stores) :
    v = if p.2.kind = .template then p.2.dflt else newVal p.2.card p.2.bt := by
  have hd := hc.noDot p hp
  have hb := hc.builtin p hp
  rcases mem_stores h with ⟨q, hq, hk, he, rfl⟩ | ⟨he, _⟩ | ⟨he, _⟩ | ⟨he, _⟩ | ⟨q, _, _, he, _⟩ |
    ⟨q, _, _, he, _⟩ | ⟨q, hq, hk, he, rfl⟩
  · obtain rfl := clean_inj hc hp hq he
    rw [if_pos hk]
  · exact absurd he hb.1
  · exact absurd he hb.2.1
  · exact absurd he hb.2.2
  · exact absurd he.symm (suf_ne hd _)
  · exact absurd he.symm (suf_ne hd _)
  · obtain rfl := clean_inj hc hp hq he
    rw [if_neg hk]

theorem stores_default {it : Item} (hc : it.clean) {p : Str × Decl} (hp : p ∈ it.decls) {v : Val}
    (h : (p.1 ++ sufDefault, v) ∈ it.stores) : v = p.2.dflt := by
  have hd := hc.noDot p hp
  rcases mem_stores h with ⟨q, hq, hk, he, rfl⟩ | ⟨he, _⟩ | ⟨he, _⟩ | ⟨he, _⟩ | ⟨q, hq, _, he, _⟩ |
    ⟨q, hq, _, he, rfl⟩ | ⟨q, hq, hk, he, rfl⟩
  · exact absurd he (suf_ne (hc.noDot q hq) _)
  · exact absurd he (suf_ne builtin_noDot.1 _)
  · exact absurd he (suf_ne builtin_noDot.2.1 _)
  · exact absurd he (suf_ne builtin_noDot.2.2 _)
  · have := (suf_inj_left hd (hc.noDot q hq) he).2
    simp at this
  · obtain rfl := clean_inj hc hp hq (suf_inj_left hd (hc.noDot q hq) he).1
    rfl
  · exact absurd he (suf_ne (hc.noDot q hq) _)

theorem stores_correct {it : Item} (hc : it.clean) {p : Str × Decl} (hp : p ∈ it.decls) {v : Val}
    (h : (p.1 ++ sufCorrect, v) ∈ it.stores) : v = p.2.correct := by
  have hd := hc.noDot p hp
  rcases mem_stores h with ⟨q, hq, hk, he, rfl⟩ | ⟨he, _⟩ | ⟨he, _⟩ | ⟨he, _⟩ | ⟨q, hq, _, he, rfl⟩ |
    ⟨q, hq, _, he, rfl⟩ | ⟨q, hq, hk, he, rfl⟩
  · exact absurd he (suf_ne (hc.noDot q hq) _)
  · exact absurd he (suf_ne builtin_noDot.1 _)
  · exact absurd he (suf_ne builtin_noDot.2.1 _)
  · exact absurd he (suf_ne builtin_noDot.2.2 _)
  · obtain rfl := clean_inj hc hp hq (suf_inj_left hd (hc.noDot q hq) he).1
    rfl
  · have := (suf_inj_left hd (hc.noDot q hq) he).2
    simp at this
  · exact absurd he (suf_ne (hc.noDot q hq) _)

theorem newVal_fits (d : Decl) : Fits d (newVal d.card d.bt) := by
  unfold Fits newVal
  cases d.card <;> refine ⟨?_, rfl, rfl⟩ <;> (intro x hx; cases hx)

/-- C97: a new session.  Template variables hold their defaults, responses and outcomes are NULL,
the defaults and correct values are those declared; the built-in variables are NULL. -/
theorem C97_init (it : Item) (lower : Str → Str) (hc : it.clean) (ht : it.typed) :
    Sess it (it.init lower) ∧
    (∀ p ∈ it.decls, p.2.kind = .template → dget p.1 (it.init lower).map = some p.2.dflt) ∧
    (∀ p ∈ it.decls, p.2.kind ≠ .template →
      dget p.1 (it.init lower).map = some (newVal p.2.card p.2.bt) ∧
      dget (p.1 ++ sufDefault) (it.init lower).map = some p.2.dflt) ∧
    (∀ p ∈ it.decls, p.2.kind = .response →
      dget (p.1 ++ sufCorrect) (it.init lower).map = some p.2.correct) ∧
    dget nNumAttempts (it.init lower).map = some intNull ∧
    dget nDuration (it.init lower).map = some (.single (some .duration) none) ∧
    dget nCompletion (it.init lower).map = some (.single (some .identifier) none) := by
  have hT : ∀ p ∈ it.decls, p.2.kind = .template → dget p.1 (it.init lower).map = some p.2.dflt := by
    intro p hp hk
    refine dget_foldl_of ?_ fun v hv => by rw [stores_plain hc hp hv, if_pos hk]
    simp only [Item.stores, List.mem_append, List.mem_map, mem_ofKind]
    exact Or.inl (Or.inl (Or.inl ⟨p, ⟨hp, hk⟩, rfl⟩))
  have hN : ∀ p ∈ it.decls, p.2.kind ≠ .template →
      dget p.1 (it.init lower).map = some (newVal p.2.card p.2.bt) ∧
      dget (p.1 ++ sufDefault) (it.init lower).map = some p.2.dflt := by
    intro p hp hk
    constructor
    · refine dget_foldl_of ?_ fun v hv => by rw [stores_plain hc hp hv, if_neg hk]
      simp only [Item.stores, List.mem_append, List.mem_flatMap, mem_ofKind]
      cases hkk : p.2.kind with
      | template => exact absurd hkk hk
      | response => exact Or.inl (Or.inr ⟨p, ⟨hp, hkk⟩, by simp⟩)
      | outcome => exact Or.inr ⟨p, ⟨hp, hkk⟩, by simp⟩
    · refine dget_foldl_of ?_ fun v hv => stores_default hc hp hv
      simp only [Item.stores, List.mem_append, List.mem_flatMap, mem_ofKind]
      cases hkk : p.2.kind with
      | template => exact absurd hkk hk
      | response => exact Or.inl (Or.inr ⟨p, ⟨hp, hkk⟩, by simp⟩)
      | outcome => exact Or.inr ⟨p, ⟨hp, hkk⟩, by simp⟩
  have hR : ∀ p ∈ it.decls, p.2.kind = .response →
      dget (p.1 ++ sufCorrect) (it.init lower).map = some p.2.correct := by
    intro p hp hk
    refine dget_foldl_of ?_ fun v hv => stores_correct hc hp hv
    simp only [Item.stores, List.mem_append, List.mem_flatMap, mem_ofKind]
    exact Or.inl (Or.inr ⟨p, ⟨hp, hk⟩, by simp⟩)
  have hB : ∀ n v, ((n, v) = (nNumAttempts, intNull) ∨ (n, v) = (nDuration, .single (some .duration) none) ∨
      (n, v) = (nCompletion, .single (some .identifier) none)) → dget n (it.init lower).map = some v := by
    intro n v h
    refine dget_foldl_of ?_ ?_
    · simp only [Item.stores, List.mem_append]
      exact Or.inl (Or.inl (Or.inr (by simpa using h)))
    · intro v' hv'
      have hnd : 46 ∉ n := by
        rcases h with h | h | h <;> cases h
        exacts [builtin_noDot.1, builtin_noDot.2.1, builtin_noDot.2.2]
      have hnb : ∀ q ∈ it.decls, n ≠ q.1 := by
        intro q hq
        have hb := hc.builtin q hq
        rcases h with h | h | h <;> cases h
        exacts [Ne.symm hb.1, Ne.symm hb.2.1, Ne.symm hb.2.2]
      obtain ⟨b1, b2, b3⟩ := builtin_ne
      rcases mem_stores hv' with ⟨q, hq, hk, he, _⟩ | ⟨he, hv⟩ | ⟨he, hv⟩ | ⟨he, hv⟩ | ⟨q, hq, _, he, _⟩ |
        ⟨q, hq, _, he, _⟩ | ⟨q, hq, hk, he, _⟩
      · exact absurd he (hnb q hq)
      · subst he; rcases h with h | h | h
        · cases h; exact hv
        · exact absurd (Prod.mk.inj h).1 b1
        · exact absurd (Prod.mk.inj h).1 b2
      · subst he; rcases h with h | h | h
        · exact absurd (Prod.mk.inj h).1.symm b1
        · cases h; exact hv
        · exact absurd (Prod.mk.inj h).1 b3
      · subst he; rcases h with h | h | h
        · exact absurd (Prod.mk.inj h).1.symm b2
        · exact absurd (Prod.mk.inj h).1.symm b3
        · cases h; exact hv
      · exact absurd he.symm (suf_ne hnd _)
      · exact absurd he.symm (suf_ne hnd _)
      · exact absurd he (hnb q hq)
  refine ⟨⟨rfl, foldl_dset_nodup _ _ (by simp), ?_, ?_, ?_, ?_, ?_, ?_⟩, hT, hN, hR, hB _ _ (Or.inl rfl), hB _ _ (Or.inr (Or.inl rfl)),
    hB _ _ (Or.inr (Or.inr rfl))⟩
  · intro p hp
    by_cases hk : p.2.kind = .template
    · exact ⟨_, hT p hp hk, (ht p hp).1⟩
    · exact ⟨_, (hN p hp hk).1, newVal_fits _⟩
  · intro p hp hk
    exact ⟨_, (hN p hp hk).2, (ht p hp).1⟩
  · intro p hp hk
    exact ⟨_, hR p hp hk, (ht p hp).2⟩
  · intro p hp v hv
    exfalso
    have : dget (p.1 ++ sufSaved) (it.init lower).map = none := by
      unfold Item.init
      dsimp only
      rw [dget_foldl]
      have hn : it.stores.reverse.find? (fun e => e.1 = p.1 ++ sufSaved) = none := by
        rw [List.find?_eq_none]
        rintro ⟨k, w⟩ hm
        simp only [decide_eq_true_eq]
        rintro rfl
        have hd := hc.noDot p hp
        rcases mem_stores (by simpa using hm) with ⟨q, hq, hk, he, _⟩ | ⟨he, _⟩ | ⟨he, _⟩ | ⟨he, _⟩ | ⟨q, hq, _, he, _⟩ |
          ⟨q, hq, _, he, _⟩ | ⟨q, hq, hk, he, _⟩
        · exact absurd he (suf_ne (hc.noDot q hq) _)
        · exact absurd he (suf_ne builtin_noDot.1 _)
        · exact absurd he (suf_ne builtin_noDot.2.1 _)
        · exact absurd he (suf_ne builtin_noDot.2.2 _)
        · have := (suf_inj_left hd (hc.noDot q hq) he).2
          simp at this
        · have := (suf_inj_left hd (hc.noDot q hq) he).2
          simp at this
        · exact absurd he (suf_ne (hc.noDot q hq) _)
      rw [hn]
      rfl
    rw [this] at hv; cases hv
  · exact ⟨none, hB _ _ (Or.inl rfl)⟩
  · intro k v hv
    unfold Item.init at hv
    dsimp only at hv
    rw [dget_foldl] at hv
    cases hf : it.stores.reverse.find? (fun e => e.1 = k) with
    | none => rw [hf] at hv; cases hv
    | some e =>
      rw [hf] at hv
      cases hv
      have h2 := List.mem_of_find?_eq_some hf
      obtain ⟨a, b⟩ := e
      rcases mem_stores (by simpa using h2) with ⟨q, hq, hk, he, rfl⟩ | ⟨he, rfl⟩ | ⟨he, rfl⟩ | ⟨he, rfl⟩ | ⟨q, hq, _, he, rfl⟩ |
          ⟨q, hq, _, he, rfl⟩ | ⟨q, hq, hk, he, rfl⟩
      · exact (ht q hq).1.1
      · exact singleNull_wf _
      · exact singleNull_wf _
      · exact singleNull_wf _
      · exact (ht q hq).2.1
      · exact (ht q hq).1.1
      · exact (newVal_fits _).1

/-! ## Copying -/

theorem setVal_once {u x : Val} (hw : x.wf) (hs : x.isSet = true) (hc : x.card = none ∨ x.card = u.card)
    (hb : x.bt = none ∨ x.bt = u.bt) : setVal u x = .ok x.once := by
  cases x with
  | null => cases hs
  | container t => cases hs
  | single t o =>
    cases o with
    | none => cases hs
    | some d =>
      obtain ⟨bt, rfl, hd⟩ := hw d rfl
      cases u <;> simp [Val.card] at hc
      simp only [Val.bt, reduceCtorEq, false_or] at hb
      subst hb
      simp only [setVal, coerce_id hd]
      rfl
  | ordered t o =>
    cases o with
    | none => cases hs
    | some l =>
      obtain ⟨hne, bt, rfl, hd⟩ := hw l rfl
      cases u <;> simp [Val.card] at hc
      simp only [Val.bt, reduceCtorEq, false_or] at hb
      subst hb
      simp only [setVal, setOrdered, coerceAll_id hd]
      change Except.ok (Val.ordered (some bt) (if l = [] then none else some l)) = _
      rw [if_neg hne]; rfl
  | multiple t o =>
    cases o with
    | none => cases hs
    | some m =>
      obtain ⟨hne, hnd, bt, rfl, hd⟩ := hw m rfl
      have hall : ∀ d ∈ m.map (·.1), d.ok bt := by
        intro d hdm
        obtain ⟨p, hp, rfl⟩ := List.mem_map.1 hdm
        exact (hd p hp).1
      cases u <;> simp [Val.card] at hc
      simp only [Val.bt, reduceCtorEq, false_or] at hb
      subst hb
      simp only [setVal, setMultiple, coerceAll_id hall]
      have hca : countAll (m.map (·.1)) = m.map fun p => (p.1, 1) := by
        unfold countAll
        rw [countFold_nodup _ [] hnd (by simp)]
        simp
      change Except.ok (Val.multiple (some bt) (if countAll (m.map (·.1)) = [] then none else some (countAll (m.map (·.1))))) = _
      rw [hca, if_neg (by simpa using hne)]
      rfl
  | record o =>
    cases o with
    | none => cases hs
    | some r =>
      obtain ⟨hne, _, _⟩ := hw r rfl
      cases u <;> simp [Val.card] at hc
      simp only [setVal]
      rw [if_neg hne]; rfl

/-- A value put into a variable that fits the same declaration. -/
theorem setVal_fits {d : Decl} {u x : Val} (hu : Fits d u) (hx : Fits d x) : setVal u x = .ok x.once := by
  cases hs : x.isSet with
  | true => exact setVal_once hx.1 hs (Or.inr (hx.2.1.trans hu.2.1.symm)) (Or.inr (hx.2.2.trans hu.2.2.symm))
  | false =>
    obtain ⟨_, hc, hb⟩ := hx
    obtain ⟨_, hc', hb'⟩ := hu
    cases x with
    | null => cases hc
    | container t => cases hc
    | single t o =>
      cases o with
      | some _ => cases hs
      | none =>
        rw [← hc] at hc'; rw [← hb] at hb'
        cases u <;> simp [Val.card] at hc'
        simp only [Val.bt] at hb'; subst hb'; rfl
    | ordered t o =>
      cases o with
      | some _ => cases hs
      | none =>
        rw [← hc] at hc'; rw [← hb] at hb'
        cases u <;> simp [Val.card] at hc'
        simp only [Val.bt] at hb'; subst hb'; rfl
    | multiple t o =>
      cases o with
      | some _ => cases hs
      | none =>
        rw [← hc] at hc'; rw [← hb] at hb'
        cases u <;> simp [Val.card] at hc'
        simp only [Val.bt] at hb'; subst hb'; rfl
    | record o =>
      cases o with
      | some _ => cases hs
      | none =>
        rw [← hc] at hc'
        cases u <;> simp [Val.card] at hc'
        rfl

theorem copyVal_fits {d : Decl} {v : Val} (h : Fits d v) : copyVal v = .ok v.once := by
  unfold copyVal
  rw [h.2.1]
  dsimp only
  refine setVal_fits (d := d) ?_ h
  have := newVal_fits d
  rw [h.2.2]
  unfold Fits newVal
  cases hc : d.card <;> refine ⟨?_, rfl, rfl⟩ <;> (intro x hx; cases hx)

theorem once_fits {d : Decl} {v : Val} (h : Fits d v) : Fits d v.once := by
  have h1 := setVal_fits h h
  exact ⟨setVal_wf h.1 h1, (setVal_shape h1).1.trans h.2.1, (setVal_shape h1).2.trans h.2.2⟩

theorem zeroed_fits {d : Decl} {v : Val} (h : Fits d v) : Fits d (zeroed v) := by
  unfold zeroed
  split
  · refine ⟨?_, h.2.1, h.2.2⟩
    intro d hd; cases hd; exact ⟨.integer, rfl, by decide, by decide⟩
  · refine ⟨?_, h.2.1, h.2.2⟩
    intro d hd; cases hd; exact ⟨.float, rfl, trivial⟩
  · exact h

/-! ## Loops over declarations -/

theorem put_wf {st : State} (hs : st.wf) {n : Str} {v : Val} (hv : v.wf) : (st.put n v).wf := by
  intro m u hu
  dsimp only [State.put] at hu
  rw [dget_dset] at hu
  split at hu
  · cases hu; exact hv
  · exact hs m u hu

theorem single_wf {t : BaseType} {d : Datum} (h : d.ok t) : (Val.single (some t) (some d)).wf := by
  intro d' hd; cases hd; exact ⟨t, rfl, h⟩

/-- The loop shared by `set_outcome_defaults` and the first attempt. -/
theorem defaults_loop {it : Item} (hc : it.clean) (f : Val → Val) (hf : ∀ d v, Fits d v → Fits d (f v))
    (loop : List (Str × Decl) → State → Run)
    (h0 : ∀ st, loop [] st = (st, none))
    (h1 : ∀ n d l st, loop ((n, d) :: l) st =
      match (do let v ← st.get (n ++ sufDefault); copyVal v) with
      | .error x => (st, some x)
      | .ok v => loop l (st.put n (f v))) :
    ∀ (l : List (Str × Decl)) (st : State), (∀ p ∈ l, p ∈ it.decls ∧ p.2.kind ≠ .template) → Sess it st →
      ∃ st', loop l st = (st', none) ∧ Sess it st' ∧ st'.lower = st.lower ∧
        (∀ n, n ∉ l.map (·.1) → dget n st'.map = dget n st.map) ∧
        (∀ p ∈ l, ∃ v, dget (p.1 ++ sufDefault) st.map = some v ∧ dget p.1 st'.map = some (f v.once)) := by
  intro l
  induction l with
  | nil =>
    intro st _ hs
    exact ⟨st, h0 st, hs, rfl, fun _ _ => rfl, by simp⟩
  | cons p l ih =>
    intro st hl hs
    obtain ⟨n, d⟩ := p
    obtain ⟨hp, hk⟩ := hl (n, d) (by simp)
    obtain ⟨v, hv, hfit⟩ := hs.dflt (n, d) hp hk
    dsimp only at hv hfit
    have hnd : 46 ∉ n := hc.noDot _ hp
    have hfo := hf d v.once (once_fits hfit)
    have hb := hc.builtin _ hp
    have hs' : Sess it (st.put n (f v.once)) := by
      refine ⟨hs.decls, dset_nodup _ _ _ hs.keys, ?_, ?_, ?_, ?_, ?_, put_wf hs.wf hfo.1⟩
      · intro q hq
        dsimp only [State.put]
        rw [dget_dset]
        by_cases he : n = q.1
        · rw [if_pos he]
          obtain rfl := clean_inj hc hp hq he
          exact ⟨_, rfl, hfo⟩
        · rw [if_neg he]; exact hs.val q hq
      · intro q hq hkq
        dsimp only [State.put]
        simp only [dds_d hnd, dds_c hnd, dds_s hnd]; exact hs.dflt q hq hkq
      · intro q hq hkq
        dsimp only [State.put]
        simp only [dds_d hnd, dds_c hnd, dds_s hnd]; exact hs.correct q hq hkq
      · intro q hq w hw
        dsimp only [State.put] at hw
        simp only [dds_d hnd, dds_c hnd, dds_s hnd] at hw; exact hs.saved q hq w hw
      · dsimp only [State.put]
        rw [dget_dset, if_neg hb.1]; exact hs.numAttempts
    obtain ⟨st', g1, g2, g3, g4, g5⟩ := ih (st.put n (f v.once)) (fun q hq => hl q (by simp [hq])) hs'
    refine ⟨st', ?_, g2, g3, ?_, ?_⟩
    · rw [h1]
      have : (do let v ← st.get (n ++ sufDefault); copyVal v) = .ok v.once := by
        rw [bind_ok]; exact ⟨v, get_ok.2 hv, copyVal_fits hfit⟩
      rw [this]
      exact g1
    · intro m hm
      simp only [List.map_cons, List.mem_cons, not_or] at hm
      rw [g4 m hm.2]
      dsimp only [State.put]
      rw [dget_dset, if_neg (Ne.symm hm.1)]
    · intro q hq
      rcases List.mem_cons.1 hq with rfl | hq
      · refine ⟨v, hv, ?_⟩
        by_cases hin : n ∈ l.map (·.1)
        · obtain ⟨q, hq, he⟩ := List.mem_map.1 hin
          have hqd := (hl q (by simp [hq])).1
          obtain rfl := clean_inj hc hp hqd he.symm
          obtain ⟨v', e1, e2⟩ := g5 _ hq
          dsimp only [State.put] at e1
          simp only [dds_d hnd, dds_c hnd, dds_s hnd, hv] at e1
          cases e1; exact e2
        · rw [g4 n hin]
          dsimp only [State.put]
          rw [dget_dset, if_pos rfl]
      · obtain ⟨v', e1, e2⟩ := g5 q hq
        dsimp only [State.put] at e1
        simp only [dds_d hnd, dds_c hnd, dds_s hnd] at e1
        exact ⟨v', e1, e2⟩

theorem put_sess {it : Item} (hc : it.clean) {st : State} (hs : Sess it st) {n : Str} {v : Val}
    (hw : v.wf) (hn : 46 ∉ n) (hd : ∀ p ∈ it.decls, p.1 ≠ n)
    (h : n = nNumAttempts → ∃ o, v = .single (some .integer) o) : Sess it (st.put n v) := by
  refine ⟨hs.decls, dset_nodup _ _ _ hs.keys, ?_, ?_, ?_, ?_, ?_, put_wf hs.wf hw⟩
  · intro q hq
    dsimp only [State.put]
    rw [dget_dset, if_neg (Ne.symm (hd q hq))]; exact hs.val q hq
  · intro q hq hkq
    dsimp only [State.put]
    simp only [dds_d hn, dds_c hn, dds_s hn]; exact hs.dflt q hq hkq
  · intro q hq hkq
    dsimp only [State.put]
    simp only [dds_d hn, dds_c hn, dds_s hn]; exact hs.correct q hq hkq
  · intro q hq w hw
    dsimp only [State.put] at hw
    simp only [dds_d hn, dds_c hn, dds_s hn] at hw; exact hs.saved q hq w hw
  · dsimp only [State.put]
    rw [dget_dset]
    split
    · rename_i he
      obtain ⟨o, rfl⟩ := h he
      exact ⟨o, rfl⟩
    · exact hs.numAttempts

theorem outcomeDefaults_ok {it : Item} (hc : it.clean) (st : State) (hs : Sess it st) :
    ∃ st', setOutcomeDefaults st = (st', none) ∧ Sess it st' ∧ st'.lower = st.lower ∧
      (∀ n, (∀ p ∈ it.decls, p.2.kind = .outcome → p.1 ≠ n) → dget n st'.map = dget n st.map) ∧
      (∀ p ∈ it.decls, p.2.kind = .outcome → ∃ v, dget (p.1 ++ sufDefault) st.map = some v ∧
        dget p.1 st'.map = some (zeroed v.once)) := by
  unfold setOutcomeDefaults
  obtain ⟨st', g1, g2, g3, g4, g5⟩ := defaults_loop hc zeroed (fun d v h => zeroed_fits h) outcomeDefaults (fun _ => rfl)
    (fun _ _ _ _ => rfl) (ofKind .outcome st.decls) st (by
      intro p hp
      rw [mem_ofKind, hs.decls] at hp
      exact ⟨hp.1, by rw [hp.2]; decide⟩) hs
  refine ⟨st', g1, g2, g3, ?_, ?_⟩
  · intro n hn
    apply g4
    intro hm
    obtain ⟨p, hp, he⟩ := List.mem_map.1 hm
    rw [mem_ofKind, hs.decls] at hp
    exact hn p hp.1 hp.2 he
  · intro p hp hk
    exact g5 p (by rw [mem_ofKind, hs.decls]; exact ⟨hp, hk⟩)

/-- C97, `begin_session`: every outcome takes its default value (a multiple container each element
once; a single NULL number becomes 0); `completionStatus` is "not_attempted", `numAttempts` and
`duration` are 0; nothing else changes. -/
theorem C97_begin_session (it : Item) (hc : it.clean) (st : State) (hs : Sess it st) :
    ∃ st', beginSession st = (st', none) ∧ Sess it st' ∧
      (∀ p ∈ it.decls, p.2.kind = .outcome → ∃ v, dget (p.1 ++ sufDefault) st.map = some v ∧
        dget p.1 st'.map = some (zeroed v.once)) ∧
      dget nCompletion st'.map = some (.single (some .identifier) (some (.str vNotAttempted))) ∧
      dget nNumAttempts st'.map = some (.single (some .integer) (some (.int 0))) ∧
      dget nDuration st'.map = some (.single (some .duration) (some (.num 0))) ∧
      (∀ n, n ≠ nCompletion → n ≠ nNumAttempts → n ≠ nDuration →
        (∀ p ∈ it.decls, p.2.kind = .outcome → p.1 ≠ n) → dget n st'.map = dget n st.map) := by
  obtain ⟨b1, b2, b3⟩ := builtin_ne
  obtain ⟨d1, d2, d3⟩ := builtin_noDot
  have hs1 : Sess it (st.put nCompletion (.single (some .identifier) (some (.str vNotAttempted)))) :=
    put_sess hc hs (single_wf trivial) d3 (fun p hp => (hc.builtin p hp).2.2) (fun h => absurd h.symm b2)
  obtain ⟨st1, g1, g2, g3, g4, g5⟩ := outcomeDefaults_ok hc _ hs1
  have hs2 := put_sess hc g2 (v := .single (some .integer) (some (.int 0))) (single_wf ⟨by decide, by decide⟩) d1 (fun p hp => (hc.builtin p hp).1) (fun _ => ⟨_, rfl⟩)
  have hs3 := put_sess hc hs2 (v := .single (some .duration) (some (.num 0))) (single_wf trivial) d2 (fun p hp => (hc.builtin p hp).2.1) (fun h => absurd h.symm b1)
  refine ⟨_, ?_, hs3, ?_, ?_, ?_, ?_, ?_⟩
  · unfold beginSession
    rw [g1]
    rfl
  · intro p hp hk
    obtain ⟨v, e1, e2⟩ := g5 p hp hk
    dsimp only [State.put] at e1
    simp only [dds_d d3, dds_c d3, dds_s d3] at e1
    refine ⟨v, e1, ?_⟩
    dsimp only [State.put]
    have hb := hc.builtin p hp
    rw [dget_dset, if_neg (Ne.symm hb.2.1), dget_dset, if_neg (Ne.symm hb.1)]
    exact e2
  · dsimp only [State.put]
    rw [dget_dset, if_neg b3, dget_dset, if_neg b2, g4 _ (fun p hp _ => (hc.builtin p hp).2.2)]
    dsimp only [State.put]
    rw [dget_dset, if_pos rfl]
  · dsimp only [State.put]
    rw [dget_dset, if_neg (Ne.symm b1), dget_dset, if_pos rfl]
  · dsimp only [State.put]
    rw [dget_dset, if_pos rfl]
  · intro n h1 h2 h3 h4
    dsimp only [State.put]
    rw [dget_dset, if_neg (Ne.symm h3), dget_dset, if_neg (Ne.symm h2), g4 n h4]
    dsimp only [State.put]
    rw [dget_dset, if_neg (Ne.symm h1)]

/-- C97, `begin_attempt`: `numAttempts` grows by 1; at the first attempt every response takes its
default value and `completionStatus` becomes "unknown"; nothing else changes. -/
theorem C97_begin_attempt (it : Item) (hc : it.clean) (st : State) (hs : Sess it st) (k : Int)
    (hk : dget nNumAttempts st.map = some (.single (some .integer) (some (.int k))))
    (h0 : 0 ≤ k) (hlt : k < 2147483647) :
    ∃ st', beginAttempt st = (st', none) ∧ Sess it st' ∧
      dget nNumAttempts st'.map = some (.single (some .integer) (some (.int (k + 1)))) ∧
      (k = 0 → (∀ p ∈ it.decls, p.2.kind = .response → ∃ v, dget (p.1 ++ sufDefault) st.map = some v ∧
          dget p.1 st'.map = some v.once) ∧
        dget nCompletion st'.map = some (.single (some .identifier) (some (.str vUnknown)))) ∧
      (∀ n, n ≠ nNumAttempts →
        (k = 0 → n ≠ nCompletion ∧ ∀ p ∈ it.decls, p.2.kind = .response → p.1 ≠ n) →
        dget n st'.map = dget n st.map) := by
  obtain ⟨b1, b2, b3⟩ := builtin_ne
  obtain ⟨d1, d2, d3⟩ := builtin_noDot
  have hint : intVal (k + 1) = .ok (.single (some .integer) (some (.int (k + 1)))) := by
    unfold intVal
    rw [if_pos (inRange_iff.2 ⟨by omega, by omega⟩)]
  have hs1 : Sess it (st.put nNumAttempts (.single (some .integer) (some (.int (k + 1))))) :=
    put_sess hc hs (single_wf ⟨by omega, by omega⟩) d1 (fun p hp => (hc.builtin p hp).1) (fun _ => ⟨_, rfl⟩)
  have hget := get_ok.2 hk
  by_cases hz : k = 0
  · obtain ⟨st1, g1, g2, g3, g4, g5⟩ := defaults_loop hc id (fun d v h => h) responseDefaults (fun _ => rfl)
      (fun _ _ _ _ => rfl) (ofKind .response it.decls)
      (st.put nNumAttempts (.single (some .integer) (some (.int (k + 1))))) (by
        intro p hp
        rw [mem_ofKind] at hp
        exact ⟨hp.1, by rw [hp.2]; decide⟩) hs1
    have hs2 := put_sess hc g2 (v := .single (some .identifier) (some (.str vUnknown))) (single_wf trivial) d3 (fun p hp => (hc.builtin p hp).2.2)
      (fun h => absurd h.symm b2)
    have hnotin : ∀ n, (∀ p ∈ it.decls, p.2.kind = .response → p.1 ≠ n) → n ∉ (ofKind .response it.decls).map (·.1) := by
      intro n hn hm
      obtain ⟨p, hp, he⟩ := List.mem_map.1 hm
      rw [mem_ofKind] at hp
      exact hn p hp.1 hp.2 he
    refine ⟨_, ?_, hs2, ?_, ?_, ?_⟩
    · unfold beginAttempt
      rw [hget]
      dsimp only
      rw [hint]
      dsimp only
      rw [if_pos (by omega)]
      have e : (st.put nNumAttempts (.single (some .integer) (some (.int (k + 1))))).decls = it.decls := hs.decls
      rw [e, g1]
      rfl
    · dsimp only [State.put]
      rw [dget_dset, if_neg (Ne.symm b2), g4 _ (hnotin _ fun p hp _ => (hc.builtin p hp).1)]
      dsimp only [State.put]
      rw [dget_dset, if_pos rfl]
    · intro _
      refine ⟨?_, ?_⟩
      · intro p hp hkp
        obtain ⟨v, e1, e2⟩ := g5 p (by rw [mem_ofKind]; exact ⟨hp, hkp⟩)
        dsimp only [State.put] at e1
        simp only [dds_d d1, dds_c d1, dds_s d1] at e1
        refine ⟨v, e1, ?_⟩
        dsimp only [State.put]
        rw [dget_dset, if_neg (Ne.symm (hc.builtin p hp).2.2)]
        exact e2
      · dsimp only [State.put]
        rw [dget_dset, if_pos rfl]
    · intro n hn h
      obtain ⟨h1, h2⟩ := h hz
      dsimp only [State.put]
      rw [dget_dset, if_neg (Ne.symm h1), g4 n (hnotin n h2)]
      dsimp only [State.put]
      rw [dget_dset, if_neg (Ne.symm hn)]
  · refine ⟨_, ?_, hs1, ?_, fun h => absurd h hz, ?_⟩
    · unfold beginAttempt
      rw [hget]
      dsimp only
      rw [hint]
      dsimp only
      rw [if_neg (by omega)]
    · dsimp only [State.put]
      rw [dget_dset, if_pos rfl]
    · intro n hn _
      dsimp only [State.put]
      rw [dget_dset, if_neg (Ne.symm hn)]

end Verif.Qti

import Verif.Dom.C126

/-!
# C126: the calls keep the links and the tables
-/
namespace Verif.Dom

/-- Children change, but not the elements among them. -/
theorem inv_kids {s : St} (I : Inv s) (e : Nat) (he : e < s.next) (l : List Kid) (hl : elKids l = elKids (s.node e).kids) :
    Inv { s with node := upd s.node e ⟨(s.node e).parent, (s.node e).id, l⟩ } := by
  have hpar : ∀ x, (upd s.node e ⟨(s.node e).parent, (s.node e).id, l⟩ x).parent = (s.node x).parent := by
    intro x
    by_cases hx : x = e
    · subst hx; simp
    · rw [upd_ne _ _ hx]
  have hid : ∀ x, (upd s.node e ⟨(s.node e).parent, (s.node e).id, l⟩ x).id = (s.node x).id := by
    intro x
    by_cases hx : x = e
    · subst hx; simp
    · rw [upd_ne _ _ hx]
  have hel : ∀ x, elKids (upd s.node e ⟨(s.node e).parent, (s.node e).id, l⟩ x).kids = elKids (s.node x).kids := by
    intro x
    by_cases hx : x = e
    · subst hx; simpa using hl
    · rw [upd_ne _ _ hx]
  refine ⟨⟨?_, I.links.dfresh, ?_, ?_, ?_, ?_⟩, ?_⟩
  · intro n hn
    show upd _ _ _ _ = _
    rw [upd_ne _ _ (by simp only at hn; omega)]
    exact I.links.fresh n hn
  · intro p c
    show Kid.el c ∈ (ENode.kids (upd _ _ _ p)) ↔ (ENode.parent (upd _ _ _ c)) = _
    rw [← mem_elKids, hel, hpar, mem_elKids]
    exact I.links.kids p c
  · intro p
    show (elKids (ENode.kids (upd _ _ _ p))).Nodup
    rw [hel]
    exact I.links.nodup p
  · intro p c h
    have h : (ENode.parent (upd _ _ _ c)) = _ := h
    rw [hpar] at h
    exact I.links.older _ _ h
  · intro d c
    show _ ↔ (ENode.parent (upd _ _ _ c)) = _
    rw [hpar]
    exact I.links.root d c
  · intro d i x
    rw [inDoc_congr (s := s) hpar]
    show _ ↔ _ ∧ (ENode.id (upd _ _ _ x)) = _
    rw [hid]
    exact I.tables d i x

/-- Cut off children are taken out of the list. -/
theorem inv_unlink {s s' : St} (I : Inv s) {p : Nat} {K : List Nat} (hK : ∀ k ∈ K, (s.node k).parent = some (.el p)) (C : Cut s K s')
    (hp : p < s.next) (l : List Kid) (hl : elKids l = (elKids (s.node p).kids).filter (fun k => k ∉ K)) :
    Inv { s' with node := upd s'.node p ⟨(s'.node p).parent, (s'.node p).id, l⟩ } := by
  have hpar : ∀ x, (upd s'.node p ⟨(s'.node p).parent, (s'.node p).id, l⟩ x).parent = if x ∈ K then none else (s.node x).parent := by
    intro x
    by_cases hx : x = p
    · subst hx; simp [C.par]
    · rw [upd_ne _ _ hx, C.par]
  have hid : ∀ x, (upd s'.node p ⟨(s'.node p).parent, (s'.node p).id, l⟩ x).id = (s.node x).id := by
    intro x
    by_cases hx : x = p
    · subst hx; simp [C.id]
    · rw [upd_ne _ _ hx, C.id]
  have hel : ∀ x, elKids (upd s'.node p ⟨(s'.node p).parent, (s'.node p).id, l⟩ x).kids =
      if x = p then (elKids (s.node p).kids).filter (fun k => k ∉ K) else elKids (s.node x).kids := by
    intro x
    by_cases hx : x = p
    · subst hx; simpa using hl
    · rw [upd_ne _ _ hx, C.kids, if_neg hx]
  refine ⟨⟨?_, ?_, ?_, ?_, ?_, ?_⟩, ?_⟩
  · intro n hn
    have hn : s'.next ≤ n := hn
    rw [C.next] at hn
    show upd _ _ _ _ = _
    have h := I.links.fresh n hn
    rw [upd_ne _ _ (by omega)]
    have h1 := C.par n
    have h2 := C.id n
    have h3 := C.kids n
    rw [h] at h1 h2 h3
    cases hsn : s'.node n with
    | mk a b c =>
      rw [hsn] at h1 h2 h3
      simp only at h1 h2 h3
      rw [h2, h3, h1]
      simp
  · intro d hd
    have hd : s'.ndocs ≤ d := hd
    rw [C.ndocs] at hd
    exact C.dfresh d hd
  · intro q c
    show Kid.el c ∈ (ENode.kids (upd _ _ _ q)) ↔ (ENode.parent (upd _ _ _ c)) = _
    rw [← mem_elKids, hel, hpar]
    by_cases hq : q = p
    · subst hq
      rw [if_pos rfl, List.mem_filter, mem_elKids, I.links.kids]
      by_cases hc : c ∈ K <;> simp [hc]
    · rw [if_neg hq, mem_elKids, I.links.kids]
      by_cases hc : c ∈ K
      · rw [if_pos hc, hK c hc]
        simp [Ne.symm hq]
      · rw [if_neg hc]
  · intro q
    show (elKids (ENode.kids (upd _ _ _ q))).Nodup
    rw [hel]
    split
    · exact (I.links.nodup p).filter _
    · exact I.links.nodup q
  · intro q c h
    have h : (ENode.parent (upd _ _ _ c)) = _ := h
    rw [hpar] at h
    split at h
    · cases h
    · exact I.links.older _ _ h
  · intro d c
    show (s'.doc d).root = _ ↔ (ENode.parent (upd _ _ _ c)) = _
    rw [hpar, C.root, I.links.root]
    by_cases hc : c ∈ K
    · rw [if_pos hc, hK c hc]; simp
    · rw [if_neg hc]
  · intro d i x
    rw [inDoc_cut (s := s) hpar]
    show (s'.doc d).table.lookup i = _ ↔ _ ∧ (ENode.id (upd _ _ _ x)) = _
    rw [hid, C.table, I.tables]
    tauto

/-- The root is cut off. -/
theorem inv_unroot {s s' : St} (I : Inv s) {d r : Nat} (hr : (s.node r).parent = some (.doc d)) (C : Cut s [r] s') :
    Inv { s' with doc := upd s'.doc d ⟨none, (s'.doc d).table⟩ } := by
  refine ⟨⟨?_, ?_, ?_, ?_, ?_, ?_⟩, ?_⟩
  · intro n hn
    have hn : s'.next ≤ n := hn
    rw [C.next] at hn
    show s'.node n = _
    have h := I.links.fresh n hn
    have h1 := C.par n
    have h2 := C.id n
    have h3 := C.kids n
    rw [h] at h1 h2 h3
    cases hsn : s'.node n with
    | mk a b c =>
      rw [hsn] at h1 h2 h3
      simp only at h1 h2 h3
      rw [h2, h3, h1]
      simp
  · intro d' hd
    replace hd : s'.ndocs ≤ d' := hd
    rw [C.ndocs] at hd
    show upd _ _ _ d' = _
    by_cases h : d' = d
    · subst h; rw [upd_same, C.dfresh _ hd]
    · rw [upd_ne _ _ h]; exact C.dfresh d' hd
  · intro q c
    show Kid.el c ∈ (s'.node q).kids ↔ (s'.node c).parent = _
    rw [C.kids, C.par, I.links.kids]
    by_cases hc : c = r
    · subst hc; simp [hr]
    · simp [hc]
  · intro q
    show (elKids (s'.node q).kids).Nodup
    rw [C.kids]
    exact I.links.nodup q
  · intro q c h
    have h : (s'.node c).parent = _ := h
    rw [C.par] at h
    split at h
    · cases h
    · exact I.links.older _ _ h
  · intro d' c
    show (DDoc.root (upd _ _ _ d')) = _ ↔ (s'.node c).parent = _
    rw [C.par]
    by_cases h : d' = d
    · subst h
      rw [upd_same]
      constructor
      · intro e; cases e
      · intro e
        split at e
        · cases e
        · rename_i hc
          have h1 := (I.links.root d' c).2 e
          rw [(I.links.root d' r).2 hr] at h1
          cases h1
          simp at hc
    · rw [upd_ne _ _ h, C.root, I.links.root]
      by_cases hc : c = r
      · subst hc
        rw [hr]
        simp [Ne.symm h]
      · simp [hc]
  · intro d' i x
    rw [inDoc_congr (s := s') (s' := { s' with doc := upd s'.doc d ⟨none, (s'.doc d).table⟩ }) (fun _ => rfl), inDoc_cut (s := s) C.par]
    show (DDoc.table (upd _ _ _ d')).lookup i = _ ↔ _ ∧ (s'.node x).id = _
    rw [C.id]
    have : (upd s'.doc d ⟨none, (s'.doc d).table⟩ d').table = (s'.doc d').table := by
      by_cases h : d' = d
      · subst h; simp
      · rw [upd_ne _ _ h]
    rw [this, C.table, I.tables]
    tauto

/-- A new element without a parent. -/
theorem inv_create {s : St} (I : Inv s) : Inv (create s none) := by
  have hnew := I.links.fresh s.next le_rfl
  have hsame : (create s none).node = s.node := by
    funext x
    show upd _ _ _ x = _
    by_cases hx : x = s.next
    · subst hx; rw [upd_same, hnew]
    · rw [upd_ne _ _ hx]
  refine ⟨⟨?_, I.links.dfresh, ?_, ?_, ?_, ?_⟩, ?_⟩
  · intro n hn
    have hn : s.next + 1 ≤ n := hn
    rw [hsame]
    exact I.links.fresh n (by omega)
  · rw [hsame]; exact I.links.kids
  · rw [hsame]; exact I.links.nodup
  · rw [hsame]; exact I.links.older
  · rw [hsame]; exact I.links.root
  · intro d i e
    rw [inDoc_congr (s := s) (by intro x; rw [hsame]), hsame]
    exact I.tables d i e

/-- Being in a document, with a new element. -/
theorem inDoc_new {s s' : St} (L : Links s) {P : Par}
    (h : ∀ x, (s'.node x).parent = if x = s.next then some P else (s.node x).parent) (d x : Nat) (hx : x ≠ s.next) :
    InDoc s' d x ↔ InDoc s d x := by
  have hne : ∀ {p y : Nat}, (s.node y).parent = some (.el p) → p ≠ s.next := by
    intro p y e hp
    have h1 := L.older _ _ e
    have h2 := parent_lt L e
    omega
  constructor
  · intro hd
    induction hd with
    | top e => rw [h, if_neg hx] at e; exact .top e
    | up e _ ih => rw [h, if_neg hx] at e; exact .up e (ih (hne e))
  · intro hd
    induction hd with
    | top e => exact .top (by rw [h, if_neg hx]; exact e)
    | up e _ ih => exact .up (by rw [h, if_neg hx]; exact e) (ih (hne e))

theorem inv_putRoot {s : St} (I : Inv s) {d : Nat} (hd : d < s.ndocs) (hr : (s.doc d).root = none) : Inv (putRoot s d) := by
  have hnew := I.links.fresh s.next le_rfl
  have hpar : ∀ x, ((putRoot s d).node x).parent = if x = s.next then some (.doc d) else (s.node x).parent := by
    intro x
    show (ENode.parent (upd _ _ _ x)) = _
    by_cases hx : x = s.next
    · subst hx; simp
    · rw [upd_ne _ _ hx, if_neg hx]
  have hoth : ∀ x, ((putRoot s d).node x).id = (s.node x).id ∧ ((putRoot s d).node x).kids = (s.node x).kids := by
    intro x
    show (ENode.id (upd _ _ _ x)) = _ ∧ (ENode.kids (upd _ _ _ x)) = _
    by_cases hx : x = s.next
    · subst hx; rw [upd_same, hnew]; exact ⟨rfl, rfl⟩
    · rw [upd_ne _ _ hx]; exact ⟨rfl, rfl⟩
  refine ⟨⟨?_, ?_, ?_, ?_, ?_, ?_⟩, ?_⟩
  · intro n hn
    have hn : s.next + 1 ≤ n := hn
    show upd _ _ _ n = _
    rw [upd_ne _ _ (by omega)]
    exact I.links.fresh n (by omega)
  · intro d' hd'
    have hd' : s.ndocs ≤ d' := hd'
    show upd _ _ _ d' = _
    rw [upd_ne _ _ (by omega)]
    exact I.links.dfresh d' hd'
  · intro p c
    rw [(hoth p).2, hpar, I.links.kids]
    by_cases hc : c = s.next
    · subst hc; rw [hnew]; simp
    · rw [if_neg hc]
  · intro p
    rw [(hoth p).2]
    exact I.links.nodup p
  · intro p c h
    rw [hpar] at h
    split at h
    · cases h
    · exact I.links.older _ _ h
  · intro d' c
    show (DDoc.root (upd _ _ _ d')) = _ ↔ _
    rw [hpar]
    by_cases h : d' = d
    · subst h
      rw [upd_same]
      constructor
      · intro e; cases e; simp
      · intro e
        split at e
        · rename_i hc; rw [hc]
        · rw [← I.links.root, hr] at e; cases e
    · rw [upd_ne _ _ h, I.links.root]
      by_cases hc : c = s.next
      · subst hc; rw [hnew]; simp [Ne.symm h]
      · rw [if_neg hc]
  · intro d' i e
    rw [(hoth e).1]
    have : ((putRoot s d).doc d').table = (s.doc d').table := by
      show (DDoc.table (upd _ _ _ d')) = _
      by_cases h : d' = d
      · subst h; simp
      · rw [upd_ne _ _ h]
    rw [this, I.tables]
    by_cases he : e = s.next
    · subst he; rw [hnew]; simp
    · rw [inDoc_new I.links hpar _ _ he]

theorem inv_addChild {s : St} (I : Inv s) {p : Nat} (hp : p < s.next) : Inv (addChild s p) := by
  have hnew := I.links.fresh s.next le_rfl
  have hpn : s.next ≠ p := by omega
  have hpar : ∀ x, ((addChild s p).node x).parent = if x = s.next then some (.el p) else (s.node x).parent := by
    intro x
    show (ENode.parent (upd (upd _ _ _) _ _ x)) = _
    by_cases hx : x = p
    · subst hx; rw [upd_same, if_neg hpn.symm]; dsimp only [create]; rw [upd_ne _ _ hpn.symm]
    · rw [upd_ne _ _ hx]
      by_cases hx' : x = s.next
      · subst hx'; simp
      · rw [upd_ne _ _ hx', if_neg hx']
  have hid : ∀ x, ((addChild s p).node x).id = (s.node x).id := by
    intro x
    show (ENode.id (upd (upd _ _ _) _ _ x)) = _
    by_cases hx : x = p
    · subst hx; rw [upd_same]; dsimp only [create]; rw [upd_ne _ _ hpn.symm]
    · rw [upd_ne _ _ hx]
      by_cases hx' : x = s.next
      · subst hx'; rw [upd_same, hnew]
      · rw [upd_ne _ _ hx']
  have hkid : ∀ x, elKids ((addChild s p).node x).kids = if x = p then elKids (s.node p).kids ++ [s.next] else elKids (s.node x).kids := by
    intro x
    show elKids (ENode.kids (upd (upd _ _ _) _ _ x)) = _
    by_cases hx : x = p
    · subst hx
      rw [upd_same, if_pos rfl]
      dsimp only [create]
      rw [upd_ne _ _ hpn.symm]
      simp [elKids, List.filterMap_append]
    · rw [upd_ne _ _ hx, if_neg hx]
      by_cases hx' : x = s.next
      · subst hx'; rw [upd_same, hnew]
      · rw [upd_ne _ _ hx']
  refine ⟨⟨?_, I.links.dfresh, ?_, ?_, ?_, ?_⟩, ?_⟩
  · intro n hn
    have hn : s.next + 1 ≤ n := hn
    show upd (upd _ _ _) _ _ n = _
    rw [upd_ne _ _ (by omega), upd_ne _ _ (by omega)]
    exact I.links.fresh n (by omega)
  · intro q c
    rw [← mem_elKids, hkid, hpar]
    have hnk : ∀ q, s.next ∉ elKids (s.node q).kids := by
      intro q h
      have := (I.links.kids q s.next).1 (mem_elKids.1 h)
      rw [hnew] at this; cases this
    by_cases hq : q = p
    · subst hq
      rw [if_pos rfl, List.mem_append, List.mem_singleton]
      by_cases hc : c = s.next
      · simp [hc]
      · rw [if_neg hc, mem_elKids, I.links.kids]; simp [hc]
    · rw [if_neg hq]
      by_cases hc : c = s.next
      · subst hc; simp [hnk, Ne.symm hq]
      · rw [if_neg hc, mem_elKids, I.links.kids]
  · intro q
    rw [hkid]
    split
    · rw [List.nodup_append]
      refine ⟨I.links.nodup p, by simp, ?_⟩
      intro a ha b hb hab
      rw [List.mem_singleton] at hb
      subst hab; subst hb
      have := (I.links.kids p _).1 (mem_elKids.1 ha)
      rw [hnew] at this; cases this
    · exact I.links.nodup q
  · intro q c h
    rw [hpar] at h
    split at h
    · rename_i hc; cases h; omega
    · exact I.links.older _ _ h
  · intro d c
    show (s.doc d).root = _ ↔ _
    rw [hpar, I.links.root]
    by_cases hc : c = s.next
    · subst hc; rw [hnew]; simp
    · rw [if_neg hc]
  · intro d i e
    show (s.doc d).table.lookup i = _ ↔ _
    rw [hid, I.tables]
    by_cases he : e = s.next
    · subst he; rw [hnew]; simp
    · rw [inDoc_new I.links hpar _ _ he]

end Verif.Dom

import Verif.Dom.Steps
import Verif.Pkg.C122

/-!
# C126, C127: theorems
-/
namespace Verif.Dom

theorem inv_setId {s : St} (I : Inv s) {e : Nat} (he : e < s.next) (i : Str) :
    (setId s e i).2 ≠ some .key ∧ ((setId s e i).2 ≠ some .clash → Inv (setId s e i).1) ∧
    (isValidName i = true → ((setId s e i).2 = some .clash ↔ ∃ d e', InDoc s d e ∧ InDoc s d e' ∧ e' ≠ e ∧ (s.node e').id = some i)) := by
  have hpar : ∀ x, (upd s.node e ⟨(s.node e).parent, some i, (s.node e).kids⟩ x).parent = (s.node x).parent := by
    intro x
    by_cases hx : x = e
    · subst hx; simp
    · rw [upd_ne _ _ hx]
  have hid : ∀ x, (upd s.node e ⟨(s.node e).parent, some i, (s.node e).kids⟩ x).id = if x = e then some i else (s.node x).id := by
    intro x
    by_cases hx : x = e
    · subst hx; simp
    · rw [upd_ne _ _ hx, if_neg hx]
  have hkid : ∀ x, (upd s.node e ⟨(s.node e).parent, some i, (s.node e).kids⟩ x).kids = (s.node x).kids := by
    intro x
    by_cases hx : x = e
    · subst hx; simp
    · rw [upd_ne _ _ hx]
  have hlinks : ∀ D : Nat → DDoc, (∀ d, (D d).root = (s.doc d).root) → (∀ d, s.ndocs ≤ d → D d = ⟨none, []⟩) →
      Links { s with node := upd s.node e ⟨(s.node e).parent, some i, (s.node e).kids⟩, doc := D } := by
    intro D hD hD'
    refine ⟨?_, hD', ?_, ?_, ?_, ?_⟩
    · intro n hn
      have hn : s.next ≤ n := hn
      show upd _ _ _ _ = _
      rw [upd_ne _ _ (by omega)]
      exact I.links.fresh n hn
    · intro p c
      show Kid.el c ∈ (ENode.kids (upd _ _ _ p)) ↔ (ENode.parent (upd _ _ _ c)) = _
      rw [hkid, hpar]
      exact I.links.kids p c
    · intro p
      show (elKids (ENode.kids (upd _ _ _ p))).Nodup
      rw [hkid]
      exact I.links.nodup p
    · intro p c h
      have h : (ENode.parent (upd _ _ _ c)) = _ := h
      rw [hpar] at h
      exact I.links.older _ _ h
    · intro d c
      show (D d).root = _ ↔ (ENode.parent (upd _ _ _ c)) = _
      rw [hpar, hD]
      exact I.links.root d c
  unfold setId
  by_cases hv : isValidName i = false
  · rw [if_pos hv]
    exact ⟨by simp, fun _ => I, fun h => by rw [hv] at h; cases h⟩
  · rw [if_neg hv]
    dsimp only
    cases hg : getDoc s e with
    | none =>
      have hnot : ∀ d, ¬ InDoc s d e := by
        intro d hd
        rw [(getDoc_iff I.links.older e d).2 hd] at hg; cases hg
      refine ⟨by simp, fun _ => ⟨hlinks s.doc (fun _ => rfl) I.links.dfresh, ?_⟩, fun _ => ?_⟩
      · intro d j x
        show (s.doc d).table.lookup j = _ ↔ _ ∧ (ENode.id (upd _ _ _ x)) = _
        rw [inDoc_congr (s := s) hpar, hid, I.tables]
        by_cases hx : x = e
        · subst hx; simp [hnot]
        · rw [if_neg hx]
      · simp [hnot]
    | some d =>
      have hd := (getDoc_iff I.links.older e d).1 hg
      obtain ⟨t, h1, h2⟩ := unreg_all s [e] (by simp) (s.doc d).table (by
        intro x hx j hj
        rw [List.mem_singleton] at hx
        subst hx
        exact (I.tables d j x).2 ⟨hd, hj⟩) (fun j x h => ((I.tables d j x).1 h).2)
      have h1 : unreg s (s.doc d).table e = some t := by
        rw [List.foldlM_cons] at h1
        cases hu : unreg s (s.doc d).table e with
        | none => rw [hu] at h1; cases h1
        | some t' => rw [hu] at h1; exact h1
      dsimp only
      rw [h1]
      dsimp only
      have hcl : (t.lookup i).isSome = true ↔ ∃ e', InDoc s d e' ∧ e' ≠ e ∧ (s.node e').id = some i := by
        rw [Option.isSome_iff_exists]
        constructor
        · rintro ⟨x, hx⟩
          rw [h2, I.tables] at hx
          exact ⟨x, hx.1.1, by simpa using hx.2, hx.1.2⟩
        · rintro ⟨x, a, b, c⟩
          exact ⟨x, by rw [h2, I.tables]; exact ⟨⟨a, c⟩, by simpa using b⟩⟩
      by_cases hc : (t.lookup i).isSome = true
      · rw [if_pos hc]
        refine ⟨by simp, by simp, fun _ => ?_⟩
        obtain ⟨e', h3, h4, h5⟩ := hcl.1 hc
        simp only [true_iff]
        exact ⟨d, e', hd, h3, h4, h5⟩
      · rw [if_neg hc]
        refine ⟨by simp, fun _ => ⟨hlinks (upd s.doc d ⟨(s.doc d).root, (i, e) :: t⟩) ?_ ?_, ?_⟩, fun _ => ?_⟩
        · intro d'
          by_cases h : d' = d
          · subst h; simp
          · rw [upd_ne _ _ h]
        · intro d' hd'
          have hdd : d' ≠ d := by
            rintro rfl
            have hne : ∀ {x}, InDoc s d' x → False := by
              intro x hx
              induction hx with
              | top e =>
                have := (I.links.root _ _).2 e
                rw [I.links.dfresh _ hd'] at this
                cases this
              | up _ _ ih => exact ih
            exact hne hd
          rw [upd_ne _ _ hdd]
          exact I.links.dfresh d' hd'
        · intro d' j x
          show (DDoc.table (upd _ _ _ d')).lookup j = _ ↔ _ ∧ (ENode.id (upd _ _ _ x)) = _
          rw [inDoc_congr (s := s) hpar, hid]
          by_cases h : d' = d
          · subst h
            rw [upd_same, List.lookup_cons]
            by_cases hj : j = i
            · subst hj
              simp only [beq_self_eq_true, Option.some.injEq]
              constructor
              · rintro rfl
                exact ⟨hd, by simp⟩
              · rintro ⟨a, b⟩
                by_contra hx
                rw [if_neg (Ne.symm hx)] at b
                exact hc (hcl.2 ⟨x, a, Ne.symm hx, b⟩)
            · rw [show (j == i) = false from by simp [hj]]
              dsimp only
              rw [h2, I.tables, List.mem_singleton]
              by_cases hx : x = e
              · subst hx
                simp [Ne.symm hj]
              · simp [hx]
          · rw [upd_ne _ _ h, I.tables]
            by_cases hx : x = e
            · subst hx
              constructor
              · rintro ⟨a, _⟩
                exact absurd (inDoc_unique a hd) h
              · rintro ⟨a, _⟩
                exact absurd (inDoc_unique a hd) h
            · rw [if_neg hx]
        · simp only [reduceCtorEq, false_iff]
          rintro ⟨d', e', a, b, c, f⟩
          rw [inDoc_unique a hd] at b
          exact hc (hcl.2 ⟨e', b, c, f⟩)

theorem inv_newDocumentOf {s : St} (I : Inv s) {e : Nat} (he : e < s.next) (h : (newDocumentOf s e).2 ≠ some .attr) :
    Inv (newDocumentOf s e).1 := by
  unfold newDocumentOf at h ⊢
  split
  · exact I
  · rename_i hp
    rw [if_neg hp] at h
    have hp : (s.node e).parent = none := by
      cases hq : (s.node e).parent with
      | none => rfl
      | some _ => rw [hq] at hp; simp at hp
    dsimp only at h ⊢
    by_cases hid : ((flat s s.next e).any (fun x => (s.node x).id.isSome)) = true
    · rw [if_pos hid] at h; exact absurd rfl h
    · rw [if_neg hid]
      have hnone : ∀ x, Desc s e x → (s.node x).id = none := by
        intro x hx
        cases hq : (s.node x).id with
        | none => rfl
        | some i =>
          exfalso
          apply hid
          rw [List.any_eq_true]
          exact ⟨x, (mem_flat I.links _ _ he (by omega) x).2 hx, by rw [hq]; rfl⟩
      have hpar : ∀ x, (upd s.node e ⟨some (.doc s.ndocs), (s.node e).id, (s.node e).kids⟩ x).parent =
          if x = e then some (.doc s.ndocs) else (s.node x).parent := by
        intro x
        by_cases hx : x = e
        · subst hx; simp
        · rw [upd_ne _ _ hx, if_neg hx]
      have hoth : ∀ x, (upd s.node e ⟨some (.doc s.ndocs), (s.node e).id, (s.node e).kids⟩ x).id = (s.node x).id ∧
          (upd s.node e ⟨some (.doc s.ndocs), (s.node e).id, (s.node e).kids⟩ x).kids = (s.node x).kids := by
        intro x
        by_cases hx : x = e
        · subst hx; simp
        · rw [upd_ne _ _ hx]; exact ⟨rfl, rfl⟩
      have hnod : ∀ {x}, ¬ InDoc s s.ndocs x := by
        intro x hx
        induction hx with
        | top e =>
          have := (I.links.root _ _).2 e
          rw [I.links.dfresh _ le_rfl] at this
          cases this
        | up _ _ ih => exact ih
      generalize hs' : (⟨upd s.node e ⟨some (.doc s.ndocs), (s.node e).id, (s.node e).kids⟩, s.next,
        upd s.doc s.ndocs ⟨some e, []⟩, s.ndocs + 1⟩ : St) = s'
      have hn' : s'.node = upd s.node e ⟨some (.doc s.ndocs), (s.node e).id, (s.node e).kids⟩ := by rw [← hs']
      have hd' : s'.doc = upd s.doc s.ndocs ⟨some e, []⟩ := by rw [← hs']
      have hin : ∀ d x, InDoc s' d x ↔ (d = s.ndocs ∧ Desc s e x) ∨ InDoc s d x := by
        intro d x
        constructor
        · intro hx
          induction hx with
          | @top x e' =>
            rw [hn', hpar] at e'
            split at e'
            · rename_i hx
              cases e'; subst hx
              exact .inl ⟨rfl, .refl⟩
            · exact .inr (.top e')
          | @up p x e' _ ih =>
            rw [hn', hpar] at e'
            split at e'
            · cases e'
            · rcases ih with ⟨a, b⟩ | a
              · exact .inl ⟨a, .up e' b⟩
              · exact .inr (.up e' a)
        · rintro (⟨rfl, hx⟩ | hx)
          · induction hx with
            | refl => exact .top (by rw [hn', hpar, if_pos rfl])
            | @up p x e' _ ih =>
              refine .up (p := p) ?_ ih
              rw [hn', hpar, if_neg, e']
              rintro rfl
              rw [hp] at e'; cases e'
          · induction hx with
            | @top x e' =>
              refine .top ?_
              rw [hn', hpar, if_neg, e']
              rintro rfl
              rw [hp] at e'; cases e'
            | @up p x e' _ ih =>
              refine .up (p := p) ?_ ih
              rw [hn', hpar, if_neg, e']
              rintro rfl
              rw [hp] at e'; cases e'
      refine ⟨⟨?_, ?_, ?_, ?_, ?_, ?_⟩, ?_⟩
      · intro n hn
        have hn : s.next ≤ n := by rw [← hs'] at hn; exact hn
        rw [hn', upd_ne _ _ (by omega)]
        exact I.links.fresh n hn
      · intro d hd
        have hd : s.ndocs + 1 ≤ d := by rw [← hs'] at hd; exact hd
        rw [hd', upd_ne _ _ (by omega)]
        exact I.links.dfresh d (by omega)
      · intro p c
        rw [hn', (hoth p).2, hpar, I.links.kids]
        by_cases hc : c = e
        · subst hc; simp [hp]
        · rw [if_neg hc]
      · intro p
        rw [hn', (hoth p).2]
        exact I.links.nodup p
      · intro p c h
        rw [hn', hpar] at h
        split at h
        · cases h
        · exact I.links.older _ _ h
      · intro d c
        rw [hn', hd', hpar]
        by_cases hd : d = s.ndocs
        · subst hd
          rw [upd_same]
          constructor
          · intro h; cases h; simp
          · intro h
            split at h
            · rename_i hc; rw [hc]
            · exact absurd (InDoc.top h) hnod
        · rw [upd_ne _ _ hd, I.links.root]
          by_cases hc : c = e
          · subst hc; simp [hp, Ne.symm hd]
          · rw [if_neg hc]
      · intro d i x
        rw [hin, hn', hd', (hoth x).1]
        by_cases hd : d = s.ndocs
        · subst hd
          rw [upd_same]
          simp only [List.lookup_nil, reduceCtorEq, true_and, false_iff, not_and]
          rintro (h | h)
          · rw [hnone x h]; simp
          · exact absurd h hnod
        · rw [upd_ne _ _ hd, I.tables]
          simp [hd]

theorem elKids_addText (l : List Kid) (t : Str) : elKids (addText l t) = elKids l := by
  unfold addText
  split
  · rename_i u hu
    have h1 : l = l.dropLast ++ [.text u] := by
      rw [List.getLast?_eq_some_iff] at hu
      obtain ⟨a, rfl⟩ := hu
      simp
    conv_rhs => rw [h1]
    simp [elKids, List.filterMap_append]
  · simp [elKids, List.filterMap_append]

theorem inv_reset {s : St} (I : Inv s) {e : Nat} (he : e < s.next) :
    ∃ s', resetKids s e = some s' ∧ Inv s' ∧ s'.next = s.next ∧ (s'.node e).kids = [] := by
  have hP : ∀ x ∈ ([] ++ elKids (s.node e).kids), (s.node x).parent = some (.el e) := fun x hx =>
    (I.links.kids e x).1 (mem_elKids.1 (by simpa using hx))
  obtain ⟨s2, h1, h2⟩ := orphan_all I (elKids (s.node e).kids) [] s hP (by simpa using I.links.nodup e) (cut_nil I)
  refine ⟨{ s2 with node := upd s2.node e ⟨(s2.node e).parent, (s2.node e).id, []⟩ }, by simp only [resetKids, h1, Option.map_some], ?_, h2.next,
    by simp⟩
  refine inv_unlink I (K := elKids (s.node e).kids) (by simpa using hP) (by simpa using h2) he [] ?_
  symm
  rw [show elKids [] = [] from rfl, List.filter_eq_nil_iff]
  intro a ha
  simp [ha]

theorem inv_removeChild {s : St} (I : Inv s) {p c : Nat} (hp : p < s.next) :
    (removeChild s p c).2 ≠ some .key ∧ Inv (removeChild s p c).1 := by
  unfold removeChild
  split
  · rename_i hm
    have hm : Kid.el c ∈ (s.node p).kids := by simpa using hm
    have hpar := (I.links.kids p c).1 hm
    obtain ⟨s2, h1, h2⟩ := orphan_all I (P := .el p) [c] [] s (by simpa using hpar) (by simp) (cut_nil I)
    have h1 : orphan s c = some s2 := by
      rw [List.foldlM_cons] at h1
      cases hu : orphan s c with
      | none => rw [hu] at h1; cases h1
      | some t' => rw [hu] at h1; exact h1
    rw [h1]
    refine ⟨by simp [orKey], ?_⟩
    refine inv_unlink I (K := [c]) (by simpa using hpar) (by simpa using h2) hp _ ?_
    rw [h2.kids]
    have hnd := I.links.nodup p
    generalize (s.node p).kids = l at hnd hm ⊢
    clear * - hnd hm
    induction l with
    | nil => cases hm
    | cons k r ih =>
      by_cases hk : k = .el c
      · subst hk
        rw [List.erase_cons_head]
        simp only [elKids, List.filterMap_cons] at hnd ⊢
        rw [List.nodup_cons] at hnd
        rw [List.filter_cons_of_neg (by simp)]
        symm
        rw [List.filter_eq_self]
        intro a ha
        simp only [List.mem_singleton, decide_not, Bool.not_eq_eq_eq_not, Bool.not_true, decide_eq_false_iff_not]
        rintro rfl
        exact hnd.1 ha
      · rw [List.erase_cons_tail (by simpa using hk)]
        have hm' : Kid.el c ∈ r := by
          rcases List.mem_cons.1 hm with h | h
          · exact absurd h.symm hk
          · exact h
        cases k with
        | text u => simpa [elKids] using ih (by simpa [elKids] using hnd) hm'
        | el n =>
          have hnc : n ≠ c := fun h => hk (by rw [h])
          have hnd' : (elKids r).Nodup := by
            simp only [elKids, List.filterMap_cons] at hnd
            exact (List.nodup_cons.1 hnd).2
          have := ih hnd' hm'
          simp only [elKids, List.filterMap_cons] at this ⊢
          rw [this, List.filter_cons_of_pos (by simpa using hnc)]
  · exact ⟨by simp, I⟩

theorem inv_addRoot {s : St} (I : Inv s) {d : Nat} (hd : d < s.ndocs) :
    (addRoot s d).2 ≠ some .key ∧ Inv (addRoot s d).1 := by
  unfold addRoot
  split
  · rename_i hr
    exact ⟨by simp, inv_putRoot I hd hr⟩
  · rename_i r hr
    have hpar := (I.links.root d r).1 hr
    obtain ⟨s2, h1, h2⟩ := orphan_all I (P := .doc d) [r] [] s (by simpa using hpar) (by simp) (cut_nil I)
    have h1 : orphan s r = some s2 := by
      rw [List.foldlM_cons] at h1
      cases hu : orphan s r with
      | none => rw [hu] at h1; cases h1
      | some t' => rw [hu] at h1; exact h1
    rw [h1]
    refine ⟨by simp [orKey], ?_⟩
    have I2 := inv_unroot I hpar (by simpa using h2)
    refine inv_putRoot I2 ?_ ?_
    · show d < s2.ndocs
      rw [h2.ndocs]; exact hd
    · simp

/-- Every call keeps the links and the tables right, if it does not fail with a clash or an `AttributeError`, and never raises
`KeyError`. -/
theorem inv_step {s : St} (I : Inv s) (o : Op) :
    (step s o).2 ≠ some .key ∧ ((step s o).2 ≠ some .clash → (step s o).2 ≠ some .attr → Inv (step s o).1) := by
  cases o with
  | newElement => exact ⟨by simp [step], fun _ _ => inv_create I⟩
  | newDocument =>
    refine ⟨by simp [step], fun _ _ => ⟨⟨I.links.fresh, ?_, I.links.kids, I.links.nodup, I.links.older, I.links.root⟩, ?_⟩⟩
    · intro d hd
      have hd : s.ndocs + 1 ≤ d := hd
      exact I.links.dfresh d (by omega)
    · intro d i e
      have := inDoc_congr (s := s) (s' := (step s .newDocument).1) (fun _ => rfl) d e
      rw [this]
      exact I.tables d i e
  | newDocumentOf e =>
    simp only [step]
    split
    · rename_i he
      refine ⟨?_, fun _ h => inv_newDocumentOf I he h⟩
      unfold newDocumentOf
      split
      · simp
      · dsimp only; split <;> simp
    · exact ⟨by simp, fun _ _ => I⟩
  | addRoot d =>
    simp only [step]
    split
    · rename_i hd
      exact ⟨(inv_addRoot I hd).1, fun _ _ => (inv_addRoot I hd).2⟩
    · exact ⟨by simp, fun _ _ => I⟩
  | addChild p =>
    simp only [step]
    split
    · rename_i hp
      exact ⟨by simp, fun _ _ => inv_addChild I hp⟩
    · exact ⟨by simp, fun _ _ => I⟩
  | removeChild p c =>
    simp only [step]
    split
    · rename_i hp
      exact ⟨(inv_removeChild I hp.1).1, fun _ _ => (inv_removeChild I hp.1).2⟩
    · exact ⟨by simp, fun _ _ => I⟩
  | setId e i =>
    simp only [step]
    split
    · rename_i he
      exact ⟨(inv_setId I he i).1, fun h _ => (inv_setId I he i).2.1 h⟩
    · exact ⟨by simp, fun _ _ => I⟩
  | addData e t =>
    simp only [step]
    split
    · rename_i he
      exact ⟨by simp, fun _ _ => inv_kids I e he _ (elKids_addText _ _)⟩
    · exact ⟨by simp, fun _ _ => I⟩
  | setValue e t =>
    simp only [step]
    split
    · rename_i he
      obtain ⟨s', h1, h2, h3, h4⟩ := inv_reset I he
      rw [h1]
      refine ⟨by simp [orKey], fun _ _ => ?_⟩
      refine inv_kids h2 e (by omega) _ ?_
      rw [h4]
      cases t <;> simp [elKids]
    · exact ⟨by simp, fun _ _ => I⟩
  | reset e =>
    simp only [step]
    split
    · rename_i he
      obtain ⟨s', h1, h2, -⟩ := inv_reset I he
      rw [h1]
      exact ⟨by simp [orKey], fun _ _ => h2⟩
    · exact ⟨by simp, fun _ _ => I⟩

theorem inv_init : Inv St.init := by
  have hd : ∀ d x, ¬ InDoc St.init d x := by
    intro d x h
    cases h with
    | top e => cases e
    | up e _ => cases e
  refine ⟨⟨fun _ _ => rfl, fun _ _ => rfl, ?_, ?_, ?_, ?_⟩, ?_⟩
  · intro p c; simp [St.init]
  · intro p; simp [St.init, elKids]
  · intro p c h; simp [St.init] at h
  · intro d c; simp [St.init]
  · intro d i e
    simp [St.init]

theorem history_inv {ops : List Op} {s : St} (h : History ops s) : Inv s := by
  induction h with
  | nil => exact inv_init
  | call o _ h1 h2 ih => exact (inv_step ih o).2 h1 h2

theorem reach_iff {s : St} (I : Inv s) (d x : Nat) : Reach s d x ↔ InDoc s d x := by
  constructor
  · intro h
    induction h with
    | root e => exact .top ((I.links.root _ _).1 e)
    | child _ e ih => exact .up ((I.links.kids _ _).1 e) ih
  · intro h
    induction h with
    | top e => exact .root ((I.links.root _ _).2 e)
    | up e _ ih => exact .child ih ((I.links.kids _ _).2 e)

/-- C126: after every history in which no call failed with `XMLIDClashError` or `AttributeError`, `get_element_by_id` gives exactly
the element of the document that has the id. -/
theorem C126_ids_partial {ops : List Op} {s : St} (h : History ops s) (d : Nat) (i : Str) (e : Nat) :
    getElementById s d i = some e ↔ Reach s d e ∧ (s.node e).id = some i := by
  have I := history_inv h
  rw [reach_iff I]
  exact I.tables d i e

/-- C126: parents and children agree, no element is a child twice, and `get_document` gives the document from whose root the element
can be reached. -/
theorem C126_tree {ops : List Op} {s : St} (h : History ops s) :
    (∀ p c, Kid.el c ∈ (s.node p).kids ↔ (s.node c).parent = some (.el p)) ∧ (∀ p c, (s.node p).kids.count (.el c) ≤ 1) ∧
    (∀ d c, (s.doc d).root = some c ↔ (s.node c).parent = some (.doc d)) ∧ ∀ e d, getDoc s e = some d ↔ Reach s d e := by
  have I := history_inv h
  refine ⟨I.links.kids, ?_, I.links.root, fun e d => by rw [reach_iff I]; exact getDoc_iff I.links.older e d⟩
  intro p c
  have hn := I.links.nodup p
  have : (s.node p).kids.count (.el c) = (elKids (s.node p).kids).count c := by
    generalize (s.node p).kids = l
    induction l with
    | nil => rfl
    | cons k r ih =>
      cases k with
      | text u => rw [List.count_cons_of_ne (by simp), ih]; simp [elKids]
      | el n =>
        by_cases hnc : n = c
        · subst hnc
          rw [List.count_cons_self, ih]
          simp [elKids]
        · rw [List.count_cons_of_ne (by simpa using hnc), ih]
          simp only [elKids, List.filterMap_cons]
          rw [List.count_cons_of_ne hnc]
  rw [this]
  exact List.nodup_iff_count_le_one.1 hn c

/-- C126: the table never misses an entry that a call has to delete. -/
theorem C126_no_key_error {ops : List Op} {s : St} (h : History ops s) (o : Op) : (step s o).2 ≠ some .key :=
  (inv_step (history_inv h) o).1

/-- C126: `set_id` fails with `XMLIDClashError` exactly if another element of the document has the id. -/
theorem C126_clash {ops : List Op} {s : St} (h : History ops s) (e : Nat) (he : e < s.next) (i : Str) (hi : isValidName i = true) :
    (step s (.setId e i)).2 = some .clash ↔ ∃ d e', Reach s d e ∧ Reach s d e' ∧ e' ≠ e ∧ (s.node e').id = some i := by
  have I := history_inv h
  simp only [step, if_pos he, reach_iff I]
  exact (inv_setId I he i).2.2 hi

/-- C126: a call that fails in another way changes nothing. -/
theorem C126_failed (s : St) (o : Op) (e : Err) (h : (step s o).2 = some e) (h1 : e ≠ .clash) (h2 : e ≠ .attr) : (step s o).1 = s := by
  have hk : ∀ x : Option St, (orKey s x).2 = some e → (orKey s x).1 = s := by
    intro x hx
    cases x with
    | none => rfl
    | some _ => cases hx
  cases o <;> simp only [step] at h ⊢
  · cases h
  · cases h
  · split at h
    · rename_i he
      rw [if_pos he]
      unfold newDocumentOf at h ⊢
      split
      · rfl
      · rename_i hp
        rw [if_neg hp] at h
        dsimp only at h
        split at h
        · cases h; exact absurd rfl h2
        · cases h
    · rename_i he; rw [if_neg he]
  · split at h
    · rename_i he
      rw [if_pos he]
      unfold addRoot at h ⊢
      split
      · rename_i hr; rw [hr] at h; cases h
      · rename_i r hr; rw [hr] at h; exact hk _ h
    · rename_i he; rw [if_neg he]
  · split at h
    · cases h
    · rename_i he; rw [if_neg he]
  · split at h
    · rename_i he
      rw [if_pos he]
      unfold removeChild at h ⊢
      split
      · rename_i hm; rw [if_pos hm] at h; exact hk _ h
      · rfl
    · rename_i he; rw [if_neg he]
  · split at h
    · rename_i he
      rw [if_pos he]
      unfold setId at h ⊢
      split
      · rfl
      · rename_i hv
        rw [if_neg hv] at h
        dsimp only at h ⊢
        split
        · rename_i hg; rw [hg] at h; cases h
        · rename_i d hg
          rw [hg] at h
          dsimp only at h
          split
          · rfl
          · rename_i t ht
            rw [ht] at h
            dsimp only at h
            split at h
            · cases h; exact absurd rfl h1
            · cases h
    · rename_i he; rw [if_neg he]
  · split at h
    · cases h
    · rename_i he; rw [if_neg he]
  · split at h
    · rename_i he; rw [if_pos he]; exact hk _ h
    · rename_i he; rw [if_neg he]
  · split at h
    · rename_i he; rw [if_pos he]; exact hk _ h
    · rename_i he; rw [if_neg he]

/-- A run of calls. -/
def run (s : St) : List Op → St
  | [] => s
  | o :: r => run (step s o).1 r

/-- The calls `Document()`, `add_child`, twice `add_child`, `set_id("a")` for one of the children. -/
def demo : List Op := [.newDocument, .addRoot 0, .addChild 0, .addChild 0, .setId 1 [97]]

theorem demo_history : History (demo ++ [.addChild 2, .setId 3 [98]]) (run St.init (demo ++ [.addChild 2, .setId 3 [98]])) := by
  refine History.call (ops := demo ++ [.addChild 2]) _ (History.call (ops := demo) _ (History.call (ops := [.newDocument, .addRoot 0, .addChild 0, .addChild 0]) _
    (History.call (ops := [.newDocument, .addRoot 0, .addChild 0]) _ (History.call (ops := [.newDocument, .addRoot 0]) _
    (History.call (ops := [.newDocument]) _ (History.call (ops := []) _ History.nil ?_ ?_) ?_ ?_) ?_ ?_) ?_ ?_) ?_ ?_) ?_ ?_) ?_ ?_
  all_goals decide +kernel

example : getElementById (run St.init (demo ++ [.addChild 2, .setId 3 [98]])) 0 [98] = some 3 ∧
    getElementById (run St.init (demo ++ [.addChild 2, .setId 3 [98], .removeChild 0 2])) 0 [98] = none ∧
    getElementById (run St.init (demo ++ [.addChild 2, .setId 3 [98], .removeChild 0 2])) 0 [97] = some 1 ∧
    getElementById (run St.init (demo ++ [.addChild 2, .setId 3 [98], .reset 0])) 0 [97] = none := by decide +kernel

/-- C126 is violated after a clash: the element keeps the id that belongs to another, and when it is removed the document forgets the
other. -/
theorem C126_violation_clash :
    let s := run St.init demo
    let s1 := (step s (.setId 2 [97])).1
    let s2 := (step s1 (.removeChild 0 2)).1
    (step s (.setId 2 [97])).2 = some .clash ∧ (s1.node 2).id = some [97] ∧ getElementById s1 0 [97] = some 1 ∧
    (step s1 (.removeChild 0 2)).2 = none ∧ getElementById s2 0 [97] = none ∧ Reach s2 0 1 ∧ (s2.node 1).id = some [97] := by
  refine ⟨by decide +kernel, by decide +kernel, by decide +kernel, by decide +kernel, by decide +kernel, ?_, by decide +kernel⟩
  exact .child (p := 0) (.root (by decide +kernel)) (by decide +kernel)

/-- C126 is violated by `Document(root=e)`: if the element or one below it has an id this raises `AttributeError`, and leaves the
element with a parent. -/
theorem C126_violation_document :
    let s := run St.init [.newElement, .setId 0 [97]]
    (step s (.newDocumentOf 0)).2 = some .attr ∧ ((step s (.newDocumentOf 0)).1.node 0).parent = some (.doc 0) := by
  refine ⟨by decide +kernel, by decide +kernel⟩

/-! ### New ids -/

open Verif.Pkg in
/-- The loop of `get_unique_id` once `id_extra` is in use, structures.py:781-785: `'%s-%X'`; to a number of steps. -/
def uniqueLoop (table : List Str) (base : Str) : Nat → Nat → Option Str
  | 0, _ => none
  | f + 1, extra =>
    let c := base ++ 45 :: hexX extra
    if table.contains c then uniqueLoop table base f (extra + 1) else some c

/-- `Document.get_unique_id`, structures.py:772-786: `r0` and `r1` are the random numbers; none if it does not end in as many steps as
there are ids and one more. -/
def getUniqueId (table : List Str) (base : Str) (r0 r1 : Nat) : Option Str :=
  let b := if base = [] then Pkg.hexX r0 else base
  if table.contains b then uniqueLoop table b (table.length + 1) r1 else some b

theorem uniqueLoop_none (table : List Str) (base : Str) (f extra : Nat) (h : uniqueLoop table base f extra = none) :
    ∀ i < f, base ++ 45 :: Pkg.hexX (extra + i) ∈ table := by
  induction f generalizing extra with
  | zero => intro i hi; omega
  | succ f ih =>
    unfold uniqueLoop at h
    dsimp only at h
    split at h
    · rename_i hc
      intro i hi
      cases i with
      | zero => simpa using hc
      | succ i =>
        have := ih (extra + 1) h i (by omega)
        rwa [show extra + 1 + i = extra + (i + 1) by omega] at this
    · cases h

theorem uniqueLoop_some (table : List Str) (base : Str) (f extra : Nat) (c : Str) (h : uniqueLoop table base f extra = some c) :
    c ∉ table ∧ ∃ n ≥ extra, c = base ++ 45 :: Pkg.hexX n := by
  induction f generalizing extra with
  | zero => cases h
  | succ f ih =>
    unfold uniqueLoop at h
    dsimp only at h
    split at h
    · obtain ⟨h1, n, h2, h3⟩ := ih _ h
      exact ⟨h1, n, by omega, h3⟩
    · rename_i hc
      cases h
      exact ⟨by simpa using hc, extra, le_rfl, rfl⟩

theorem hexX_name (n : Nat) : ∀ c ∈ Pkg.hexX n, Xml.isNameChar c = true := by
  intro c hc
  unfold Pkg.hexX at hc
  split at hc
  · rw [List.mem_singleton] at hc; subst hc; decide
  · rw [List.mem_reverse, List.mem_map] at hc
    obtain ⟨d, hd, rfl⟩ := hc
    have := Nat.digits_lt_base (by decide) hd
    unfold Pkg.hexDigit
    split
    · rename_i h
      simp only [Xml.isNameChar, Bool.or_eq_true, Bool.and_eq_true, decide_eq_true_eq]
      omega
    · rename_i h
      simp only [Xml.isNameChar, Xml.isNameStart, Bool.or_eq_true, Bool.and_eq_true, decide_eq_true_eq]
      omega

/-- C127: `get_unique_id` ends for every table and every random number, gives the suggested id if it is free, and never one that is in
use; a suggested id that is a name gives a name. -/
theorem C127_unique_id_partial (table : List Str) (base : Str) (r0 r1 : Nat) :
    ∃ c, getUniqueId table base r0 r1 = some c ∧ c ∉ table ∧ (base ≠ [] → base ∉ table → c = base) ∧
      (isValidName base = true → isValidName c = true) := by
  unfold getUniqueId
  dsimp only
  generalize hb : (if base = [] then Pkg.hexX r0 else base) = b
  have hv : isValidName base = true → b = base := by
    intro h
    have : base ≠ [] := by rintro rfl; cases h
    rw [← hb, if_neg this]
  split
  · rename_i hc
    cases hu : uniqueLoop table b (table.length + 1) r1 with
    | none =>
      exfalso
      have h1 := uniqueLoop_none table b _ _ hu
      have hs : ((List.range (table.length + 1)).map (fun i => b ++ 45 :: Pkg.hexX (r1 + i))).Subperm table := by
        refine List.Nodup.subperm ?_ ?_
        · refine (List.nodup_map_iff_inj_on List.nodup_range).2 ?_
          intro x _ y _ hxy
          have := Pkg.hexX_inj (List.cons.inj (List.append_cancel_left hxy)).2
          omega
        · intro c hc
          obtain ⟨i, hi, rfl⟩ := List.mem_map.1 hc
          exact h1 i (List.mem_range.1 hi)
      have := hs.length_le
      simp at this
    | some c =>
      obtain ⟨h1, n, -, h2⟩ := uniqueLoop_some table b _ _ _ hu
      refine ⟨c, rfl, h1, ?_, ?_⟩
      · intro hne hnt
        rw [if_neg hne] at hb
        subst hb
        exact absurd (by simpa using hc) hnt
      · intro h
        rw [hv h] at h2
        cases base with
        | nil => cases h
        | cons x r =>
          rw [h2]
          simp only [isValidName, List.cons_append, Bool.and_eq_true, List.all_eq_true] at h ⊢
          refine ⟨h.1, ?_⟩
          intro y hy
          rw [List.mem_append, List.mem_cons] at hy
          rcases hy with hy | rfl | hy
          · exact h.2 y hy
          · decide
          · exact hexX_name n y hy
  · rename_i hc
    refine ⟨b, rfl, by simpa using hc, ?_, ?_⟩
    · intro hne _
      rw [if_neg hne] at hb
      exact hb.symm
    · intro h
      rw [hv h]; exact h

example : getUniqueId [[97], [97, 45, 49]] [97] 0 1 = some [97, 45, 50] ∧ isValidName [97] = true := by
  refine ⟨?_, by decide⟩
  simp [getUniqueId, uniqueLoop, Pkg.hexX, Pkg.hexDigit]

/-- C127 is violated without a suggestion: most random ids start with a digit and are refused by `set_id`. -/
theorem C127_violation_digit : getUniqueId [] [] 5 0 = some [53] ∧ isValidName [53] = false := by
  refine ⟨?_, by decide⟩
  simp [getUniqueId, Pkg.hexX, Pkg.hexDigit]

end Verif.Dom

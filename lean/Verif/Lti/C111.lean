import Verif.Lti.Visits
/-!
# C111: proofs
-/
namespace Verif.Lti

/-- A user key and the user's id, for a consumer. -/
def Names (users : List Ent) (c : Nat) : Option Nat → Option Str → Prop
  | none, none => True
  | some i, some m => ∃ e ∈ users, e.id = i ∧ e.consumer = c ∧ e.name = m
  | _, _ => False

/-- Keys and names identify entities. -/
structure Uniq (l : List Ent) : Prop where
  id : ∀ x ∈ l, ∀ y ∈ l, x.id = y.id → x = y
  name : ∀ x ∈ l, ∀ y ∈ l, x.consumer = y.consumer → x.name = y.name → x = y

/-- The data and the access it gives. -/
structure Good (db : Db) (a : Access) (sids : List Str) : Prop where
  res : Uniq db.resources
  use : Uniq db.users
  vid : (db.visits.map Visit.id).Nodup
  vres : ∀ v ∈ db.visits, ∃ r ∈ db.resources, r.id = v.resource
  vsid : ∀ v ∈ db.visits, ∀ s, v.session = some s → s ∈ sids
  sound : ∀ v ∈ db.visits, ∀ s, v.session = some s → ∀ r ∈ db.resources, r.id = v.resource →
    ∃ n, a s r.consumer r.name = some (n, v.permissions) ∧ Names db.users r.consumer v.user n
  complete : ∀ s c l, a s c l ≠ none → ∃ r ∈ db.resources, r.consumer = c ∧ r.name = l ∧
    ∃ v ∈ db.visits, v.session = some s ∧ v.resource = r.id

theorem Names.mono {us us' : List Ent} {c : Nat} {u : Option Nat} {n : Option Str} (h : ∀ e ∈ us, e ∈ us')
    (hn : Names us c u n) : Names us' c u n := by
  cases u <;> cases n <;> simp only [Names] at hn ⊢
  obtain ⟨e, he, h2⟩ := hn
  exact ⟨e, h e he, h2⟩

theorem Names.name_eq {us : List Ent} {c : Nat} {u : Option Nat} {n m : Option Str} (hu : Uniq us)
    (h1 : Names us c u n) (h2 : Names us c u m) : n = m := by
  cases u <;> cases n <;> cases m <;> simp only [Names] at h1 h2 ⊢
  obtain ⟨e, he, h3, h4, h5⟩ := h1
  obtain ⟨f, hf, h6, h7, h8⟩ := h2
  have := hu.id e he f hf (h3.trans h6.symm)
  subst this
  rw [← h5, ← h8]

theorem Names.user_eq {us : List Ent} {c : Nat} {u w : Option Nat} {n : Option Str} (hu : Uniq us)
    (h1 : Names us c u n) (h2 : Names us c w n) : u = w := by
  cases u <;> cases n <;> cases w <;> simp only [Names] at h1 h2 ⊢
  obtain ⟨e, he, h3, h4, h5⟩ := h1
  obtain ⟨f, hf, h6, h7, h8⟩ := h2
  have := hu.name e he f hf (h4.trans h7.symm) (h5.trans h8.symm)
  subst this
  rw [← h3, ← h6]

/-- What `getEnt` returns. -/
theorem getEnt_spec (l : List Ent) (fresh c : Nat) (name : Str) (hu : Uniq l) (hf : fresh ∉ l.map Ent.id) :
    (getEnt l fresh c name).1 ∈ (getEnt l fresh c name).2 ∧ (getEnt l fresh c name).1.consumer = c ∧
    (getEnt l fresh c name).1.name = name ∧ Uniq (getEnt l fresh c name).2 ∧ (∀ e ∈ l, e ∈ (getEnt l fresh c name).2) ∧
    ∀ e ∈ (getEnt l fresh c name).2, e ∈ l ∨
      (e.id ∉ l.map Ent.id ∧ e.consumer = c ∧ e.name = name ∧ ∀ x ∈ l, ¬ (x.consumer = c ∧ x.name = name)) := by
  unfold getEnt
  split
  · rename_i h
    rw [List.filter_eq_nil_iff] at h
    have hno : ∀ x ∈ l, ¬ (x.consumer = c ∧ x.name = name) := by
      intro x hx; have := h x hx; simpa using this
    refine ⟨by simp, rfl, rfl, ⟨?_, ?_⟩, fun e he => by simp [he], ?_⟩
    · intro x hx y hy e
      simp only [List.mem_append, List.mem_singleton] at hx hy
      rcases hx with hx | rfl <;> rcases hy with hy | rfl
      · exact hu.id x hx y hy e
      · exact absurd (List.mem_map.2 ⟨x, hx, e⟩) hf
      · exact absurd (List.mem_map.2 ⟨y, hy, e.symm⟩) hf
      · rfl
    · intro x hx y hy e1 e2
      simp only [List.mem_append, List.mem_singleton] at hx hy
      rcases hx with hx | rfl <;> rcases hy with hy | rfl
      · exact hu.name x hx y hy e1 e2
      · exact absurd ⟨e1, e2⟩ (hno x hx)
      · exact absurd ⟨e1.symm, e2.symm⟩ (hno y hy)
      · rfl
    · intro e he
      simp only [List.mem_append, List.mem_singleton] at he
      rcases he with he | rfl
      · exact Or.inl he
      · exact Or.inr ⟨hf, rfl, rfl, hno⟩
  · rename_i e r h
    have he : e ∈ l.filter (fun e => e.consumer == c && e.name == name) := by rw [h]; simp
    rw [List.mem_filter] at he
    simp only [Bool.and_eq_true, beq_iff_eq] at he
    exact ⟨he.1, he.2.1, he.2.2, hu, fun e he => he, fun e he => Or.inl he⟩

theorem consumerOf_eq {l : List Ent} (hu : Uniq l) {r : Ent} (hr : r ∈ l) : consumerOf l r.id = some r.consumer := by
  unfold consumerOf
  cases h : l.find? (fun e => e.id == r.id) with
  | none =>
    rw [List.find?_eq_none] at h
    exact absurd BEq.rfl (h r hr)
  | some e =>
    have h1 := List.find?_some h
    have h2 := List.mem_of_find?_eq_some h
    rw [beq_iff_eq] at h1
    rw [hu.id e h2 r hr h1]; rfl

/-- The visits that `new_visit` takes out of the session. -/
def drops (resources : List Ent) (consumer resource : Nat) (user : Option Nat) (old : Visit) : Prop :=
  old.resource = resource ∨ (consumerOf resources old.resource = some consumer ∧ user ≠ old.user)

instance (resources : List Ent) (consumer resource : Nat) (user : Option Nat) (old : Visit) :
    Decidable (drops resources consumer resource user old) := by unfold drops; infer_instance

theorem setSession_map (f : Visit → Visit) (vs : List Visit) (id : Nat) (s : Option Str) (hf : ∀ w, (f w).id = w.id) :
    (setSessionOf vs id s).map f = vs.map fun w => if w.id = id then f { w with session := s } else f w := by
  unfold setSessionOf
  rw [List.map_map]
  apply List.map_congr_left
  intro w _
  simp only [Function.comp]
  split <;> rfl

theorem dropLoop_eq (R : List Ent) (c r : Nat) (u : Option Nat) (l vs : List Visit) :
    dropLoop R c r u vs l =
      vs.map fun w => if l.any (fun o => o.id == w.id && decide (drops R c r u o)) then { w with session := none } else w := by
  induction l generalizing vs with
  | nil => simp [dropLoop]
  | cons o l ih =>
    have hdrop : drops R c r u o → dropLoop R c r u vs (o :: l) = dropLoop R c r u (setSessionOf vs o.id none) l := by
      intro h
      rw [dropLoop]
      rcases h with h | ⟨h1, h2⟩
      · rw [if_pos h]
      · rw [if_pos h1, if_pos h2, ite_self]
    have hkeep : ¬ drops R c r u o → dropLoop R c r u vs (o :: l) = dropLoop R c r u vs l := by
      intro h
      unfold drops at h
      rw [dropLoop, if_neg (fun e => h (Or.inl e))]
      split
      · rename_i h1
        rw [if_neg (fun e => h (Or.inr ⟨h1, e⟩))]
      · rfl
    by_cases h : drops R c r u o
    · rw [hdrop h, ih, setSession_map _ _ _ _ (by intro w; split <;> rfl)]
      apply List.map_congr_left
      intro w _
      simp only [List.any_cons, h, decide_true, Bool.and_true]
      by_cases e : w.id = o.id
      · rw [if_pos e, e]; simp
      · rw [if_neg e]
        simp [show o.id ≠ w.id from fun x => e x.symm]
    · rw [hkeep h, ih]
      apply List.map_congr_left
      intro w _
      simp [h]

theorem foldSession_eq (s : Option Str) (l vs : List Visit) :
    l.foldl (fun vs v => setSessionOf vs v.id s) vs =
      vs.map fun w => if l.any (fun o => o.id == w.id) then { w with session := s } else w := by
  induction l generalizing vs with
  | nil => simp
  | cons o l ih =>
    rw [List.foldl_cons, ih, setSession_map _ _ _ _ (by intro w; split <;> rfl)]
    apply List.map_congr_left
    intro w _
    simp only [List.any_cons]
    by_cases e : w.id = o.id
    · rw [if_pos e, e]; simp
    · rw [if_neg e]
      simp [show o.id ≠ w.id from fun x => e x.symm]

theorem nodup_id {vs : List Visit} (h : (vs.map Visit.id).Nodup) {v w : Visit} (hv : v ∈ vs) (hw : w ∈ vs)
    (e : v.id = w.id) : v = w := by
  induction vs with
  | nil => simp at hv
  | cons x vs ih =>
    simp only [List.map_cons, List.nodup_cons] at h
    rcases List.mem_cons.1 hv with hv | hv <;> rcases List.mem_cons.1 hw with hw | hw
    · rw [hv, hw]
    · exact absurd (List.mem_map.2 ⟨w, hw, by rw [← e, hv]⟩) h.1
    · exact absurd (List.mem_map.2 ⟨v, hv, by rw [e, hw]⟩) h.1
    · exact ih h.2 hv hw

theorem any_session {vs : List Visit} (h : (vs.map Visit.id).Nodup) (sid : Str) (P : Visit → Bool) {w : Visit} (hw : w ∈ vs) :
    (inSession vs sid).any (fun o => o.id == w.id && P o) = (w.session == some sid && P w) := by
  rw [Bool.eq_iff_iff, List.any_eq_true]
  simp only [inSession, List.mem_filter, Bool.and_eq_true, beq_iff_eq]
  constructor
  · rintro ⟨o, ⟨h1, h2⟩, h3, h4⟩
    have := nodup_id h h1 hw h3
    subst this
    exact ⟨h2, h4⟩
  · rintro ⟨h1, h2⟩
    exact ⟨w, ⟨hw, h1⟩, rfl, h2⟩

/-- The visits after `new_visit`. -/
theorem mem_newVisit (db : Db) (fresh : Nat) (sid : Str) (c r : Nat) (u : Option Nat) (p : Nat)
    (h : (db.visits.map Visit.id).Nodup) (v : Visit) :
    v ∈ newVisit db fresh sid c r u p ↔
      v = ⟨fresh, some sid, r, u, p⟩ ∨
      ∃ w ∈ db.visits, v = if w.session = some sid ∧ drops db.resources c r u w then { w with session := none } else w := by
  unfold newVisit
  rw [dropLoop_eq, List.mem_append, List.mem_singleton, List.mem_map, or_comm]
  apply or_congr_right
  constructor
  · rintro ⟨w, hw, rfl⟩
    refine ⟨w, hw, ?_⟩
    rw [any_session h sid _ hw]
    simp
  · rintro ⟨w, hw, rfl⟩
    refine ⟨w, hw, ?_⟩
    rw [any_session h sid _ hw]
    simp

theorem newVisit_ids (db : Db) (fresh : Nat) (sid : Str) (c r : Nat) (u : Option Nat) (p : Nat) :
    (newVisit db fresh sid c r u p).map Visit.id = db.visits.map Visit.id ++ [fresh] := by
  unfold newVisit
  rw [dropLoop_eq, List.map_append, List.map_map]
  congr 1
  apply List.map_congr_left
  intro w _
  simp only [Function.comp]
  split <;> rfl

/-- Adding entities to the sets of resources and users. -/
theorem Good.grow {db : Db} {a : Access} {sids : List Str} (hg : Good db a sids) (rs us : List Ent) (sids' : List Str)
    (hr : Uniq rs) (hu : Uniq us) (h1 : ∀ e ∈ db.resources, e ∈ rs) (h2 : ∀ e ∈ db.users, e ∈ us)
    (h3 : ∀ s ∈ sids, s ∈ sids') : Good ⟨rs, us, db.visits⟩ a sids' where
  res := hr
  use := hu
  vid := hg.vid
  vres := fun v hv => by
    obtain ⟨r, hr, e⟩ := hg.vres v hv
    exact ⟨r, h1 r hr, e⟩
  vsid := fun v hv s hs => h3 s (hg.vsid v hv s hs)
  sound := fun v hv s hs r hrr e => by
    obtain ⟨r0, hr0, e0⟩ := hg.vres v hv
    have := hr.id r hrr r0 (h1 r0 hr0) (e.trans e0.symm)
    subst this
    obtain ⟨n, n1, n2⟩ := hg.sound v hv s hs r hr0 e
    exact ⟨n, n1, n2.mono h2⟩
  complete := fun s c l h => by
    obtain ⟨r, hr, e1, e2, h⟩ := hg.complete s c l h
    exact ⟨r, h1 r hr, e1, e2, h⟩

theorem Good.launch {db : Db} {a : Access} {sids : List Str} (hg : Good db a sids) (fresh : Nat)
    (hf : fresh ∉ db.visits.map Visit.id) (r : Ent) (hr : r ∈ db.resources) (u : Option Nat) (user : Option Str)
    (hu : Names db.users r.consumer u user) (sid : Str) (hs : sid ∈ sids) (p : Nat) :
    Good { db with visits := newVisit db fresh sid r.consumer r.id u p } (a.step (.launch r.consumer r.name user p sid)) sids where
  res := hg.res
  use := hg.use
  vid := by
    rw [newVisit_ids, List.nodup_append]
    refine ⟨hg.vid, by simp, ?_⟩
    intro x hx y hy
    simp only [List.mem_singleton] at hy
    subst hy
    rintro rfl
    exact hf hx
  vres := fun v hv => by
    rcases (mem_newVisit _ _ _ _ _ _ _ hg.vid v).1 hv with rfl | ⟨w, hw, rfl⟩
    · exact ⟨r, hr, rfl⟩
    · obtain ⟨x, hx, e⟩ := hg.vres w hw
      exact ⟨x, hx, by rw [e]; split <;> rfl⟩
  vsid := fun v hv s hs' => by
    rcases (mem_newVisit _ _ _ _ _ _ _ hg.vid v).1 hv with rfl | ⟨w, hw, rfl⟩
    · simp only [Option.some.injEq] at hs'; subst hs'; exact hs
    · split at hs'
      · cases hs'
      · exact hg.vsid w hw s hs'
  sound := fun v hv s hs' x hx e => by
    dsimp only at hx ⊢
    rcases (mem_newVisit _ _ _ _ _ _ _ hg.vid v).1 hv with rfl | ⟨w, hw, rfl⟩
    · simp only [Option.some.injEq] at hs'
      subst hs'
      have := hg.res.id x hx r hr e
      subst this
      refine ⟨user, ?_, hu⟩
      simp [Access.step]
    · split at hs'
      · cases hs'
      · rename_i hd
        rw [if_neg hd] at e ⊢
        obtain ⟨n, n1, n2⟩ := hg.sound w hw s hs' x hx e
        refine ⟨n, ?_, n2⟩
        simp only [Access.step]
        split
        · rename_i hc
          obtain ⟨rfl, hc⟩ := hc
          have hnd : ¬ drops db.resources r.consumer r.id u w := fun h => hd ⟨hs', h⟩
          unfold drops at hnd
          simp only [not_or, not_and, Decidable.not_not] at hnd
          have hne : x.name ≠ r.name := fun h => by
            have := hg.res.name x hx r hr hc h
            subst this
            exact hnd.1 e.symm
          rw [if_neg hne, n1]
          dsimp only
          have hue := hnd.2 (by rw [← e, consumerOf_eq hg.res hx, hc])
          rw [hc] at n2
          rw [← hue] at n2
          rw [if_pos (n2.name_eq hg.use hu)]
        · exact n1
  complete := fun s c l h => by
    simp only [Access.step] at h
    split at h
    · rename_i hc
      obtain ⟨rfl, rfl⟩ := hc
      split at h
      · rename_i hl
        exact ⟨r, hr, rfl, hl.symm, _, (mem_newVisit _ _ _ _ _ _ _ hg.vid _).2 (Or.inl rfl), rfl, rfl⟩
      · rename_i hl
        cases ha : a s r.consumer l with
        | none => rw [ha] at h; exact absurd rfl h
        | some y =>
          obtain ⟨n, q⟩ := y
          rw [ha] at h
          dsimp only at h
          split at h
          · rename_i hn
            obtain ⟨x, hx, e1, e2, w, hw, hws, hwr⟩ := hg.complete s r.consumer l (by rw [ha]; simp)
            refine ⟨x, hx, e1, e2, w, ?_, hws, hwr⟩
            refine (mem_newVisit _ _ _ _ _ _ _ hg.vid _).2 (Or.inr ⟨w, hw, ?_⟩)
            rw [if_neg]
            rintro ⟨-, hd⟩
            obtain ⟨m, m1, m2⟩ := hg.sound w hw s hws x hx hwr.symm
            rw [e1, e2, ha] at m1
            simp only [Option.some.injEq, Prod.mk.injEq] at m1
            rcases hd with hd | ⟨-, hd⟩
            · have := hg.res.id x hx r hr (hwr.symm.trans hd)
              subst this
              exact hl e2.symm
            · apply hd
              rw [e1, ← m1.1, hn] at m2
              exact hu.user_eq hg.use m2
          · exact absurd rfl h
    · rename_i hc
      obtain ⟨x, hx, e1, e2, w, hw, hws, hwr⟩ := hg.complete s c l h
      refine ⟨x, hx, e1, e2, w, ?_, hws, hwr⟩
      refine (mem_newVisit _ _ _ _ _ _ _ hg.vid _).2 (Or.inr ⟨w, hw, ?_⟩)
      rw [if_neg]
      rintro ⟨hss, hd⟩
      rw [hws, Option.some.injEq] at hss
      rcases hd with hd | ⟨hd, -⟩
      · have := hg.res.id x hx r hr (hwr.symm.trans hd)
        subst this
        exact hc ⟨hss, e1.symm⟩
      · rw [hwr, consumerOf_eq hg.res hx, Option.some.injEq] at hd
        exact hc ⟨hss, e1.symm.trans hd⟩

theorem mem_establish (vs : List Visit) (sid new : Str) (h : (vs.map Visit.id).Nodup) (v : Visit) :
    v ∈ (inSession vs sid).foldl (fun vs v => setSessionOf vs v.id (some new)) vs ↔
      ∃ w ∈ vs, v = if w.session = some sid then { w with session := some new } else w := by
  rw [foldSession_eq, List.mem_map]
  have key : ∀ w ∈ vs, (inSession vs sid).any (fun o => o.id == w.id) = (w.session == some sid) := by
    intro w hw
    have := any_session h sid (fun _ => true) hw
    simpa using this
  constructor
  · rintro ⟨w, hw, rfl⟩
    refine ⟨w, hw, ?_⟩
    rw [key w hw]; simp
  · rintro ⟨w, hw, rfl⟩
    refine ⟨w, hw, ?_⟩
    rw [key w hw]; simp

theorem Good.establish {db : Db} {a : Access} {sids : List Str} (hg : Good db a sids) (sid new : Str) (h1 : new ≠ sid)
    (h2 : new ∉ sids) (pick : List Nat → Nat) :
    Good (db.step pick (.establish sid new)) (a.step (.establish sid new)) (sids ++ [sid, new]) where
  res := hg.res
  use := hg.use
  vid := by
    simp only [Db.step]
    rw [foldSession_eq, List.map_map]
    have : (Visit.id ∘ fun w : Visit => if (inSession db.visits sid).any (fun o => o.id == w.id) = true
        then { w with session := some new } else w) = Visit.id := by
      funext w; simp only [Function.comp]; split <;> rfl
    rw [this]; exact hg.vid
  vres := fun v hv => by
    obtain ⟨w, hw, rfl⟩ := (mem_establish _ _ _ hg.vid v).1 hv
    obtain ⟨x, hx, e⟩ := hg.vres w hw
    exact ⟨x, hx, by rw [e]; split <;> rfl⟩
  vsid := fun v hv s hs => by
    obtain ⟨w, hw, rfl⟩ := (mem_establish _ _ _ hg.vid v).1 hv
    split at hs
    · simp only [Option.some.injEq] at hs; simp [hs]
    · have := hg.vsid w hw s hs; simp [this]
  sound := fun v hv s hs x hx e => by
    obtain ⟨w, hw, rfl⟩ := (mem_establish _ _ _ hg.vid v).1 hv
    simp only [Access.step]
    by_cases hw1 : w.session = some sid
    · rw [if_pos hw1] at hs e ⊢
      simp only [Option.some.injEq] at hs
      rw [if_pos hs.symm]
      exact hg.sound w hw sid hw1 x hx e
    · rw [if_neg hw1] at hs e ⊢
      have hsn : s ≠ new := by rintro rfl; exact h2 (hg.vsid w hw s hs)
      have hss : s ≠ sid := by rintro rfl; exact hw1 hs
      rw [if_neg hsn, if_neg hss]
      exact hg.sound w hw s hs x hx e
  complete := fun s c l h => by
    simp only [Access.step] at h
    split at h
    · rename_i hs
      obtain ⟨x, hx, e1, e2, w, hw, hws, hwr⟩ := hg.complete sid c l h
      refine ⟨x, hx, e1, e2, { w with session := some new }, (mem_establish _ _ _ hg.vid _).2 ⟨w, hw, ?_⟩, by rw [hs], hwr⟩
      rw [if_pos hws]
    · split at h
      · exact absurd rfl h
      · rename_i hsn hss
        obtain ⟨x, hx, e1, e2, w, hw, hws, hwr⟩ := hg.complete s c l h
        refine ⟨x, hx, e1, e2, w, (mem_establish _ _ _ hg.vid _).2 ⟨w, hw, ?_⟩, hws, hwr⟩
        rw [if_neg]
        rw [hws, Option.some.injEq]
        exact hss

theorem Good.step {db : Db} {a : Access} {sids : List Str} (hg : Good db a sids) (pick : List Nat → Nat) (hp : Picks pick)
    (e : Event) (he : ∀ sid new, e = .establish sid new → new ≠ sid ∧ new ∉ sids) :
    Good (db.step pick e) (a.step e) (sids ++ e.sids) := by
  cases e with
  | establish sid new => exact hg.establish sid new (he sid new rfl).1 (he sid new rfl).2 pick
  | launch c link user p sid =>
    obtain ⟨r1, r2, r3, r4, r5, -⟩ := getEnt_spec db.resources (pick (db.resources.map Ent.id)) c link hg.res (hp _)
    simp only [Db.step]
    generalize hR : getEnt db.resources (pick (db.resources.map Ent.id)) c link = R at r1 r2 r3 r4 r5 ⊢
    obtain ⟨r, rs⟩ := R
    dsimp only at r1 r2 r3 r4 r5 ⊢
    subst r2 r3
    cases user with
    | none =>
      have hg' := hg.grow rs db.users (sids ++ [sid]) r4 hg.use r5 (fun _ h => h) (fun s h => by simp [h])
      exact hg'.launch _ (hp _) r r1 none none trivial sid (by simp) p
    | some name =>
      obtain ⟨u1, u2, u3, u4, u5, -⟩ := getEnt_spec db.users (pick (db.users.map Ent.id)) r.consumer name hg.use (hp _)
      dsimp only
      generalize hU : getEnt db.users (pick (db.users.map Ent.id)) r.consumer name = U at u1 u2 u3 u4 u5 ⊢
      obtain ⟨u, us⟩ := U
      dsimp only at u1 u2 u3 u4 u5 ⊢
      have hg' := hg.grow rs us (sids ++ [sid]) r4 u4 r5 u5 (fun s h => by simp [h])
      exact hg'.launch _ (hp _) r r1 (some u.id) (some name) ⟨u, u1, rfl, u2, u3⟩ sid (by simp) p

theorem good_run (pick : List Nat → Nat) (hp : Picks pick) (es : List Event) (hf : FreshSids es) :
    Good (Db.run pick Db.empty es) (Access.after es) (es.flatMap Event.sids) := by
  have key : ∀ (n : Nat) (pre : List Event), pre.length = n → pre <+: es →
      Good (Db.run pick Db.empty pre) (Access.after pre) (pre.flatMap Event.sids) := by
    intro n
    induction n with
    | zero =>
      intro pre hl _
      rw [List.length_eq_zero_iff] at hl
      subst hl
      exact ⟨⟨by simp [Db.run, Db.empty], by simp [Db.run, Db.empty]⟩, ⟨by simp [Db.run, Db.empty], by simp [Db.run, Db.empty]⟩,
        by simp [Db.run, Db.empty], by simp [Db.run, Db.empty], by simp [Db.run, Db.empty], by simp [Db.run, Db.empty],
        by simp [Access.after]⟩
    | succ n ih =>
      intro pre hl hpre
      have hne : pre ≠ [] := by rintro rfl; simp at hl
      have hsplit := List.dropLast_concat_getLast hne
      generalize pre.dropLast = q at hsplit
      generalize pre.getLast hne = e at hsplit
      subst hsplit
      obtain ⟨post, hpost⟩ := hpre
      have hq := ih q (by simpa using hl) ⟨e :: post, by rw [← hpost]; simp⟩
      have := hq.step pick hp e (by
        rintro sid new rfl
        obtain ⟨h1, h2⟩ := hf q sid new post (by rw [← hpost]; simp)
        refine ⟨h1, ?_⟩
        rw [List.mem_flatMap]
        rintro ⟨x, hx, hm⟩
        exact h2 x hx hm)
      simpa [Db.run, Access.after, List.flatMap_append] using this
  exact key es.length es rfl (List.prefix_refl es)

/-! ### C111 -/

/-- C111: after every history of launches and established sessions, the page of a resource is shown exactly to the
sessions that have access to it, with the user and the permissions of the launch that gave it. -/
theorem C111_access (pick : List Nat → Nat) (hp : Picks pick) (es : List Event) (hf : FreshSids es) (sid : Str) (c : Nat) (link : Str) :
    let db := Db.run pick Db.empty es
    ((resourceId db c link).bind (loadVisit db sid)).map (fun x => (x.2.map (userName db), x.1)) =
      (Access.after es sid c link).map fun x => (x.1.map some, x.2) := by
  intro db
  have hg : Good db (Access.after es) _ := good_run pick hp es hf
  generalize Access.after es = a at hg ⊢
  cases hr : resourceId db c link with
  | none =>
    have : a sid c link = none := by
      apply Classical.byContradiction
      intro h
      obtain ⟨r, h1, h2, h3, -⟩ := hg.complete sid c link h
      unfold resourceId at hr
      rw [Option.map_eq_none_iff, List.find?_eq_none] at hr
      exact hr r h1 (by simp [h2, h3])
    rw [this]; rfl
  | some rid =>
    unfold resourceId at hr
    rw [Option.map_eq_some_iff] at hr
    obtain ⟨r, h1, rfl⟩ := hr
    have h2 := List.find?_some h1
    have h3 := List.mem_of_find?_eq_some h1
    simp only [Bool.and_eq_true, beq_iff_eq] at h2
    obtain ⟨rfl, rfl⟩ := h2
    simp only [Option.bind_some, loadVisit, findVisit]
    cases hv : (inSession db.visits sid).find? (fun v => v.resource == r.id) with
    | none =>
      have : a sid r.consumer r.name = none := by
        apply Classical.byContradiction
        intro h
        obtain ⟨x, hx, e1, e2, w, hw, hws, hwr⟩ := hg.complete sid _ _ h
        have := hg.res.name x hx r h3 e1 e2
        subst this
        rw [List.find?_eq_none] at hv
        exact hv w (by simp [inSession, hw, hws]) (by simp [hwr])
      rw [this]; rfl
    | some v =>
      have e1 := List.find?_some hv
      have e2 := List.mem_of_find?_eq_some hv
      simp only [beq_iff_eq] at e1
      simp only [inSession, List.mem_filter, beq_iff_eq] at e2
      obtain ⟨n, n1, n2⟩ := hg.sound v e2.1 sid e2.2 r h3 e1.symm
      rw [n1]
      simp only [Option.map_some, Option.some.injEq, Prod.mk.injEq, and_true]
      cases hu : v.user with
      | none =>
        rw [hu] at n2
        cases n with
        | none => rfl
        | some m => exact n2.elim
      | some i =>
        rw [hu] at n2
        cases n with
        | none => exact n2.elim
        | some m =>
          obtain ⟨x, hx, x1, x2, x3⟩ := n2
          simp only [Option.map_some, Option.some.injEq, userName]
          cases hfx : db.users.find? (fun e => e.id == i) with
          | none =>
            rw [List.find?_eq_none] at hfx
            exact absurd (by simp [x1]) (hfx x hx)
          | some y =>
            have y1 := List.find?_some hfx
            have y2 := List.mem_of_find?_eq_some hfx
            simp only [beq_iff_eq] at y1
            have := hg.use.id x hx y y2 (x1.trans y1.symm)
            subst this
            simp [x3]

/-- C111: there are no pages for keys that belong to no resource. -/
theorem C111_unknown_resource (pick : List Nat → Nat) (hp : Picks pick) (es : List Event) (hf : FreshSids es) (sid : Str) (rid : Nat)
    (h : ∀ c link, resourceId (Db.run pick Db.empty es) c link ≠ some rid) : loadVisit (Db.run pick Db.empty es) sid rid = none := by
  have hg := good_run pick hp es hf
  generalize Db.run pick Db.empty es = db at hg h ⊢
  unfold loadVisit findVisit
  rw [Option.map_eq_none_iff, List.find?_eq_none]
  intro v hv
  simp only [inSession, List.mem_filter, beq_iff_eq] at hv
  simp only [beq_iff_eq]
  rintro rfl
  obtain ⟨r, h1, h2⟩ := hg.vres v hv.1
  apply h r.consumer r.name
  unfold resourceId
  cases hfx : db.resources.find? (fun e => e.consumer == r.consumer && e.name == r.name) with
  | none =>
    rw [List.find?_eq_none] at hfx
    exact absurd (by simp) (hfx r h1)
  | some y =>
    have y1 := List.find?_some hfx
    have y2 := List.mem_of_find?_eq_some hfx
    simp only [Bool.and_eq_true, beq_iff_eq] at y1
    rw [hg.res.name y y2 r h1 y1.1 y1.2, ← h2]; rfl

theorem access_one_user (es : List Event) (sid : Str) (c : Nat) (l l' : Str) (u u' : Option Str) (p p' : Nat)
    (h : Access.after es sid c l = some (u, p)) (h' : Access.after es sid c l' = some (u', p')) : u = u' := by
  have key : ∀ (es : List Event) (a : Access), (∀ s c l l' u u' p p', a s c l = some (u, p) → a s c l' = some (u', p') → u = u') →
      ∀ s c l l' u u' p p', es.foldl Access.step a s c l = some (u, p) → es.foldl Access.step a s c l' = some (u', p') → u = u' := by
    intro es
    induction es with
    | nil => intro a h; exact h
    | cons e es ih =>
      intro a h
      apply ih
      intro s c l l' u u' p p' h1 h2
      cases e with
      | establish x y =>
        simp only [Access.step] at h1 h2
        split at h1
        · rename_i hs; rw [if_pos hs] at h2; exact h _ _ _ _ _ _ _ _ h1 h2
        · rename_i hs
          rw [if_neg hs] at h2
          split at h1
          · cases h1
          · rename_i hs2; rw [if_neg hs2] at h2; exact h _ _ _ _ _ _ _ _ h1 h2
      | launch c0 link user q sid =>
        have one : ∀ l u p, (a.step (.launch c0 link user q sid)) s c l = some (u, p) → s = sid ∧ c = c0 → u = user := by
          intro l u p hl hc
          simp only [Access.step, if_pos hc] at hl
          split at hl
          · simp only [Option.some.injEq, Prod.mk.injEq] at hl; exact hl.1.symm
          · split at hl
            · split at hl
              · rename_i hu
                simp only [Option.some.injEq, Prod.mk.injEq] at hl
                rw [← hl.1]; exact hu
              · cases hl
            · cases hl
        by_cases hc : s = sid ∧ c = c0
        · rw [one l u p h1 hc, one l' u' p' h2 hc]
        · simp only [Access.step, if_neg hc] at h1 h2
          exact h _ _ _ _ _ _ _ _ h1 h2
  exact key es (fun _ _ _ => none) (by simp) sid c l l' u u' p p' h h'

/-- C111: in one session, all the pages of a consumer are shown to the same user: a launch by another user logs the
previous one out. -/
theorem C111_one_user (pick : List Nat → Nat) (hp : Picks pick) (es : List Event) (hf : FreshSids es) (sid : Str) (c : Nat)
    (l l' : Str) (r r' : Nat) (x x' : Nat × Option Nat)
    (h1 : resourceId (Db.run pick Db.empty es) c l = some r) (h2 : resourceId (Db.run pick Db.empty es) c l' = some r')
    (h3 : loadVisit (Db.run pick Db.empty es) sid r = some x) (h4 : loadVisit (Db.run pick Db.empty es) sid r' = some x') :
    x.2.map (userName (Db.run pick Db.empty es)) = x'.2.map (userName (Db.run pick Db.empty es)) := by
  have a1 := C111_access pick hp es hf sid c l
  have a2 := C111_access pick hp es hf sid c l'
  dsimp only at a1 a2
  rw [h1, Option.bind_some, h3, Option.map_some] at a1
  rw [h2, Option.bind_some, h4, Option.map_some] at a2
  cases e1 : Access.after es sid c l with
  | none => rw [e1] at a1; cases a1
  | some y =>
    cases e2 : Access.after es sid c l' with
    | none => rw [e2] at a2; cases a2
    | some y' =>
      rw [e1] at a1
      rw [e2] at a2
      simp only [Option.map_some, Option.some.injEq, Prod.mk.injEq] at a1 a2
      rw [a1.1, a2.1, access_one_user es sid c l l' y.1 y'.1 y.2 y'.2 e1 e2]

/-- C111: a session that neither launched anything nor was made from one that did sees no pages. -/
theorem C111_stranger (pick : List Nat → Nat) (hp : Picks pick) (es : List Event) (hf : FreshSids es) (sid : Str)
    (h : ∀ e ∈ es, sid ∉ e.sids) (rid : Nat) : loadVisit (Db.run pick Db.empty es) sid rid = none := by
  have hg := good_run pick hp es hf
  unfold loadVisit findVisit
  rw [Option.map_eq_none_iff, List.find?_eq_none]
  intro v hv
  simp only [inSession, List.mem_filter, beq_iff_eq] at hv
  have := hg.vsid v hv.1 sid hv.2
  rw [List.mem_flatMap] at this
  obtain ⟨e, he, hm⟩ := this
  exact absurd hm (h e he)

/-! Cases that meet the hypotheses. -/

/-- One more than the largest. -/
def nextId (l : List Nat) : Nat := l.foldr (fun a b => max (a + 1) b) 0

theorem nextId_picks : Picks nextId := by
  intro l h
  have : ∀ (l : List Nat) x, x ∈ l → x < nextId l := by
    intro l
    induction l with
    | nil => simp
    | cons a l ih =>
      intro x hx
      show x < max (a + 1) (nextId l)
      rcases List.mem_cons.1 hx with rfl | hx
      · omega
      · have := ih x hx; omega
  exact absurd (this l _ h) (by omega)

/-- Two launches by one user, the session becomes established, another user launches one of the resources. -/
def sample : List Event :=
  [.launch 1 [97] (some [117]) 1 [1], .launch 1 [98] (some [117]) 7 [1], .launch 2 [97] none 1 [1], .establish [1] [2],
    .launch 1 [97] (some [118]) 1 [2]]

example : FreshSids sample := by
  intro pre sid new post h
  unfold sample at h
  match pre, h with
  | [], h => simp at h
  | [_], h => simp at h
  | [_, _], h => simp at h
  | [_, _, _], h =>
    simp only [List.cons_append, List.nil_append, List.cons.injEq, Event.establish.injEq] at h
    obtain ⟨rfl, rfl, rfl, ⟨rfl, rfl⟩, -⟩ := h
    exact ⟨by decide, by decide⟩
  | [_, _, _, _], h => simp at h
  | _ :: _ :: _ :: _ :: _ :: r, h => simp at h

example : Access.after sample [2] 1 [97] = some (some [118], 1) ∧ Access.after sample [2] 1 [98] = none ∧
    Access.after sample [2] 2 [97] = some (none, 1) ∧ Access.after sample [1] 1 [98] = none := by decide +kernel
example : Access.after (sample.take 4) [2] 1 [98] = some (some [117], 7) := by decide +kernel

end Verif.Lti

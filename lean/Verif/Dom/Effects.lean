import Verif.Dom.Claims

/-!
# C126: what the calls change
-/
namespace Verif.Dom

/-- C126: `add_child` puts a new element without an id at the end, and changes no other element. -/
theorem C126_add {ops : List Op} {s : St} (_h : History ops s) (p : Nat) (hp : p < s.next) :
    let s' := (step s (.addChild p)).1
    (step s (.addChild p)).2 = none ∧ s'.node s.next = ⟨some (.el p), none, []⟩ ∧
    s'.node p = ⟨(s.node p).parent, (s.node p).id, (s.node p).kids ++ [.el s.next]⟩ ∧
    ∀ x, x ≠ p → x ≠ s.next → s'.node x = s.node x := by
  simp only [step, if_pos hp]
  refine ⟨trivial, ?_, ?_, ?_⟩
  · show upd (upd _ _ _) _ _ _ = _
    rw [upd_ne _ _ (by omega), upd_same]
  · show upd (upd _ _ _) _ _ _ = _
    rw [upd_same]
    dsimp only [create]
    rw [upd_ne _ _ (by omega)]
  · intro x h1 h2
    show upd (upd _ _ _) _ _ _ = _
    rw [upd_ne _ _ h1, upd_ne _ _ h2]

/-- C126: `remove_child` takes the child out of the children and makes it an orphan with its id and content; it changes nothing else of
any element, and fails exactly if the element is not a child. -/
theorem C126_remove {ops : List Op} {s : St} (h : History ops s) (p c : Nat) (hp : p < s.next) (hc : c < s.next) :
    ((step s (.removeChild p c)).2 = if Kid.el c ∈ (s.node p).kids then none else some .unknown) ∧
    (Kid.el c ∈ (s.node p).kids → ∀ x,
      ((step s (.removeChild p c)).1.node x).id = (s.node x).id ∧
      ((step s (.removeChild p c)).1.node x).parent = (if x = c then none else (s.node x).parent) ∧
      ((step s (.removeChild p c)).1.node x).kids = (if x = p then (s.node x).kids.erase (.el c) else (s.node x).kids)) := by
  have I := history_inv h
  simp only [step, hp, hc, and_self, if_true]
  unfold removeChild
  by_cases hm : Kid.el c ∈ (s.node p).kids
  · have hm' : (s.node p).kids.contains (.el c) = true := by simpa using hm
    rw [if_pos hm', if_pos hm]
    have hpar := (I.links.kids p c).1 hm
    have hpc : p ≠ c := by
      have := I.links.older _ _ hpar; omega
    obtain ⟨s2, h1, h2⟩ := orphan_all I (P := .el p) [c] [] s (by simpa using hpar) (by simp) (cut_nil I)
    have h1 : orphan s c = some s2 := by
      rw [List.foldlM_cons] at h1
      cases hu : orphan s c with
      | none => rw [hu] at h1; cases h1
      | some t' => rw [hu] at h1; exact h1
    rw [h1]
    refine ⟨rfl, fun _ x => ?_⟩
    simp only [Option.map_some, orKey]
    by_cases hx : x = p
    · subst hx
      rw [upd_same]
      simp only [h2.id, h2.par, h2.kids, if_true, if_neg hpc, true_and, and_true]
      simp [hpc]
    · rw [upd_ne _ _ hx, h2.id, h2.par, h2.kids, if_neg hx]
      refine ⟨rfl, ?_, rfl⟩
      simp
  · have hm' : ¬ (s.node p).kids.contains (.el c) = true := by simpa using hm
    rw [if_neg hm', if_neg hm]
    exact ⟨rfl, fun h => absurd h hm⟩

/-- C126: `reset` takes out all children and makes the elements among them orphans with their ids and content; it changes nothing else
of any element. -/
theorem C126_reset {ops : List Op} {s : St} (h : History ops s) (e : Nat) (he : e < s.next) :
    (step s (.reset e)).2 = none ∧ ∀ x,
      ((step s (.reset e)).1.node x).id = (s.node x).id ∧
      ((step s (.reset e)).1.node x).parent = (if Kid.el x ∈ (s.node e).kids then none else (s.node x).parent) ∧
      ((step s (.reset e)).1.node x).kids = (if x = e then [] else (s.node x).kids) := by
  have I := history_inv h
  have hP : ∀ x ∈ ([] ++ elKids (s.node e).kids), (s.node x).parent = some (.el e) := fun x hx =>
    (I.links.kids e x).1 (mem_elKids.1 (by simpa using hx))
  obtain ⟨s2, h1, h2⟩ := orphan_all I (elKids (s.node e).kids) [] s hP (by simpa using I.links.nodup e) (cut_nil I)
  have hr : resetKids s e = some { s2 with node := upd s2.node e ⟨(s2.node e).parent, (s2.node e).id, []⟩ } := by
    simp only [resetKids, h1, Option.map_some]
  simp only [step, if_pos he, hr, orKey, true_and]
  intro x
  by_cases hx : x = e
  · subst hx
    rw [upd_same]
    simp only [h2.id, h2.par, if_true, true_and, and_true, List.nil_append, mem_elKids]
  · rw [upd_ne _ _ hx, h2.id, h2.par, h2.kids, if_neg hx]
    simp [mem_elKids]

/-- C126: `set_id` sets the id, and changes nothing else of any element. -/
theorem C126_set_id {ops : List Op} {s : St} (h : History ops s) (e : Nat) (he : e < s.next) (i : Str) (hok : (step s (.setId e i)).2 = none)
    (x : Nat) : (step s (.setId e i)).1.node x = if x = e then ⟨(s.node e).parent, some i, (s.node e).kids⟩ else s.node x := by
  simp only [step, if_pos he] at hok ⊢
  unfold setId at hok ⊢
  split
  · rename_i hv
    rw [if_pos hv] at hok; cases hok
  · rename_i hv
    rw [if_neg hv] at hok
    dsimp only at hok ⊢
    cases hg : getDoc s e with
    | none => rfl
    | some d =>
      rw [hg] at hok
      dsimp only at hok ⊢
      cases hu : unreg s (s.doc d).table e with
      | none => rw [hu] at hok; cases hok
      | some t =>
        rw [hu] at hok
        dsimp only at hok ⊢
        split
        · rename_i hc; rw [if_pos hc] at hok; cases hok
        · rfl

end Verif.Dom

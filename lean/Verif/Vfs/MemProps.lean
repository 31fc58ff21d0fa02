import Verif.Vfs.Mem
/-!
# C105: lemmas about the file system in memory
-/
namespace Verif.Vfs

/-! ### Dictionaries -/

theorem dget_nil (k : Str) : dget [] k = none := rfl

theorem dget_cons (e : Str × Item) (d : List (Str × Item)) (k : Str) :
    dget (e :: d) k = if e.1 = k then some e.2 else dget d k := by
  unfold dget
  rw [List.find?_cons]
  by_cases h : e.1 = k
  · simp [h]
  · simp [h, beq_eq_false_iff_ne.2 h]

theorem dget_append (a b : List (Str × Item)) (k : Str) : dget (a ++ b) k = (dget a k).or (dget b k) := by
  induction a with
  | nil => simp [dget_nil]
  | cons e a ih =>
    rw [List.cons_append, dget_cons, dget_cons, ih]
    split <;> simp

theorem dget_map (d : List (Str × Item)) (k k' : Str) (v : Item) :
    dget (d.map fun e => if e.1 = k then (k, v) else e) k' = if k' = k then (dget d k).map fun _ => v else dget d k' := by
  induction d with
  | nil => simp [dget_nil]
  | cons e d ih =>
    rw [List.map_cons, dget_cons, dget_cons, dget_cons, ih]
    by_cases h : e.1 = k
    · simp only [h, if_true]
      by_cases h' : k' = k
      · subst h'; simp
      · simp [h', show ¬ k = k' from fun e => h' e.symm]
    · simp only [h, if_false]
      by_cases h' : k' = k
      · subst h'; simp [h]
      · simp [h']

theorem dget_dset (d : List (Str × Item)) (k k' : Str) (v : Item) :
    dget (dset d k v) k' = if k' = k then some v else dget d k' := by
  unfold dset
  split
  · rename_i h
    rw [dget_map]
    split
    · obtain ⟨x, hx⟩ := Option.isSome_iff_exists.1 h
      rw [hx]; rfl
    · rfl
  · rename_i h
    have hn : dget d k = none := by simpa using h
    rw [dget_append, dget_cons, dget_nil]
    by_cases h' : k' = k
    · subst h'; simp [hn]
    · simp [h', show ¬ k = k' from fun e => h' e.symm]

theorem dget_filter (d : List (Str × Item)) (q : Str × Item → Bool) (k : Str) (hn : (d.map (·.1)).Nodup) :
    dget (d.filter q) k = match dget d k with
      | some v => if q (k, v) then some v else none
      | none => none := by
  induction d with
  | nil => rfl
  | cons e d ih =>
    rw [List.map_cons, List.nodup_cons] at hn
    have ih := ih hn.2
    have hnone : e.1 = k → dget d k = none := by
      rintro rfl
      unfold dget
      rw [Option.map_eq_none_iff, List.find?_eq_none]
      intro x hx
      simp only [beq_iff_eq]
      intro e'
      exact hn.1 (List.mem_map.2 ⟨x, hx, e'⟩)
    rw [List.filter_cons, dget_cons]
    by_cases h : e.1 = k
    · simp only [h, if_true]
      have he : e = (k, e.2) := by rw [← h]
      by_cases hq : q e = true
      · rw [if_pos hq, dget_cons, if_pos h]
        rw [he] at hq
        simp [hq]
      · rw [if_neg hq, ih, hnone h]
        rw [he] at hq
        simp [hq]
    · simp only [h, if_false]
      split
      · rw [dget_cons, if_neg h, ih]
      · exact ih

theorem dget_ddel (d : List (Str × Item)) (k k' : Str) (hn : (d.map (·.1)).Nodup) :
    dget (ddel d k) k' = if k' = k then none else dget d k' := by
  unfold ddel
  rw [dget_filter d _ k' hn]
  by_cases h : k' = k
  · subst h
    cases dget d k' <;> simp
  · cases dget d k' <;> simp [h]

theorem dget_some_mem {d : List (Str × Item)} {k : Str} {v : Item} (h : dget d k = some v) : (k, v) ∈ d := by
  unfold dget at h
  rw [Option.map_eq_some_iff] at h
  obtain ⟨e, he, rfl⟩ := h
  have h1 := List.mem_of_find?_eq_some he
  have h2 : e.1 = k := by simpa using List.find?_some he
  rw [← h2]; exact h1

theorem mem_dget {d : List (Str × Item)} {e : Str × Item} (hn : (d.map (·.1)).Nodup) (h : e ∈ d) : dget d e.1 = some e.2 := by
  induction d with
  | nil => cases h
  | cons x d ih =>
    rw [List.map_cons, List.nodup_cons] at hn
    rw [dget_cons]
    rcases List.mem_cons.1 h with rfl | h
    · simp
    · rw [if_neg, ih hn.2 h]
      intro e'
      exact hn.1 (List.mem_map.2 ⟨e, h, e'.symm⟩)

theorem dset_keys (d : List (Str × Item)) (k : Str) (v : Item) (P : Str → Prop) (hk : P k) (h : ∀ e ∈ d, P e.1) :
    ∀ e ∈ dset d k v, P e.1 := by
  intro e he
  unfold dset at he
  split at he
  · obtain ⟨x, hx, rfl⟩ := List.mem_map.1 he
    split
    · exact hk
    · exact h x hx
  · rcases List.mem_append.1 he with he | he
    · exact h e he
    · rw [List.mem_singleton] at he; subst he; exact hk

theorem dset_nodup (d : List (Str × Item)) (k : Str) (v : Item) (h : (d.map (·.1)).Nodup) :
    ((dset d k v).map (·.1)).Nodup := by
  unfold dset
  split
  · rw [List.map_map]
    have : (Prod.fst ∘ fun e : Str × Item => if e.1 = k then (k, v) else e) = fun e => e.1 := by
      funext e
      simp only [Function.comp_apply]
      split
      · rename_i h; exact h.symm
      · rfl
    rw [this]; exact h
  · rename_i hn
    rw [List.map_append, List.nodup_append]
    refine ⟨h, by simp, ?_⟩
    intro a ha b hb
    simp only [List.map_cons, List.map_nil, List.mem_singleton] at hb
    subst hb
    rintro rfl
    obtain ⟨e, he, rfl⟩ := List.mem_map.1 ha
    apply hn
    rw [mem_dget h he]; rfl

/-! ### Canonical paths -/

theorem comps_absText (names : List Str) (hn : ∀ c ∈ names, IsName c) :
    comps (absText names) = if names = [] then [[], []] else [] :: names := by
  unfold absText
  rw [comps, if_pos rfl]
  cases names with
  | nil => rfl
  | cons a r =>
    rw [comps_joinSep _ (by simp) (fun c hc => (hn c hc).2.2.2)]
    rfl

theorem absText_inj {a b : List Str} (ha : ∀ c ∈ a, IsName c) (hb : ∀ c ∈ b, IsName c) (h : absText a = absText b) :
    a = b := by
  have := resolve_absText a ha []
  rw [h, resolve_absText b hb] at this
  simpa using (congrArg List.reverse this).symm

theorem joinSep_snoc (l : List Str) (x : Str) (h : l ≠ []) : joinSep (l ++ [x]) = joinSep l ++ 47 :: x := by
  induction l with
  | nil => exact absurd rfl h
  | cons a r ih =>
    cases r with
    | nil => rfl
    | cons b r =>
      have := ih (by simp)
      simp only [List.cons_append] at this ⊢
      rw [joinSep, this, joinSep]
      simp

theorem absText_snoc (l : List Str) (x : Str) :
    absText (l ++ [x]) = if l = [] then 47 :: x else absText l ++ 47 :: x := by
  unfold absText
  split
  · rename_i h; subst h; rfl
  · rename_i h; rw [joinSep_snoc l x h]; rfl

theorem rsplit_append (c : Nat) (a b : Str) (h : c ∉ b) : rsplit c (a ++ c :: b) = some (a, b) := by
  have hb : ∀ b : Str, c ∉ b → rsplit c b = none := by
    intro b hb
    cases e : rsplit c b with
    | none => rfl
    | some q =>
      obtain ⟨x, y⟩ := q
      exact absurd (by rw [(rsplit_some e).1]; simp) hb
  induction a with
  | nil => rw [List.nil_append, rsplit, hb b h]; simp
  | cons x a ih => rw [List.cons_append, rsplit, ih]

theorem split_absText_snoc (l : List Str) (x : Str) (hx : IsName x) : split (absText (l ++ [x])) = (absText l, x) := by
  rw [absText_snoc]
  split
  · rename_i h; subst h
    unfold split
    rw [show (47 :: x : Str) = [] ++ 47 :: x from rfl, rsplit_append 47 [] x hx.2.2.2]
    rfl
  · unfold split
    rw [rsplit_append 47 _ x hx.2.2.2]
    rfl

theorem split_root : split (absText []) = (absText [], []) := by decide

theorem isRoot_absText (l : List Str) (hn : ∀ c ∈ l, IsName c) : isRoot (absText l) = true ↔ l = [] := by
  rw [C104_root]
  constructor
  · intro h
    exact absText_inj hn (by simp) h
  · rintro rfl; rfl

theorem resolve_names {d : List Str} (hd : ∀ c ∈ d, IsName c) (p : Str) : ∀ c ∈ resolve d p, IsName c := by
  have aux : ∀ (cs d : List Str), (∀ c ∈ cs, 47 ∉ c) → (∀ c ∈ d, IsName c) → ∀ c ∈ cs.foldl go d, IsName c := by
    intro cs
    induction cs with
    | nil => intro d _ hd; exact hd
    | cons a cs ih =>
      intro d hc hd
      rw [List.foldl_cons]
      apply ih _ (fun c h => hc c (by simp [h]))
      unfold go
      split
      · exact hd
      · rename_i h1
        split
        · exact fun c h => hd c (List.mem_of_mem_tail h)
        · rename_i h2
          intro c h
          rcases List.mem_cons.1 h with rfl | h
          · exact ⟨fun e => h1 (Or.inl e), fun e => h1 (Or.inr e), h2, hc _ (by simp)⟩
          · exact hd c h
  unfold resolve
  apply aux _ _ (comps_nosep p)
  split
  · simp
  · exact hd

theorem noDouble_absText (names : List Str) (hn : ∀ c ∈ names, IsName c) : NoDouble (absText names) := by
  intro a b hab
  have hc := congrArg comps hab
  rw [absText, comps, if_pos rfl] at hc
  have hmem : [] ∈ ((comps (a ++ 47 :: 47 :: b)).drop 1).dropLast := by
    rw [comps_append_sep, comps, if_pos rfl]
    cases hca : comps a with
    | nil => exact absurd hca (comps_ne a)
    | cons x y =>
      rw [List.cons_append, List.drop_one, List.tail_cons, List.dropLast_append_of_ne_nil (by simp)]
      apply List.mem_append_right
      cases hb : comps b with
      | nil => exact absurd hb (comps_ne b)
      | cons x y => simp
  rw [← hc, List.drop_one, List.tail_cons] at hmem
  cases names with
  | nil => simp [joinSep, comps] at hmem
  | cons x r =>
    rw [comps_joinSep _ (by simp) (fun c hc => (hn c hc).2.2.2)] at hmem
    exact (hn [] (List.dropLast_subset _ hmem)).1 rfl

theorem noDouble_append {a b : Str} (ha : NoDouble a) (hb : NoDouble b) (h : endsSep a = false ∨ isAbs b = false) :
    NoDouble (a ++ b) := by
  induction a with
  | nil => simpa using hb
  | cons x r ih =>
    have hr : NoDouble r := fun u v e => ha (x :: u) v (by rw [e]; rfl)
    intro u v e
    cases u with
    | nil =>
      rw [List.nil_append, List.cons_append] at e
      injection e with e1 e2
      cases r with
      | nil =>
        rw [List.nil_append] at e2
        rcases h with h | h
        · rw [e1] at h; simp [endsSep] at h
        · rw [e2] at h; simp [isAbs] at h
      | cons y r =>
        rw [List.cons_append] at e2
        injection e2 with e3 e4
        exact ha [] r (by rw [e1, e3]; rfl)
    | cons y u =>
      rw [List.cons_append, List.cons_append] at e
      injection e with e1 e2
      cases r with
      | nil => exact hb u v (by simpa using e2)
      | cons z r =>
        refine ih hr ?_ u v e2
        rcases h with h | h
        · left
          unfold endsSep at h ⊢
          rw [List.getLast?_cons_cons] at h
          exact h
        · exact Or.inr h

theorem endsSep_append (a : Str) (x : Str) (h : x ≠ []) : endsSep (a ++ x) = endsSep x := by
  unfold endsSep
  congr 1
  rw [List.getLast?_append]
  cases hx : x.getLast? with
  | none => exact absurd (List.getLast?_eq_none_iff.1 hx) h
  | some y => rfl

theorem noDouble_sep : NoDouble [47] := by
  intro a b e
  have := congrArg List.length e
  simp at this
  omega

theorem noDouble_join {cwd p : Str} (hc : NoDouble cwd) (hp : NoDouble p) (ha : isAbs cwd = true) : NoDouble (join cwd [p]) := by
  have hne : cwd ≠ [] := by rintro rfl; simp [isAbs] at ha
  have hsep : NoDouble (if !endsSep cwd then cwd ++ [47] else cwd) := by
    split
    · rename_i h
      exact noDouble_append hc noDouble_sep (Or.inl (by simpa using h))
    · exact hc
  unfold join
  rw [if_neg hne]
  unfold joinLoop
  split
  · exact hsep
  · split
    · exact hp
    · rename_i h
      exact noDouble_append hsep hp (Or.inr (by simpa using h))

theorem isAbs_join {cwd : Str} (ha : isAbs cwd = true) (p : Str) : isAbs (join cwd [p]) = true := by
  have hne : cwd ≠ [] := by rintro rfl; simp [isAbs] at ha
  have h2 : ∀ x : Str, isAbs (cwd ++ x) = true := by
    intro x
    cases cwd with
    | nil => exact absurd rfl hne
    | cons => exact ha
  unfold join
  rw [if_neg hne]
  unfold joinLoop
  split
  · show isAbs (if _ then _ else _) = true
    split
    · exact h2 _
    · exact ha
  · split
    · rename_i h; exact h
    · show isAbs ((if _ then _ else _) ++ _) = true
      split
      · rw [List.append_assoc]; exact h2 _
      · exact h2 _

/-! ### Places -/

variable {m : MemFS}

theorem place_names (m : MemFS) (p : Str) : ∀ c ∈ m.place p, IsName c :=
  resolve_names (resolve_names (by simp) _) p

theorem real_eq (hm : m.Ok) {p : Str} (hp : NoDouble p) : m.real p = absText (m.place p).reverse := by
  unfold MemFS.real realpath MemFS.place
  by_cases ha : isAbs p = true
  · rw [if_pos ha, C104_norm_abs_partial p ha hp]
    congr 2
    rw [resolve_abs ha, resolve_abs ha]
  · rw [if_neg ha, C104_norm_abs_partial _ (isAbs_join hm.abs p) (noDouble_join hm.plain hp hm.abs), C104_join]
    rfl

/-- Getting an item through its canonical path. -/
theorem at_real (hm : m.Ok) {p : Str} (hp : NoDouble p) : dget m.items (m.real p) = m.at (m.place p) := by
  rw [real_eq hm hp]; rfl

theorem place_absText (m : MemFS) (l : List Str) (hl : ∀ c ∈ l, IsName c) : m.place (absText l.reverse) = l := by
  unfold MemFS.place
  rw [resolve_absText _ (fun c hc => hl c (List.mem_reverse.1 hc)), List.reverse_reverse]

theorem real_absText (hm : m.Ok) (l : List Str) (hl : ∀ c ∈ l, IsName c) : m.real (absText l.reverse) = absText l.reverse := by
  have hl' : ∀ c ∈ l.reverse, IsName c := fun c hc => hl c (List.mem_reverse.1 hc)
  rw [real_eq hm (noDouble_absText _ hl'), place_absText m l hl]

theorem at_set (m : MemFS) (t u : List Str) (ht : ∀ c ∈ t, IsName c) (hu : ∀ c ∈ u, IsName c) (v : Item) (w : Str) :
    MemFS.at ⟨dset m.items (absText t.reverse) v, w⟩ u = if u = t then some v else m.at u := by
  unfold MemFS.at
  rw [dget_dset]
  have : absText u.reverse = absText t.reverse ↔ u = t := by
    constructor
    · intro h
      have := absText_inj (fun c hc => hu c (List.mem_reverse.1 hc)) (fun c hc => ht c (List.mem_reverse.1 hc)) h
      simpa using congrArg List.reverse this
    · rintro rfl; rfl
  by_cases h : u = t
  · rw [if_pos h, if_pos (this.2 h)]
  · rw [if_neg h, if_neg (fun e => h (this.1 e))]

theorem ok_set (hm : m.Ok) (t : List Str) (ht : ∀ c ∈ t, IsName c) (v : Item) :
    MemFS.Ok { m with items := dset m.items (absText t.reverse) v } :=
  ⟨dset_keys _ _ _ (fun k => ∃ names : List Str, (∀ c ∈ names, IsName c) ∧ k = absText names) ⟨t.reverse, fun c hc => ht c (List.mem_reverse.1 hc), rfl⟩ hm.keys, dset_nodup _ _ _ hm.nodup, hm.abs,
    hm.plain⟩

theorem ok_filter (hm : m.Ok) (q : Str × Item → Bool) : MemFS.Ok { m with items := m.items.filter q } :=
  ⟨fun e he => hm.keys e (List.mem_filter.1 he).1, (List.filter_sublist.map _).nodup hm.nodup, hm.abs, hm.plain⟩

theorem split_stack (t : List Str) (x : Str) (hx : IsName x) :
    split (absText (x :: t).reverse) = (absText t.reverse, x) := by
  rw [List.reverse_cons]; exact split_absText_snoc _ x hx

end Verif.Vfs

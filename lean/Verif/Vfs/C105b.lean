import Verif.Vfs.C105
/-!
# C105: `makedirs`, histories, and the tree of directories
-/
namespace Verif.Vfs

variable {m : MemFS}

/-! ### makedirs -/

/-- The places that `makedirs` finds missing. -/
def missP (m : MemFS) : List Str → List (List Str)
  | [] => if (m.at []).isSome then [] else [[]]
  | x :: s => if (m.at (x :: s)).isSome then [] else (x :: s) :: missP m s

theorem exists_at (hm : m.Ok) (s : List Str) (hs : Names s) : m.pathExists (absText s.reverse) = (m.at s).isSome := by
  unfold MemFS.pathExists
  rw [real_absText hm s hs]; rfl

theorem missing_eq (hm : m.Ok) : ∀ (s : List Str), Names s → ∀ n, s.length < n →
    m.missing n (absText s.reverse) = (missP m s).map fun t => absText t.reverse
  | s, hs, 0, h => by omega
  | [], hs, n + 1, _ => by
    rw [MemFS.missing, exists_at hm [] hs, missP]
    have : (split (absText ([] : List Str).reverse)).1 = absText ([] : List Str).reverse := by decide
    rw [if_pos this]
    split <;> rfl
  | x :: s, hs, n + 1, h => by
    rw [MemFS.missing, exists_at hm _ hs, missP, split_stack s x (hs x (by simp))]
    dsimp only
    split
    · rfl
    · rw [if_neg, missing_eq hm s (fun c hc => hs c (by simp [hc])) n (by simp at h; omega)]
      · rfl
      · intro e
        have := (absText_eq_iff hs (fun c hc => hs c (by simp [hc]))).1 e
        have := congrArg List.length this
        simp at this

theorem length_absText (s : List Str) (hs : Names s) : s.length ≤ (absText s.reverse).length := by
  induction s with
  | nil => simp
  | cons x s ih =>
    have ih := ih (fun c hc => hs c (by simp [hc]))
    rw [List.reverse_cons, absText_snoc]
    have hx : 0 < x.length := List.length_pos_iff.2 (hs x (by simp)).1
    split
    · rename_i h
      have : s = [] := by simpa using h
      subst this
      simp
    · simp only [List.length_append, List.length_cons] at ih ⊢
      omega

theorem mkdirs_append (m : MemFS) (a b : List Str) : m.mkdirs (a ++ b) =
    match m.mkdirs a with | (m, true) => m.mkdirs b | (m, false) => (m, false) := by
  induction a generalizing m with
  | nil => rfl
  | cons p a ih =>
    rw [List.cons_append, MemFS.mkdirs, MemFS.mkdirs]
    cases h : m.mkdir p with
    | mk m1 b1 =>
      cases b1
      · rfl
      · exact ih m1

/-- What `makedirs` has to make: the place and its ancestors up to one that exists. -/
def Missing (m : MemFS) (t u : List Str) : Prop := u <:+ t ∧ ∀ v, u <:+ v → v <:+ t → m.at v = none

theorem mkdir_at (hm : m.Ok) (t : List Str) (ht : Names t) :
    m.mkdir (absText t.reverse) = m.mkdirAt (absText t.tail.reverse) (absText t.reverse) := by
  have := mkdir_place hm (absText t.reverse) (noDouble_absText _ (fun c hc => ht c (List.mem_reverse.1 hc)))
  rw [place_absText m t ht] at this
  exact this

theorem suffix_cons_iff' {u : List Str} {x : Str} {s : List Str} : u <:+ x :: s ↔ u = x :: s ∨ u <:+ s := by
  constructor
  · rintro ⟨a, e⟩
    cases a with
    | nil => exact Or.inl e
    | cons y a =>
      injection e with _ e
      exact Or.inr ⟨a, e⟩
  · rintro (rfl | h)
    · exact List.suffix_refl _
    · exact h.trans (List.suffix_cons ..)

theorem not_suffix_self {x : Str} {s : List Str} : ¬ x :: s <:+ s := by
  intro h
  have := h.length_le
  simp at this
  omega

theorem mkdirs_spec (hm : m.Ok) : ∀ (s : List Str), Names s →
    let r := m.mkdirs ((missP m s).map fun t => absText t.reverse).reverse
    r.2 = true ∧ r.1.Ok ∧ r.1.wd = m.wd ∧
      (∀ u, Names u → (Missing m s u → r.1.at u = some .dir) ∧ (¬ Missing m s u → r.1.at u = m.at u))
  | [], hs => by
    dsimp only
    rw [missP]
    cases h : m.at [] with
    | some i =>
      refine ⟨rfl, hm, rfl, fun u hu => ⟨?_, fun _ => rfl⟩⟩
      rintro ⟨h1, h2⟩
      have : u = [] := List.suffix_nil.1 h1
      subst this
      have := h2 [] (List.suffix_refl _) (List.suffix_refl _)
      rw [h] at this; cases this
    | none =>
      simp only [Option.isSome_none, Bool.false_eq_true, if_false, List.map_cons, List.map_nil, List.reverse_singleton,
        MemFS.mkdirs]
      rw [mkdir_at hm [] hs]
      obtain ⟨h1, h2, h3, h4, h5⟩ := mkdirAt_spec hm [] hs
      have hr := h1.2 ⟨h, Or.inl rfl⟩
      generalize m.mkdirAt (absText ([] : List Str).tail.reverse) (absText ([] : List Str).reverse) = r at h1 h2 h3 h4 h5 hr
      obtain ⟨r1, r2⟩ := r
      dsimp only at h1 h2 h3 h4 h5 hr
      subst hr
      refine ⟨rfl, h4, h5, fun u hu => ?_⟩
      by_cases hu0 : u = []
      · subst hu0
        refine ⟨fun _ => by dsimp only; rw [h3]; simp [h], fun hn => absurd ?_ hn⟩
        refine ⟨List.suffix_refl _, fun v _ hv => ?_⟩
        rw [List.suffix_nil.1 hv]; exact h
      · refine ⟨fun hn => absurd (List.suffix_nil.1 hn.1) hu0, fun _ => ?_⟩
        dsimp only
        rw [h2 u hu hu0]; simp [hu0]
  | x :: s, hs => by
    have hs' : Names s := fun c hc => hs c (by simp [hc])
    dsimp only
    rw [missP]
    cases h : m.at (x :: s) with
    | some i =>
      refine ⟨rfl, hm, rfl, fun u hu => ⟨?_, fun _ => rfl⟩⟩
      rintro ⟨h1, h2⟩
      have := h2 _ h1 (List.suffix_refl _)
      rw [h] at this; cases this
    | none =>
      have ih := mkdirs_spec hm s hs'
      dsimp only at ih
      simp only [Option.isSome_none, Bool.false_eq_true, if_false, List.map_cons, List.reverse_cons]
      rw [mkdirs_append]
      generalize m.mkdirs ((missP m s).map fun t => absText t.reverse).reverse = q at ih
      obtain ⟨m1, b1⟩ := q
      dsimp only at ih
      obtain ⟨rfl, hok, hwd, hat⟩ := ih
      dsimp only [MemFS.mkdirs]
      rw [← List.reverse_cons, mkdir_at hok _ hs]
      obtain ⟨h1, h2, h3, h4, h5⟩ := mkdirAt_spec hok _ hs
      have hnm : ¬ Missing m s (x :: s) := fun hn => not_suffix_self hn.1
      have hx1 : m1.at (x :: s) = none := by rw [(hat _ hs).2 hnm, h]
      have hpar : (m1.at s).isSome = true := by
        cases hsm : m.at s with
        | some i =>
          rw [(hat s hs').2, hsm]; rfl
          intro hn
          have := hn.2 s (List.suffix_refl _) (List.suffix_refl _)
          rw [hsm] at this; cases this
        | none =>
          rw [(hat s hs').1]; rfl
          refine ⟨List.suffix_refl _, fun v h1 h2 => ?_⟩
          rw [← h1.eq_of_length_le h2.length_le]; exact hsm
      have hr := h1.2 ⟨hx1, Or.inr hpar⟩
      have hroot : ¬ ((x :: s).tail = [] ∧ m1.at [] = none) := by
        rintro ⟨e1, e2⟩
        rw [List.tail_cons] at e1
        subst e1
        rw [e2] at hpar; cases hpar
      rw [if_neg hroot] at h3
      generalize m1.mkdirAt (absText (x :: s).tail.reverse) (absText (x :: s).reverse) = r at h1 h2 h3 h4 h5 hr
      obtain ⟨r1, r2⟩ := r
      dsimp only at h1 h2 h3 h4 h5 hr
      subst hr
      dsimp only
      refine ⟨rfl, h4, h5.trans hwd, fun u hu => ?_⟩
      have hall : r1.at u = if u = x :: s then some .dir else m1.at u := by
        by_cases hu0 : u = []
        · subst hu0
          rw [h3, if_neg (by simp)]
        · rw [h2 u hu hu0]; simp
      rw [hall]
      by_cases hux : u = x :: s
      · subst hux
        rw [if_pos rfl]
        refine ⟨fun _ => rfl, fun hn => absurd ⟨List.suffix_refl _, fun v h1 h2 => ?_⟩ hn⟩
        rw [← h1.eq_of_length_le h2.length_le]; exact h
      · rw [if_neg hux]
        have hiff : Missing m (x :: s) u ↔ Missing m s u := by
          constructor
          · rintro ⟨a1, a2⟩
            refine ⟨(suffix_cons_iff'.1 a1).resolve_left hux, fun v h1 h2 => a2 v h1 (h2.trans (List.suffix_cons ..))⟩
          · rintro ⟨a1, a2⟩
            refine ⟨a1.trans (List.suffix_cons ..), fun v h1 h2 => ?_⟩
            rcases suffix_cons_iff'.1 h2 with rfl | h2
            · exact h
            · exact a2 v h1 h2
        rw [hiff]
        exact hat u hu

theorem makedirs_eq (hm : m.Ok) (p : Str) (hp : NoDouble p) (hn : m.at (m.place p) = none) :
    m.makedirs p = m.mkdirs ((missP m (m.place p)).map fun t => absText t.reverse).reverse := by
  have ht := place_names m p
  unfold MemFS.makedirs
  dsimp only
  rw [real_eq hm hp]
  generalize m.place p = t at ht hn
  have e1 : m.isDir (absText t.reverse) = false := by
    unfold MemFS.isDir
    rw [real_absText hm t ht, show dget m.items (absText t.reverse) = m.at t from rfl, hn]
    rfl
  have e2 : m.pathExists (absText t.reverse) = false := by rw [exists_at hm t ht, hn]; rfl
  rw [e1, e2]
  simp only [Bool.false_eq_true, if_false]
  cases t with
  | nil =>
    have r1 : split (absText ([] : List Str).reverse) = (absText ([] : List Str).reverse, []) := split_root
    rw [r1]
    dsimp only
    rw [if_pos rfl, r1]
    dsimp only
    rw [missing_eq hm [] ht _ (by simp)]
    cases hr : m.mkdirs ((missP m []).map fun t => absText t.reverse).reverse with
    | mk m1 b =>
      cases b
      · rfl
      · dsimp only
        rw [if_pos]
        rw [missP, hn]
        simp
  | cons x s =>
    rw [split_stack s x (ht x (by simp))]
    dsimp only
    rw [if_neg (ht x (by simp)).1, split_stack s x (ht x (by simp))]
    dsimp only
    have hs' : Names s := fun c hc => ht c (by simp [hc])
    rw [missing_eq hm s hs' _ (by have := length_absText s hs'; omega)]
    rw [show missP m (x :: s) = (x :: s) :: missP m s by rw [missP, hn]; rfl]
    rw [List.map_cons, List.reverse_cons (a := absText (x :: s).reverse), mkdirs_append]
    cases hr : m.mkdirs ((missP m s).map fun t => absText t.reverse).reverse with
    | mk m1 b =>
      cases b
      · rfl
      · dsimp only
        rw [if_neg, MemFS.mkdirs]
        · cases hk : m1.mkdir (absText (x :: s).reverse) with
          | mk m2 b2 => cases b2 <;> rfl
        · intro hmem
          rw [List.mem_reverse, List.mem_map] at hmem
          obtain ⟨u, hu, e⟩ := hmem
          have key : ∀ s : List Str, ∀ u ∈ missP m s, u <:+ s := by
            intro s
            induction s with
            | nil => intro u hu; rw [missP] at hu; split at hu <;> simp_all
            | cons y s ih =>
              intro u hu
              rw [missP] at hu
              split at hu
              · cases hu
              · rcases List.mem_cons.1 hu with rfl | hu
                · exact List.suffix_refl _
                · exact (ih u hu).trans (List.suffix_cons ..)
          have hus := key s u hu
          have hun : Names u := fun c hc => hs' c (hus.subset hc)
          have := (absText_eq_iff ht hun).1 e
          subst this
          exact not_suffix_self hus

/-- C105: `makedirs` does nothing when there is a directory at the place, fails when there is a file there, and
otherwise makes the place, and its ancestors up to one that exists, directories, and changes nothing else. -/
theorem C105_makedirs (hm : m.Ok) (p : Str) (hp : NoDouble p) :
    let t := m.place p
    let r := m.makedirs p
    (r.2 = true ↔ m.at t = none ∨ m.at t = some .dir) ∧ (m.at t ≠ none → r.1 = m) ∧
    (m.at t = none → r.1.at t = some .dir ∧ ∀ u, Names u →
      ((u <:+ t ∧ ∀ v, u <:+ v → v <:+ t → m.at v = none) → r.1.at u = some .dir) ∧
      (¬ (u <:+ t ∧ ∀ v, u <:+ v → v <:+ t → m.at v = none) → r.1.at u = m.at u)) := by
  dsimp only
  have ht := place_names m p
  cases hn : m.at (m.place p) with
  | none =>
    rw [makedirs_eq hm p hp hn]
    obtain ⟨h1, h2, h3, h4⟩ := mkdirs_spec hm _ ht
    refine ⟨by simp [h1], by simp, fun _ => ⟨(h4 _ ht).1 ⟨List.suffix_refl _, fun v a b => ?_⟩, h4⟩⟩
    rw [← a.eq_of_length_le b.length_le]; exact hn
  | some i =>
    have e1 : m.isDir (m.real p) = (i == .dir) := by
      unfold MemFS.isDir
      rw [real_eq hm hp, real_absText hm _ ht, show dget m.items (absText (m.place p).reverse) = _ from hn]
      rfl
    have e2 : m.pathExists (m.real p) = true := by
      rw [real_eq hm hp, exists_at hm _ ht, hn]; rfl
    unfold MemFS.makedirs
    dsimp only
    rw [e1, e2]
    cases i with
    | dir => simp
    | file d s => simp

/-! ### Histories -/

theorem absText_names_reverse {k : Str} {names : List Str} (hn : ∀ c ∈ names, IsName c) (hk : k = absText names) :
    ∃ t, Names t ∧ k = absText t.reverse := ⟨names.reverse, fun c hc => hn c (List.mem_reverse.1 hc), by simp [hk]⟩

theorem noDouble_names (t : List Str) (ht : Names t) : NoDouble (absText t.reverse) :=
  noDouble_absText _ (fun c hc => ht c (List.mem_reverse.1 hc))

theorem ok_new : MemFS.new.Ok where
  keys := fun e h => by cases h
  nodup := List.nodup_nil
  abs := rfl
  plain := noDouble_sep

theorem ok_file (hm : m.Ok) {c : Str} {i j : Item} (h : dget m.items c = some i) :
    MemFS.Ok { m with items := dset m.items c j } := by
  obtain ⟨names, hn, hk⟩ := hm.keys _ (dget_some_mem h)
  obtain ⟨t, ht, rfl⟩ := absText_names_reverse hn hk
  exact ok_set hm t ht j

/-- C105: after any operations the state is in good order. -/
theorem C105_ok (hm : m.Ok) (o : FsOp) (hp : NoDouble o.path) : (m.step o).Ok := by
  cases o with
  | chdir p =>
    have hp : NoDouble p := hp
    unfold MemFS.step MemFS.chdir
    by_cases ha : isAbs p = true
    · simp only [ha, if_true]
      exact ⟨hm.keys, hm.nodup, ha, hp⟩
    · simp only [ha, if_false, Bool.false_eq_true]
      have e : abspath m.wd p = absText (m.place p).reverse := by
        have := real_eq hm hp
        unfold MemFS.real realpath at this
        rw [if_neg ha] at this
        exact this
      rw [e]
      exact ⟨hm.keys, hm.nodup, rfl, noDouble_names _ (place_names m p)⟩
  | openPath p mode =>
    have hp : NoDouble p := hp
    unfold MemFS.step MemFS.openPath
    dsimp only
    rw [real_eq hm hp]
    have ht := place_names m p
    repeat' split
    all_goals first | exact hm | exact ok_set hm _ ht _
  | write c b =>
    unfold MemFS.step MemFS.write
    dsimp only
    repeat' split
    all_goals first | exact hm | (rename_i h _; exact ok_file hm h)
  | close c =>
    unfold MemFS.step MemFS.close
    dsimp only
    repeat' split
    all_goals first | exact hm | (rename_i h; exact ok_file hm h)
  | mkdir p =>
    have hp : NoDouble p := hp
    unfold MemFS.step
    dsimp only
    rw [mkdir_place hm p hp]
    exact (mkdirAt_spec hm _ (place_names m p)).2.2.2.1
  | remove p =>
    unfold MemFS.step MemFS.remove
    dsimp only
    repeat' split
    all_goals first | exact hm | exact ok_filter hm _
  | rmtree p i =>
    unfold MemFS.step MemFS.rmtree
    dsimp only
    repeat' split
    all_goals first | exact hm | exact ok_filter hm _
  | makedirs p =>
    have hp : NoDouble p := hp
    unfold MemFS.step
    dsimp only
    cases hn : m.at (m.place p) with
    | none => rw [makedirs_eq hm p hp hn]; exact (mkdirs_spec hm _ (place_names m p)).2.1
    | some i => rw [(C105_makedirs hm p hp).2.1 (by rw [hn]; simp)]; exact hm

theorem C105_history : ∀ (ops : List FsOp) (m : MemFS), m.Ok → (∀ o ∈ ops, NoDouble o.path) → (ops.foldl MemFS.step m).Ok
  | [], _, hm, _ => hm
  | o :: ops, m, hm, h => C105_history ops _ (C105_ok hm o (h o (by simp))) (fun o' ho => h o' (by simp [ho]))

/-! ### The tree -/

/-- Everything is in a directory. -/
def MemFS.Tree (m : MemFS) : Prop := ∀ x t, Names (x :: t) → (m.at (x :: t)).isSome = true → m.at t = some .dir

/-- There is a file at the place. -/
def MemFS.FileAt (m : MemFS) (t : List Str) : Prop := ∃ d s, m.at t = some (.file d s)

/-- Files are opened in directories, and directories are not made inside files. -/
def Careful (m : MemFS) : FsOp → Prop
  | .openPath p _ => m.place p ≠ [] ∧ m.at (m.place p).tail = some .dir
  | .mkdir p => ¬ m.FileAt (m.place p).tail
  | .makedirs p => ∀ v, v <:+ m.place p → ¬ m.FileAt v
  | _ => True

theorem names_cons_right {x : Str} {t : List Str} (h : Names (x :: t)) : Names t := fun c hc => h c (by simp [hc])

theorem isSome_not_file {t : List Str} (h : (m.at t).isSome = true) (hf : ¬ m.FileAt t) : m.at t = some .dir := by
  cases e : m.at t with
  | none => rw [e] at h; cases h
  | some i =>
    cases i with
    | dir => rfl
    | file d s => exact absurd ⟨d, s, e⟩ hf

/-- Replacing an item that is not a directory by another, or adding one in a directory, keeps the tree. -/
theorem tree_set (hm : m.Tree) (t : List Str) (ht : Names t) (v : Item) (w : Str) (hpar : ∀ x s, t = x :: s → m.at s = some .dir)
    (hself : m.at t ≠ some .dir ∨ v = .dir) : MemFS.Tree ⟨dset m.items (absText t.reverse) v, w⟩ := by
  intro x s hn h
  rw [at_set m t _ ht hn] at h
  rw [at_set m t _ ht (names_cons_right hn)]
  have hs : m.at s = some .dir := by
    by_cases e : x :: s = t
    · exact hpar x s e.symm
    · rw [if_neg e] at h; exact hm x s hn h
  by_cases e : s = t
  · rw [if_pos e]
    subst e
    rcases hself with h' | rfl
    · exact absurd hs h'
    · rfl
  · rw [if_neg e]; exact hs

theorem at_filter (hm : m.Ok) (q : Str × Item → Bool) (w : Str) (t : List Str) :
    MemFS.at ⟨m.items.filter q, w⟩ t = match m.at t with
      | some v => if q (absText t.reverse, v) then some v else none
      | none => none := dget_filter _ _ _ hm.nodup

theorem tree_file (hm : m.Ok) (ht : m.Tree) {c : Str} {d s} {j : Item} (h : dget m.items c = some (.file d s)) :
    MemFS.Tree { m with items := dset m.items c j } := by
  obtain ⟨names, hn, hk⟩ := hm.keys _ (dget_some_mem h)
  obtain ⟨t, htn, rfl⟩ := absText_names_reverse hn hk
  refine tree_set ht t htn j _ ?_ (Or.inl ?_)
  · rintro x s rfl
    exact ht x s htn (by rw [show m.at (x :: s) = _ from h]; rfl)
  · rw [show m.at t = _ from h]; simp

/-- C105: files and directories stay in directories, as long as files are opened in directories and directories are
not made inside files. -/
theorem C105_tree_step (hm : m.Ok) (ht : m.Tree) (o : FsOp) (hp : NoDouble o.path) (hc : Careful m o) : (m.step o).Tree := by
  cases o with
  | chdir p => exact ht
  | openPath p mode =>
    have hp : NoDouble p := hp
    obtain ⟨hne, hdir⟩ := hc
    have hn := place_names m p
    have hpar : ∀ x s, m.place p = x :: s → m.at s = some .dir := by
      intro x s e; rw [e] at hdir; exact hdir
    unfold MemFS.step MemFS.openPath
    dsimp only
    rw [real_eq hm hp, show dget m.items (absText (m.place p).reverse) = m.at (m.place p) from rfl]
    repeat' split
    all_goals first
      | exact ht
      | (rename_i h _ _ _ _; exact tree_set ht _ hn _ _ hpar (Or.inl (by rw [h]; simp)))
      | (rename_i h _ _; exact tree_set ht _ hn _ _ hpar (Or.inl (by rw [h]; simp)))
  | write c b =>
    unfold MemFS.step MemFS.write
    dsimp only
    repeat' split
    all_goals first | exact ht | (rename_i h _; exact tree_file hm ht h)
  | close c =>
    unfold MemFS.step MemFS.close
    dsimp only
    repeat' split
    all_goals first | exact ht | (rename_i h; exact tree_file hm ht h)
  | mkdir p =>
    have hp : NoDouble p := hp
    have hf : ¬ m.FileAt (m.place p).tail := hc
    have hn := place_names m p
    unfold MemFS.step
    dsimp only
    obtain ⟨h1, h2, h3⟩ := C105_mkdir hm p hp
    intro x s hx h
    have hxs : (m.at (x :: s)).isSome = true ∨ ((m.mkdir p).2 = true ∧ x :: s = m.place p) := by
      rw [h2 _ hx (by simp)] at h
      split at h
      · rename_i h'; exact Or.inr h'
      · exact Or.inl h
    have hnotnone : m.at s = some .dir → (m.mkdir p).1.at s = some .dir := by
      intro hs
      by_cases hs0 : s = []
      · subst hs0; rw [h3, hs]; simp
      · rw [h2 s (names_cons_right hx) hs0, hs]; simp
    rcases hxs with h' | ⟨ho, e⟩
    · exact hnotnone (ht x s hx h')
    · have hpl := h1.1 ho
      rw [← e, List.tail_cons] at hpl hf
      by_cases hs : (m.at s).isSome = true
      · exact hnotnone (isSome_not_file hs hf)
      · have hs0 : s = [] := hpl.2.resolve_right hs
        subst hs0
        rw [h3, if_pos]
        refine ⟨by rw [← e]; rfl, ?_⟩
        cases hz : m.at [] with
        | none => rfl
        | some => rw [hz] at hs; simp at hs
  | remove p =>
    have hp : NoDouble p := hp
    unfold MemFS.step
    dsimp only
    obtain ⟨h1, h2⟩ := C105_remove hm p hp
    intro x s hx h
    rw [h2 _ hx] at h
    split at h
    · cases h
    · have hs := ht x s hx h
      rw [h2 s (names_cons_right hx)]
      rw [if_neg, hs]
      rintro ⟨ho, e⟩
      obtain ⟨_, d, hd⟩ := h1.1 ho
      rw [← e, hs] at hd
      cases hd
  | rmtree p ig =>
    have hp : NoDouble p := hp
    have hn := place_names m p
    unfold MemFS.step MemFS.rmtree
    dsimp only
    rw [real_eq hm hp]
    generalize m.place p = t at hn
    split
    case isFalse => exact ht
    rename_i hd
    have hd : m.at t = some .dir := hd
    split
    · exact ht
    · dsimp only
      generalize hop : (List.any _ _ : Bool) = op
      intro x s hx h
      rw [at_filter hm] at h
      rw [at_filter hm]
      cases hxs : m.at (x :: s) with
      | none => rw [hxs] at h; cases h
      | some i =>
        rw [hxs] at h
        have hs := ht x s hx (by rw [hxs]; rfl)
        rw [hs]
        dsimp only at h ⊢
        have hns := names_cons_right hx
        by_cases hpre : (dirPrefix (absText t.reverse)).isPrefixOf (absText s.reverse) = true
        · have hpre2 : (dirPrefix (absText t.reverse)).isPrefixOf (absText (x :: s).reverse) = true := by
            rw [prefix_iff t _ hn hx]
            rcases (prefix_iff t s hn hns).1 hpre with rfl | ⟨a, ha, e⟩
            · exact Or.inl rfl
            · exact Or.inr ⟨x :: a, by simp, by rw [e]; rfl⟩
          rw [hpre]
          rw [hpre2] at h
          cases op with
          | true => rfl
          | false =>
            exfalso
            have hopen : i.isOpen = false := by
              rw [List.any_eq_false] at hop
              have := hop (absText (x :: s).reverse, i) (List.mem_filter.2 ⟨dget_some_mem hxs, hpre2⟩)
              simpa using this
            cases i with
            | dir => simp at h
            | file d st => simp [hopen] at h
        · rw [Bool.eq_false_iff.2 hpre]; rfl
  | makedirs p =>
    have hp : NoDouble p := hp
    have hf : ∀ v, v <:+ m.place p → ¬ m.FileAt v := hc
    have hn := place_names m p
    unfold MemFS.step
    dsimp only
    obtain ⟨h1, h2, h3⟩ := C105_makedirs hm p hp
    cases hnone : m.at (m.place p) with
    | some i => rw [h2 (by rw [hnone]; simp)]; exact ht
    | none =>
      obtain ⟨_, h3⟩ := h3 hnone
      intro x s hx h
      have hns := names_cons_right hx
      by_cases hms : s <:+ m.place p ∧ ∀ v, s <:+ v → v <:+ m.place p → m.at v = none
      · exact (h3 s hns).1 hms
      · rw [(h3 s hns).2 hms]
        by_cases hmx : x :: s <:+ m.place p ∧ ∀ v, x :: s <:+ v → v <:+ m.place p → m.at v = none
        · -- the parent is not missing: it exists
          have hsp : s <:+ m.place p := (List.suffix_cons x s).trans hmx.1
          have : (m.at s).isSome = true := by
            cases e : m.at s with
            | some => rfl
            | none =>
              exfalso
              apply hms
              refine ⟨hsp, fun v h1 h2 => ?_⟩
              rcases List.suffix_or_suffix_of_suffix h2 hmx.1 with h | h
              · rcases suffix_cons_iff'.1 h with rfl | h
                · exact hmx.2 _ (List.suffix_refl _) h2
                · rw [← h1.eq_of_length_le h.length_le]; exact e
              · exact hmx.2 v h h2
          exact isSome_not_file this (hf s hsp)
        · rw [(h3 _ hx).2 hmx] at h
          exact ht x s hx h
/-- Every operation of a history is careful in the state it is applied to. -/
def CarefulAll : MemFS → List FsOp → Prop
  | _, [] => True
  | m, o :: ops => NoDouble o.path ∧ Careful m o ∧ CarefulAll (m.step o) ops

/-- C105: from an empty file system everything stays in a directory, in all histories in which files are opened in
directories and directories are not made inside files.  (What is missing: the code does not refuse the others.) -/
theorem C105_tree_partial (ops : List FsOp) (h : CarefulAll MemFS.new ops) : (ops.foldl MemFS.step MemFS.new).Tree := by
  have key : ∀ (ops : List FsOp) (m : MemFS), m.Ok → m.Tree → CarefulAll m ops → (ops.foldl MemFS.step m).Tree := by
    intro ops
    induction ops with
    | nil => intro m _ ht _; exact ht
    | cons o ops ih =>
      intro m hm ht hc
      exact ih _ (C105_ok hm o hc.1) (C105_tree_step hm ht o hc.1 hc.2.1) hc.2.2
  refine key ops _ ok_new ?_ h
  intro x t _ hs
  cases hs

/-- C105 is violated by `mkdir`: it makes a directory inside a file. -/
theorem C105_violation_mkdir :
    let m := ((MemFS.new.mkdir [47]).1.openPath [47, 97] (.w false)).1.mkdir [47, 97, 47, 98]
    m.2 = true ∧ m.1.isFile [47, 97] = true ∧ m.1.isDir [47, 97, 47, 98] = true := by decide +kernel

/-- A history: `/a` and `/a/b` are made, a file `f` is opened there by a relative path, written and closed. -/
def demoOps : List FsOp :=
  [.makedirs [47, 97, 47, 98], .chdir [47, 97], .openPath [98, 47, 102] (.w false), .write [47, 97, 47, 98, 47, 102] [1, 2],
   .close [47, 97, 47, 98, 47, 102]]

example : (demoOps.foldl MemFS.step MemFS.new).at [[102], [98], [97]] = some (.file [1, 2] none) := by decide +kernel

theorem noDouble_check (p : Str) (h : (List.zip p p.tail).contains (47, 47) = false) : NoDouble p := by
  intro a b e
  subst e
  have : (47, 47) ∈ List.zip (a ++ 47 :: 47 :: b) (a ++ 47 :: 47 :: b).tail := by
    induction a with
    | nil => simp
    | cons x a ih =>
      cases a with
      | nil => simp
      | cons y a =>
        simp only [List.cons_append, List.tail_cons, List.zip_cons_cons, List.contains_cons] at h ih ⊢
        have h' := (Bool.or_eq_false_iff.1 h).2
        exact List.mem_cons_of_mem _ (ih h')
  rw [← List.contains_iff_mem, h] at this
  cases this

example : CarefulAll MemFS.new demoOps := by
  refine ⟨noDouble_check _ (by decide), ?_, noDouble_check _ (by decide), trivial, noDouble_check _ (by decide), ⟨by decide +kernel, by decide +kernel⟩,
    noDouble_check _ (by decide), trivial, noDouble_check _ (by decide), trivial, trivial⟩
  intro v _
  rintro ⟨d, s, h⟩
  cases h

example : (MemFS.new.step (.makedirs [47, 97])).Ok := C105_ok ok_new _ (noDouble_check _ (by decide))

end Verif.Vfs

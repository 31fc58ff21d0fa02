import Verif.Vfs.MemProps
/-!
# C105: theorems about the file system in memory
-/
namespace Verif.Vfs

variable {m : MemFS}

/-- Canonical names. -/
abbrev Names (t : List Str) : Prop := ∀ c ∈ t, IsName c

theorem names_nil : Names [] := fun _ h => nomatch h

theorem names_tail {t : List Str} (h : Names t) : Names t.tail := fun c hc => h c (List.mem_of_mem_tail hc)

theorem absText_eq_iff {t u : List Str} (ht : Names t) (hu : Names u) : absText u.reverse = absText t.reverse ↔ u = t := by
  constructor
  · intro h
    have := absText_inj (fun c hc => hu c (List.mem_reverse.1 hc)) (fun c hc => ht c (List.mem_reverse.1 hc)) h
    simpa using congrArg List.reverse this
  · rintro rfl; rfl

theorem split_place {t : List Str} (ht : Names t) (hne : t ≠ []) :
    split (absText t.reverse) = (absText t.tail.reverse, t.head hne) := by
  cases t with
  | nil => exact absurd rfl hne
  | cons x t => exact split_stack t x (ht x (by simp))

/-! ### Tests -/

/-- C105: `exists`, `isdir` and `isfile` tell what is at the place a path leads to. -/
theorem C105_tests (hm : m.Ok) (p : Str) (hp : NoDouble p) :
    m.pathExists p = (m.at (m.place p)).isSome ∧
    (m.isDir p = true ↔ m.at (m.place p) = some .dir) ∧
    (m.isFile p = true ↔ isDirlike p = false ∧ ∃ d s, m.at (m.place p) = some (.file d s)) := by
  refine ⟨?_, ?_, ?_⟩
  · unfold MemFS.pathExists; rw [at_real hm hp]
  · unfold MemFS.isDir; rw [at_real hm hp, beq_iff_eq]
  · unfold MemFS.isFile
    rw [at_real hm hp]
    cases h : isDirlike p with
    | true => simp
    | false =>
      cases h2 : m.at (m.place p) with
      | none => simp
      | some i => cases i <;> simp

/-! ### mkdir -/

/-- `mkdir` of a place. -/
theorem mkdirAt_spec (hm : m.Ok) (t : List Str) (ht : Names t) :
    let r := m.mkdirAt (absText t.tail.reverse) (absText t.reverse)
    (r.2 = true ↔ m.at t = none ∧ (t.tail = [] ∨ (m.at t.tail).isSome = true)) ∧
    (∀ u, Names u → u ≠ [] → r.1.at u = if r.2 = true ∧ u = t then some .dir else m.at u) ∧
    (r.1.at [] = if t.tail = [] ∧ m.at [] = none then some .dir else m.at []) ∧ r.1.Ok ∧ r.1.wd = m.wd := by
  have hroot : isRoot (absText t.tail.reverse) = true ↔ t.tail = [] := by
    rw [isRoot_absText _ (fun c hc => names_tail ht c (List.mem_reverse.1 hc))]
    simp
  have hct : absText t.reverse = absText t.tail.reverse ↔ t = t.tail := absText_eq_iff (names_tail ht) ht
  have hnil : t = t.tail ↔ t = [] := by
    cases t with
    | nil => simp
    | cons x t =>
      simp only [List.tail_cons, reduceCtorEq, iff_false]
      intro e
      have := congrArg List.length e
      simp at this
  unfold MemFS.mkdirAt
  dsimp only
  have e1 : dget m.items (absText t.tail.reverse) = m.at t.tail := rfl
  have e2 : dget m.items (absText t.reverse) = m.at t := rfl
  rw [e1]
  cases hp : m.at t.tail with
  | some i =>
    simp only [Option.isNone_some, Bool.false_eq_true, if_false, e2]
    cases h : m.at t with
    | some j =>
      simp only [Option.isSome_some, if_true]
      refine ⟨by simp, by simp, ?_, hm, trivial⟩
      have : ¬ (t.tail = [] ∧ m.at [] = none) := by
        rintro ⟨h1, h2⟩; rw [h1, h2] at hp; cases hp
      rw [if_neg this]
    | none =>
      simp only [Option.isSome_none, Bool.false_eq_true, if_false]
      refine ⟨by simp, ?_, ?_, ok_set hm t ht _, trivial⟩
      · intro u hu hne
        rw [at_set m t u ht hu]
        simp
      · rw [at_set m t [] ht (by simp)]
        have h3 : ¬ (t.tail = [] ∧ m.at [] = none) := by
          rintro ⟨h1, h2⟩; rw [h1, h2] at hp; cases hp
        rw [if_neg h3, if_neg]
        rintro rfl
        rw [List.tail_nil, h] at hp
        cases hp
  | none =>
    simp only [Option.isNone_none, if_true]
    by_cases ht0 : t.tail = []
    · rw [if_pos (hroot.2 ht0)]
      rw [ht0]
      have hm' := ok_set hm [] (by simp) .dir
      have ha' : ∀ u, Names u → MemFS.at ⟨dset m.items (absText ([] : List Str).reverse) .dir, m.wd⟩ u =
          if u = [] then some .dir else m.at u := fun u hu => at_set m [] u (by simp) hu .dir m.wd
      have hr : m.at [] = none := by rw [ht0] at hp; exact hp
      by_cases htn : t = []
      · subst htn
        rw [if_pos rfl]
        refine ⟨by simp [hr], ?_, ?_, hm', rfl⟩
        · intro u hu hne
          rw [ha' u hu, if_neg hne, if_neg]
          exact fun h => hne h.2
        · rw [ha' [] names_nil, if_pos rfl]; simp [hr]
      · have hc : ¬ absText t.reverse = absText ([] : List Str).reverse := by
          rw [absText_eq_iff names_nil ht]; exact htn
        rw [if_neg hc]
        have e3 : dget (dset m.items (absText ([] : List Str).reverse) .dir) (absText t.reverse) = m.at t := by
          have := ha' t ht
          rw [if_neg htn] at this
          exact this
        rw [e3]
        cases h : m.at t with
        | some j =>
          simp only [Option.isSome_some, if_true]
          refine ⟨by simp, ?_, ?_, hm', trivial⟩
          · intro u hu hne
            rw [ha' u hu, if_neg hne]; simp
          · rw [ha' [] names_nil, if_pos rfl]; simp [hr]
        | none =>
          simp only [Option.isSome_none, Bool.false_eq_true, if_false]
          refine ⟨by simp, ?_, ?_, ok_set hm' t ht _, trivial⟩
          · intro u hu hne
            rw [at_set ⟨dset m.items (absText ([] : List Str).reverse) .dir, m.wd⟩ t u ht hu, ha' u hu]
            rw [if_neg hne]; simp
          · rw [at_set ⟨dset m.items (absText ([] : List Str).reverse) .dir, m.wd⟩ t [] ht (by simp), ha' [] names_nil,
              if_neg (fun e => htn e.symm), if_pos rfl]; simp [hr]
    · rw [if_neg (fun h => ht0 (hroot.1 h))]
      refine ⟨by simp [ht0], by simp, by simp [ht0], hm, rfl⟩

theorem mkdir_place (hm : m.Ok) (p : Str) (hp : NoDouble p) :
    m.mkdir p = m.mkdirAt (absText (m.place p).tail.reverse) (absText (m.place p).reverse) := by
  unfold MemFS.mkdir
  dsimp only
  rw [real_eq hm hp]
  have hn := place_names m p
  cases h : m.place p with
  | nil =>
    have e : absText ([] : List Str).reverse = absText [] := rfl
    rw [e, split_root]
    simp only [List.tail_nil, if_true, split_root, List.reverse_nil]
  | cons x t =>
    rw [h] at hn
    rw [split_stack t x (hn x (by simp))]
    dsimp only
    rw [if_neg (hn x (by simp)).1]
    rfl

/-- C105: `mkdir` succeeds exactly when there is nothing at the place and something at its parent (the root is made
when it is missing); it makes a directory there and changes nothing else. -/
theorem C105_mkdir (hm : m.Ok) (p : Str) (hp : NoDouble p) :
    let t := m.place p
    let r := m.mkdir p
    (r.2 = true ↔ m.at t = none ∧ (t.tail = [] ∨ (m.at t.tail).isSome = true)) ∧
    (∀ u, Names u → u ≠ [] → r.1.at u = if r.2 = true ∧ u = t then some .dir else m.at u) ∧
    (r.1.at [] = if t.tail = [] ∧ m.at [] = none then some .dir else m.at []) := by
  have h := mkdirAt_spec hm (m.place p) (place_names m p)
  rw [← mkdir_place hm p hp] at h
  exact ⟨h.1, h.2.1, h.2.2.1⟩

/-! ### listdir -/

theorem dirPrefix_eq (t : List Str) (ht : Names t) :
    dirPrefix (absText t.reverse) = if t = [] then [47] else absText t.reverse ++ [47] := by
  unfold dirPrefix
  have := isRoot_absText t.reverse (fun c hc => ht c (List.mem_reverse.1 hc))
  rw [List.reverse_eq_nil_iff] at this
  by_cases h : t = []
  · subst h
    rw [if_pos rfl, if_pos (this.2 rfl)]; rfl
  · rw [if_neg h, if_neg (fun e => h (this.1 e))]

/-- The paths with the prefix of a directory are those of what is inside (and, for the root, the root). -/
theorem prefix_iff (t u : List Str) (ht : Names t) (hu : Names u) :
    (dirPrefix (absText t.reverse)).isPrefixOf (absText u.reverse) = true ↔
      t = [] ∨ ∃ s, s ≠ [] ∧ u = s ++ t := by
  rw [dirPrefix_eq t ht, List.isPrefixOf_iff_prefix]
  by_cases h : t = []
  · subst h
    rw [if_pos rfl]
    simp only [true_or, iff_true]
    exact ⟨joinSep u.reverse, rfl⟩
  · rw [if_neg h]
    simp only [h, false_or]
    have hur : ∀ c ∈ u.reverse, IsName c := fun c hc => hu c (List.mem_reverse.1 hc)
    have htr : ∀ c ∈ t.reverse, IsName c := fun c hc => ht c (List.mem_reverse.1 hc)
    have htr0 : t.reverse ≠ [] := by simpa using h
    constructor
    · rintro ⟨r, e⟩
      rw [List.append_assoc] at e
      have hc := congrArg comps e
      rw [show absText t.reverse ++ ([47] ++ r) = absText t.reverse ++ 47 :: r from rfl, comps_append_sep,
        comps_absText _ hur, comps_absText _ htr, if_neg htr0] at hc
      by_cases hu0 : u.reverse = []
      · rw [if_pos hu0] at hc
        exfalso
        have : t.reverse ++ comps r = [[]] := by simpa using hc
        cases htt : t.reverse with
        | nil => exact htr0 htt
        | cons a l =>
          rw [htt] at this
          have := (List.cons.inj this).1
          exact (htr a (by rw [htt]; simp)).1 this
      · rw [if_neg hu0] at hc
        have hc' : t.reverse ++ comps r = u.reverse := by simpa using hc
        refine ⟨(comps r).reverse, by simpa using comps_ne r, ?_⟩
        have := congrArg List.reverse hc'
        simpa using this.symm
    · rintro ⟨s, hs, rfl⟩
      rw [List.reverse_append]
      have : ∀ l : List Str, l ≠ [] → joinSep (t.reverse ++ l) = joinSep t.reverse ++ 47 :: joinSep l := by
        intro l hl
        clear hu hur
        generalize t.reverse = b at htr0
        induction b with
        | nil => exact absurd rfl htr0
        | cons a b ih =>
          cases b with
          | nil =>
            cases l with
            | nil => exact absurd rfl hl
            | cons c l => rfl
          | cons a' b =>
            have := ih (by simp)
            simp only [List.cons_append] at this ⊢
            rw [joinSep, this, joinSep]
            simp
      refine ⟨joinSep s.reverse, ?_⟩
      unfold absText
      rw [this s.reverse (by simpa using hs)]
      simp

/-- C105: `listdir` gives, each once, the names of what is directly inside a directory, and fails for anything else. -/
theorem C105_listdir (hm : m.Ok) (p : Str) (hp : NoDouble p) :
    ((m.listdir p).isSome = true ↔ m.at (m.place p) = some .dir) ∧
    ∀ l, m.listdir p = some l → l.Nodup ∧
      ∀ x, x ∈ l ↔ IsName x ∧ (m.at (x :: m.place p)).isSome = true := by
  unfold MemFS.listdir
  dsimp only
  rw [at_real hm hp, real_eq hm hp]
  have ht := place_names m p
  generalize m.place p = t at ht
  refine ⟨by split <;> simp_all, ?_⟩
  intro l hl
  split at hl
  case isFalse => cases hl
  simp only [Option.some.injEq] at hl
  subst hl
  have key : ∀ e ∈ m.items, ∀ x,
      (if (dirPrefix (absText t.reverse)).isPrefixOf e.1 = true then
        if (split e.1).1 = absText t.reverse ∧ (split e.1).2 ≠ [] ∧ 47 ∉ (split e.1).2 then some (split e.1).2 else none
        else none) = some x ↔ IsName x ∧ e.1 = absText (x :: t).reverse := by
    intro e he x
    obtain ⟨names, hn, hk⟩ := hm.keys e he
    obtain ⟨u, rfl⟩ : ∃ u, names = List.reverse u := ⟨names.reverse, by simp⟩
    have hu : Names u := fun c hc => hn c (List.mem_reverse.2 hc)
    rw [hk]
    constructor
    · intro h
      split at h
      case isFalse => cases h
      split at h
      case isFalse => cases h
      rename_i h2
      simp only [Option.some.injEq] at h
      cases u with
      | nil =>
        exfalso
        exact h2.2.1 (by show (split (absText [])).2 = []; rw [split_root])
      | cons y u =>
        rw [split_stack u y (hu y (by simp))] at h h2
        simp only at h h2
        subst h
        have := (absText_eq_iff ht (fun c hc => hu c (by simp [hc]))).1 h2.1
        subst this
        exact ⟨hu y (by simp), rfl⟩
    · rintro ⟨hx, e'⟩
      have hut : u = x :: t := by
        refine (absText_eq_iff ?_ hu).1 e'
        intro c hc
        rcases List.mem_cons.1 hc with rfl | hc
        · exact hx
        · exact ht c hc
      subst hut
      rw [if_pos ((prefix_iff t (x :: t) ht hu).2 (Or.inr ⟨[x], by simp, rfl⟩)), split_stack t x hx]
      rw [if_pos]
      exact ⟨rfl, hx.1, hx.2.2.2⟩
  constructor
  · -- different keys give different names
    have hnd := hm.nodup
    revert key
    generalize m.items = d at hnd
    induction d with
    | nil => intro _; simp
    | cons e d ih =>
      intro key
      rw [List.map_cons, List.nodup_cons] at hnd
      have ih := ih hnd.2 (fun e' he' => key e' (by simp [he']))
      rw [List.filterMap_cons]
      split
      · exact ih
      · rename_i x hx
        rw [List.nodup_cons]
        refine ⟨?_, ih⟩
        intro hmem
        obtain ⟨e', he', hx'⟩ := List.mem_filterMap.1 hmem
        have k1 := (key e (by simp) x).1 hx
        have k2 := (key e' (by simp [he']) x).1 hx'
        exact hnd.1 (List.mem_map.2 ⟨e', he', k2.2.trans k1.2.symm⟩)
  · intro x
    rw [List.mem_filterMap]
    constructor
    · rintro ⟨e, he, hx⟩
      have k := (key e he x).1 hx
      refine ⟨k.1, ?_⟩
      unfold MemFS.at
      rw [← k.2, mem_dget hm.nodup he]; rfl
    · rintro ⟨hx, hs⟩
      obtain ⟨v, hv⟩ := Option.isSome_iff_exists.1 hs
      have hmem := dget_some_mem (show dget m.items (absText (x :: t).reverse) = some v from hv)
      exact ⟨_, hmem, (key _ hmem x).2 ⟨hx, rfl⟩⟩

/-! ### remove and rmtree -/

/-- C105: `remove` succeeds exactly for a file that is not open, which it removes and nothing else. -/
theorem C105_remove (hm : m.Ok) (p : Str) (hp : NoDouble p) :
    ((m.remove p).2 = true ↔ isDirlike p = false ∧ ∃ d, m.at (m.place p) = some (.file d none)) ∧
    ∀ u, Names u → (m.remove p).1.at u = if (m.remove p).2 = true ∧ u = m.place p then none else m.at u := by
  have hf := (C105_tests hm p hp).2.2
  unfold MemFS.remove
  rw [at_real hm hp, real_eq hm hp]
  have ht := place_names m p
  by_cases h : m.isFile p = true
  · rw [if_pos h]
    obtain ⟨h1, d, s, h2⟩ := hf.1 h
    rw [h2]
    cases s with
    | some s => simp
    | none =>
      refine ⟨by simp [h1], ?_⟩
      intro u hu
      unfold MemFS.at
      rw [dget_ddel _ _ _ hm.nodup]
      by_cases hut : u = m.place p
      · simp [hut]
      · rw [if_neg (fun e => hut ((absText_eq_iff ht hu).1 e))]
        simp [hut]
  · rw [if_neg h]
    refine ⟨?_, by simp⟩
    simp only [Bool.false_eq_true, false_iff]
    rintro ⟨h1, d, h2⟩
    exact h (hf.2 ⟨h1, d, none, h2⟩)

/-- There is an open file inside a directory. -/
def MemFS.OpenInside (m : MemFS) (t : List Str) : Prop :=
  ∃ s d st, s ≠ [] ∧ Names (s ++ t) ∧ m.at (s ++ t) = some (.file d (some st))

/-- C105: `rmtree` fails, and changes nothing, when the path is not that of a directory or a file inside is open.
Otherwise all that is inside is removed, the rest stays. -/
theorem C105_rmtree_partial (hm : m.Ok) (p : Str) (hp : NoDouble p) :
    let t := m.place p
    let r := m.rmtree p false
    (r.2 = true ↔ m.at t = some .dir ∧ ¬ m.OpenInside t) ∧
    (r.2 = false → r.1 = m) ∧
    (r.2 = true → ∀ u, Names u → u ≠ t →
      ((∃ s, s ≠ [] ∧ u = s ++ t) → r.1.at u = none) ∧ (¬ (∃ s, s ≠ [] ∧ u = s ++ t) → r.1.at u = m.at u)) := by
  unfold MemFS.rmtree
  dsimp only
  rw [at_real hm hp, real_eq hm hp]
  have ht := place_names m p
  generalize m.place p = t at ht
  by_cases hd : m.at t = some .dir
  case neg => rw [if_neg hd]; simp [hd]
  rw [if_pos hd]
  have hopen : ((m.items.filter fun e => (dirPrefix (absText t.reverse)).isPrefixOf e.1).any fun e => e.2.isOpen) = true ↔
      m.OpenInside t := by
    rw [List.any_eq_true]
    constructor
    · rintro ⟨e, he, ho⟩
      obtain ⟨h1, h2⟩ := List.mem_filter.1 he
      obtain ⟨names, hn, hk⟩ := hm.keys e h1
      obtain ⟨u, rfl⟩ : ∃ u, names = List.reverse u := ⟨names.reverse, by simp⟩
      have hu : Names u := fun c hc => hn c (List.mem_reverse.2 hc)
      rw [hk] at h2
      have hat : m.at u = some e.2 := by unfold MemFS.at; rw [← hk, mem_dget hm.nodup h1]
      have hfile : ∃ d st, e.2 = .file d (some st) := by
        cases hi : e.2 with
        | dir => rw [hi] at ho; simp [Item.isOpen] at ho
        | file d s =>
          cases s with
          | none => rw [hi] at ho; simp [Item.isOpen] at ho
          | some s => exact ⟨d, s, rfl⟩
      obtain ⟨d, st, hi⟩ := hfile
      rw [hi] at hat
      rcases (prefix_iff t u ht hu).1 h2 with rfl | ⟨s, hs, rfl⟩
      · refine ⟨u, d, st, ?_, by simpa using hu, by simpa using hat⟩
        rintro rfl
        rw [hd] at hat
        cases hat
      · exact ⟨s, d, st, hs, hu, hat⟩
    · rintro ⟨s, d, st, hs, hn, hat⟩
      have hmem := dget_some_mem (show dget m.items (absText (s ++ t).reverse) = _ from hat)
      exact ⟨_, List.mem_filter.2 ⟨hmem, (prefix_iff t (s ++ t) ht hn).2 (Or.inr ⟨s, hs, rfl⟩)⟩, rfl⟩
  by_cases ho : m.OpenInside t
  · have := hopen.2 ho
    rw [this]
    simp [ho]
  · have hof : ((m.items.filter fun e => (dirPrefix (absText t.reverse)).isPrefixOf e.1).any fun e => e.2.isOpen) = false := by
      rw [Bool.eq_false_iff]; exact fun h => ho (hopen.1 h)
    rw [hof]
    simp only [Bool.not_false, Bool.and_true, Bool.false_eq_true, if_false]
    refine ⟨by simp [hd, ho], by simp, ?_⟩
    intro _ u hu hut
    have hat : dget m.items (absText u.reverse) = m.at u := rfl
    rw [show ∀ d w, MemFS.at ⟨d, w⟩ u = dget d (absText u.reverse) from fun _ _ => rfl, dget_filter _ _ _ hm.nodup, hat]
    cases hg : m.at u with
    | none => simp
    | some i =>
      dsimp only
      constructor
      · intro hin
        have hpre := (prefix_iff t u ht hu).2 (Or.inr hin)
        rw [hpre]
        cases i with
        | dir => simp
        | file d s =>
          cases s with
          | none => simp [Item.isOpen]
          | some st =>
            exfalso
            obtain ⟨s, hs, rfl⟩ := hin
            exact ho ⟨s, d, st, hs, hu, hg⟩
      · intro hin
        have hpre : (dirPrefix (absText t.reverse)).isPrefixOf (absText u.reverse) = false := by
          rw [Bool.eq_false_iff]
          intro h
          rcases (prefix_iff t u ht hu).1 h with rfl | h
          · exact hin ⟨u, hut, by simp⟩
          · exact hin h
        rw [hpre]
        simp

/-- C105 is violated by `rmtree`: the directory itself stays. -/
theorem C105_violation_rmtree :
    let m := ((MemFS.new.mkdir [47, 97]).1.rmtree [47, 97] false)
    m.2 = true ∧ m.1.isDir [47, 97] = true := by decide +kernel

/-! ### Files -/

theorem fileOpen_none (data : List Nat) (mode : Mode) :
    fileOpen data none mode = some (match mode with
      | .r plus => (data, ⟨data, 0, true, plus⟩)
      | .w plus => ([], ⟨[], 0, plus, true⟩)
      | .a plus => (data, ⟨data, data.length, plus, true⟩)) := by
  cases mode <;> rfl

/-- C105: a file can be opened exactly when its path is not that of a directory and it is not open; opening it for
writing empties it, and opening it to append places the stream at its end.  A file that does not exist is made (even
for reading).  Nothing else changes. -/
theorem C105_open (hm : m.Ok) (p : Str) (hp : NoDouble p) (mode : Mode) :
    let t := m.place p
    let r := m.openPath p mode
    (r.2 = true ↔ p ≠ [] ∧ isDirlike p = false ∧ m.at t ≠ some .dir ∧ ∀ d s, m.at t ≠ some (.file d (some s))) ∧
    (r.2 = true → ∀ old, (m.at t = some (.file old none) ∨ m.at t = none ∧ old = []) →
      r.1.at t = some (match mode with
        | .r plus => .file old (some ⟨old, 0, true, plus⟩)
        | .w plus => .file [] (some ⟨[], 0, plus, true⟩)
        | .a plus => .file old (some ⟨old, old.length, plus, true⟩))) ∧
    ∀ u, Names u → u ≠ t ∨ r.2 = false → r.1.at u = m.at u := by
  unfold MemFS.openPath
  dsimp only
  rw [at_real hm hp, real_eq hm hp]
  have ht := place_names m p
  generalize m.place p = t at ht
  by_cases h0 : p = [] ∨ isDirlike p = true
  · rw [if_pos h0]
    refine ⟨?_, by simp, by simp⟩
    simp only [Bool.false_eq_true, false_iff]
    rintro ⟨h1, h2, _⟩
    rcases h0 with h | h
    · exact h1 h
    · rw [h2] at h; cases h
  · rw [if_neg h0]
    have hp1 : p ≠ [] := fun e => h0 (Or.inl e)
    have hp2 : isDirlike p = false := by
      rw [Bool.eq_false_iff]; exact fun e => h0 (Or.inr e)
    cases hat : m.at t with
    | none =>
      rw [fileOpen_none]
      dsimp only
      refine ⟨by simp [hp1, hp2], ?_, ?_⟩
      · intro _ old ho
        have : old = [] := by
          rcases ho with h | h
          · cases h
          · exact h.2
        subst this
        rw [at_set m t t ht ht, if_pos rfl]
        cases mode <;> rfl
      · intro u hu h
        rw [at_set m t u ht hu, if_neg]
        rcases h with h | h
        · exact h
        · simp at h
    | some i =>
      cases i with
      | dir => simp
      | file data s =>
        cases s with
        | some st => simp [fileOpen]
        | none =>
          simp only [fileOpen_none]
          skip
          refine ⟨by simp [hp1, hp2], ?_, ?_⟩
          · intro _ old ho
            have : old = data := by
              rcases ho with h | h
              · injection h with h; injection h with h; exact h.symm
              · cases h.1
            subst this
            rw [at_set m t t ht ht, if_pos rfl]
            cases mode <;> rfl
          · intro u hu h
            rw [at_set m t u ht hu, if_neg]
            rcases h with h | h
            · exact h
            · simp at h

theorem write_at (m : MemFS) (t : List Str) (ht : Names t) (bytes : List Nat) (u : List Str) (hu : Names u) :
    (m.write (absText t.reverse) bytes).at u =
      if u = t then (match m.at t with
        | some (.file d (some s)) => if s.writable then some (.file d (some { s with buf := writeAt s.buf s.pos bytes, pos := s.pos + bytes.length })) else m.at t
        | o => o)
      else m.at u := by
  unfold MemFS.write
  rw [show dget m.items (absText t.reverse) = m.at t from rfl]
  cases h : m.at t with
  | none => by_cases hut : u = t <;> simp [hut, h]
  | some i =>
    cases i with
    | dir => by_cases hut : u = t <;> simp [hut, h]
    | file d s =>
      cases s with
      | none => by_cases hut : u = t <;> simp [hut, h]
      | some s =>
        dsimp only
        split
        · rw [at_set m t u ht hu]
        · by_cases hut : u = t <;> simp [hut, h]

theorem close_at (m : MemFS) (t : List Str) (ht : Names t) (u : List Str) (hu : Names u) :
    (m.close (absText t.reverse)).at u =
      if u = t then (match m.at t with
        | some (.file _ (some s)) => some (.file s.buf none)
        | o => o)
      else m.at u := by
  unfold MemFS.close
  rw [show dget m.items (absText t.reverse) = m.at t from rfl]
  cases h : m.at t with
  | none => by_cases hut : u = t <;> simp [hut, h]
  | some i =>
    cases i with
    | dir => by_cases hut : u = t <;> simp [hut, h]
    | file d s =>
      cases s with
      | none => by_cases hut : u = t <;> simp [hut, h]
      | some s =>
        dsimp only
        rw [at_set m t u ht hu]

/-- Several writes through the stream of a file. -/
def MemFS.writes (m : MemFS) (c : Str) (bs : List (List Nat)) : MemFS := bs.foldl (fun m b => m.write c b) m

theorem writeAt_end (buf bytes : List Nat) : writeAt buf buf.length bytes = buf ++ bytes := by
  unfold writeAt
  simp

theorem writes_end (t : List Str) (ht : Names t) : ∀ (bs : List (List Nat)) (m : MemFS) (d buf : List Nat) (rd : Bool),
    m.at t = some (.file d (some ⟨buf, buf.length, rd, true⟩)) →
    (m.writes (absText t.reverse) bs).at t = some (.file d (some ⟨buf ++ bs.flatten, (buf ++ bs.flatten).length, rd, true⟩)) ∧
    ∀ u, Names u → u ≠ t → (m.writes (absText t.reverse) bs).at u = m.at u
  | [], m, d, buf, rd, h => by
    refine ⟨?_, fun _ _ _ => rfl⟩
    rw [List.flatten_nil, List.append_nil]
    exact h
  | b :: bs, m, d, buf, rd, h => by
    have h1 := write_at m t ht b t ht
    rw [if_pos rfl, h] at h1
    simp only [if_true] at h1
    rw [writeAt_end, ← List.length_append] at h1
    obtain ⟨i1, i2⟩ := writes_end t ht bs (m.write (absText t.reverse) b) d (buf ++ b) rd h1
    refine ⟨?_, fun u hu hut => ?_⟩
    · rw [List.flatten_cons, ← List.append_assoc]; exact i1
    · have := i2 u hu hut
      rw [show m.writes (absText t.reverse) (b :: bs) = (m.write (absText t.reverse) b).writes (absText t.reverse) bs from rfl, this,
        write_at m t ht b u hu, if_neg hut]

/-- C105: what is written to a file is what it holds once it is closed: the bytes written, in order, when it is
opened for writing, after the bytes that it held when it is opened to append; other files keep their contents.
Reading it then gives these bytes. -/
theorem C105_write (hm : m.Ok) (p : Str) (hp : NoDouble p) (append plus : Bool) (bs : List (List Nat)) (old : List Nat)
    (hold : m.at (m.place p) = some (.file old none) ∨ m.at (m.place p) = none ∧ old = [])
    (ho : (m.openPath p (if append then .a plus else .w plus)).2 = true) :
    let t := m.place p
    let m' := ((m.openPath p (if append then .a plus else .w plus)).1.writes (absText t.reverse) bs).close (absText t.reverse)
    m'.at t = some (.file ((if append then old else []) ++ bs.flatten) none) ∧
    ∀ u, Names u → u ≠ t → m'.at u = m.at u := by
  have ht := place_names m p
  obtain ⟨_, h2, h3⟩ := C105_open hm p hp (if append then .a plus else .w plus)
  have h2 := h2 ho old hold
  generalize (m.openPath p (if append then .a plus else .w plus)).1 = m1 at h2 h3
  generalize ht' : m.place p = t at ht h2 h3
  dsimp only
  have hopen : m1.at t = some (.file (if append then old else []) (some ⟨if append then old else [], (if append then old else []).length, plus, true⟩)) := by
    rw [h2]; cases append <;> rfl
  obtain ⟨w1, w2⟩ := writes_end t ht bs m1 _ _ _ hopen
  refine ⟨?_, fun u hu hut => ?_⟩
  · rw [close_at _ t ht t ht, if_pos rfl, w1]
  · rw [close_at _ t ht u hu, if_neg hut, w2 u hu hut, h3 u hu (Or.inl hut)]

theorem writeAt_over (pre old bytes : List Nat) :
    writeAt (pre ++ old.drop pre.length) pre.length bytes = pre ++ bytes ++ old.drop (pre ++ bytes).length := by
  unfold writeAt
  have h : pre.length - (pre ++ old.drop pre.length).length = 0 := by simp
  rw [h, List.replicate_zero, List.append_nil, List.take_left']
  · rw [List.drop_append, List.length_append, List.drop_eq_nil_of_le (by omega), List.nil_append, List.drop_drop]
    congr 2
    omega
  · rfl

theorem writes_over (t : List Str) (ht : Names t) (old : List Nat) : ∀ (bs : List (List Nat)) (m : MemFS) (d pre : List Nat) (rd : Bool),
    m.at t = some (.file d (some ⟨pre ++ old.drop pre.length, pre.length, rd, true⟩)) →
    (m.writes (absText t.reverse) bs).at t = some (.file d (some ⟨pre ++ bs.flatten ++ old.drop (pre ++ bs.flatten).length,
      (pre ++ bs.flatten).length, rd, true⟩)) ∧
    ∀ u, Names u → u ≠ t → (m.writes (absText t.reverse) bs).at u = m.at u
  | [], m, d, pre, rd, h => by
    refine ⟨?_, fun _ _ _ => rfl⟩
    rw [List.flatten_nil, List.append_nil]
    exact h
  | b :: bs, m, d, pre, rd, h => by
    have h1 := write_at m t ht b t ht
    rw [if_pos rfl, h] at h1
    simp only [if_true] at h1
    rw [writeAt_over, ← List.length_append] at h1
    obtain ⟨i1, i2⟩ := writes_over t ht old bs (m.write (absText t.reverse) b) d (pre ++ b) rd h1
    refine ⟨?_, fun u hu hut => ?_⟩
    · rw [List.flatten_cons, ← List.append_assoc]; exact i1
    · have := i2 u hu hut
      rw [show m.writes (absText t.reverse) (b :: bs) = (m.write (absText t.reverse) b).writes (absText t.reverse) bs from rfl, this,
        write_at m t ht b u hu, if_neg hut]

/-- C105: a file opened for reading and writing is overwritten from its beginning: the bytes written replace as many
of its bytes and the others stay. -/
theorem C105_update (hm : m.Ok) (p : Str) (hp : NoDouble p) (bs : List (List Nat)) (old : List Nat)
    (hold : m.at (m.place p) = some (.file old none)) (ho : (m.openPath p (.r true)).2 = true) :
    let t := m.place p
    let m' := ((m.openPath p (.r true)).1.writes (absText t.reverse) bs).close (absText t.reverse)
    m'.at t = some (.file (bs.flatten ++ old.drop bs.flatten.length) none) ∧
    ∀ u, Names u → u ≠ t → m'.at u = m.at u := by
  have ht := place_names m p
  obtain ⟨_, h2, h3⟩ := C105_open hm p hp (.r true)
  have h2 := h2 ho old (Or.inl hold)
  generalize (m.openPath p (.r true)).1 = m1 at h2 h3
  generalize ht' : m.place p = t at ht h2 h3
  dsimp only
  obtain ⟨w1, w2⟩ := writes_over t ht old bs m1 old [] true (by rw [h2]; rfl)
  refine ⟨?_, fun u hu hut => ?_⟩
  · rw [close_at _ t ht t ht, if_pos rfl, w1]; rfl
  · rw [close_at _ t ht u hu, if_neg hut, w2 u hu hut, h3 u hu (Or.inl hut)]

/-- C105: reading a file gives its contents. -/
theorem C105_read (hm : m.Ok) (p : Str) (hp : NoDouble p) (plus : Bool) (data : List Nat)
    (hd : m.at (m.place p) = some (.file data none)) (ho : (m.openPath p (.r plus)).2 = true) :
    (m.openPath p (.r plus)).1.readAll (m.real p) = some data := by
  obtain ⟨_, h2, _⟩ := C105_open hm p hp (.r plus)
  have h2 := h2 ho data (Or.inl hd)
  unfold MemFS.readAll
  rw [real_eq hm hp]
  rw [show dget (m.openPath p (.r plus)).1.items (absText (m.place p).reverse) = _ from h2]
  simp

/-- C105 is violated by opening for reading a file that does not exist, in a directory that does not exist: it is
made. -/
theorem C105_violation_open :
    let m := (MemFS.new.openPath [47, 97, 47, 98] (.r false)).1
    m.isFile [47, 97, 47, 98] = true ∧ m.pathExists [47, 97] = false := by decide +kernel

end Verif.Vfs

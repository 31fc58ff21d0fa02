import Verif.Vfs.Norm
/-!
# C104: theorems about virtual file paths
-/
namespace Verif.Vfs

/-! ### normpath -/

theorem absComps_false {p : Str} (h : isAbs p = false) : absComps (comps p) = false := by
  have := isAbs_joinSep (comps_ne p) (comps_nosep p)
  rw [joinSep_comps] at this
  rw [← this, h]

theorem absComps_true {p : Str} (h : isAbs p = true) : absComps (comps p) = true := by
  have := isAbs_joinSep (comps_ne p) (comps_nosep p)
  rw [joinSep_comps] at this
  rw [← this, h]

theorem comps_head_rel {p : Str} (hp : p ≠ []) (h : isAbs p = false) : (comps p).head? ≠ some [] := by
  intro e
  cases p with
  | nil => exact hp rfl
  | cons x r =>
    rw [comps] at e
    by_cases hx : x = 47
    · subst hx; simp [isAbs] at h
    · rw [if_neg hx] at e
      split at e <;> simp at e

theorem relForm_nosep {l : List Str} (h : RelForm l) : ∀ c ∈ l, 47 ∉ c := by
  obtain ⟨s, k, names, hn, rfl⟩ := h
  intro c hc
  rcases List.mem_append.1 hc with hc | hc
  · rcases List.mem_append.1 hc with hc | hc
    · cases s
      · simp at hc
      · simp at hc; subst hc; exact dot_nosep
    · rw [List.eq_of_mem_replicate hc]; decide
  · exact (hn c hc).2.2.2

theorem isName_ne_nil {c : Str} (h : IsName c) : c ≠ [] := h.1

/-- The normal form of a relative path, from the components left by the loop. -/
theorem rel_normFix {l : List Str} (hl : RelForm l) (hne : l ≠ []) :
    ∃ up names, (∀ c ∈ names, IsName c) ∧ joinSep (normFix l) = relText up names ∧
      ∀ d, walk d l = names.reverse ++ d.drop up := by
  obtain ⟨s, k, names, hn, rfl⟩ := hl
  refine ⟨k, names, hn, ?_, ?_⟩
  · cases s
    · simp only [Bool.false_eq_true, if_false, List.nil_append] at hne ⊢
      have hfix : normFix (List.replicate k dotdot ++ names) = List.replicate k dotdot ++ names := by
        have hnd : ∀ c ∈ List.replicate k dotdot ++ names, c ≠ [] ∧ c ≠ dot := by
          intro c hc
          rcases List.mem_append.1 hc with h | h
          · rw [List.eq_of_mem_replicate h]; exact ⟨by decide, by decide⟩
          · exact ⟨(hn c h).1, (hn c h).2.1⟩
        revert hnd
        generalize List.replicate k dotdot ++ names = l
        intro hnd
        match l with
        | [] => rfl
        | [a] => simp [normFix, (hnd a (by simp)).1]
        | a :: b :: r => simp [normFix, (hnd a (by simp)).2]
      rw [hfix]
      unfold relText
      rw [if_neg]
      · rfl
      · rintro ⟨rfl, rfl⟩; exact hne rfl
    · simp only [if_true, List.cons_append, List.nil_append]
      unfold relText
      cases hr : List.replicate k dotdot ++ names with
      | nil =>
        obtain ⟨h1, h2⟩ := List.append_eq_nil_iff.1 hr
        have hk : k = 0 := by simpa [List.replicate_eq_nil_iff] using h1
        rw [if_pos ⟨hk, h2⟩]; rfl
      | cons a r =>
        rw [if_neg]
        · rw [show (List.replicate k [46, 46] ++ names : List Str) = a :: r from hr]; rfl
        · rintro ⟨rfl, rfl⟩; simp at hr
  · intro d
    rw [walk_append, walk_append, walk_names _ _ hn, walk_up]
    cases s <;> simp [walk_nil, walk_cons, go_dot]

theorem resolve_rel {p : Str} (h : isAbs p = false) (d : List Str) : resolve d p = walk d (comps p) := by
  rw [resolve_eq, absComps_false h]; rfl

theorem resolve_abs {p : Str} (h : isAbs p = true) (d : List Str) : resolve d p = walk [] (comps p) := by
  rw [resolve_eq, absComps_true h]; rfl

/-- C104: the normal form of a relative path: some `..`, then names, and it leads where the path leads. -/
theorem C104_norm_rel (p : Str) (h : isAbs p = false) :
    ∃ up names, (∀ c ∈ names, IsName c) ∧ normpath p = relText up names ∧
      ∀ d, resolve d p = names.reverse ++ d.drop up := by
  by_cases hp : p = []
  · subst hp
    exact ⟨0, [], by simp, by simp [normpath, relText, dot], fun d => by simp [resolve, comps, isAbs, go]⟩
  · have hl := normLoop_rel [] (comps p) ⟨false, 0, [], by simp, by simp⟩ (comps_nosep p)
      (fun _ => comps_head_rel hp h)
    obtain ⟨up, names, hn, e, w⟩ := rel_normFix hl.1 (hl.2.2 (Or.inr (comps_ne p)))
    refine ⟨up, names, hn, ?_, fun d => ?_⟩
    · unfold normpath; rw [if_neg hp, e]
    · rw [resolve_rel h, ← w d, hl.2.1 d]; rfl

theorem isAbs_relText (up : Nat) (names : List Str) (hn : ∀ c ∈ names, IsName c) : isAbs (relText up names) = false := by
  unfold relText
  split
  · rfl
  · rename_i h
    cases up with
    | succ k =>
      rw [List.replicate_succ]
      cases hk : List.replicate k [46, 46] ++ names with
      | nil => rw [List.cons_append, hk]; rfl
      | cons a r => rw [List.cons_append, hk]; rfl
    | zero =>
      cases names with
      | nil => exact absurd ⟨rfl, rfl⟩ h
      | cons a r =>
        have ha := hn a (by simp)
        cases a with
        | nil => exact absurd rfl ha.1
        | cons x a =>
          have hx : x ≠ 47 := fun e => ha.2.2.2 (by simp [e])
          cases r with
          | nil => simp [joinSep, isAbs, hx]
          | cons b r => simp [joinSep, isAbs, hx]

/-- A relative path in normal form leads where it says. -/
theorem resolve_relText (up : Nat) (names : List Str) (hn : ∀ c ∈ names, IsName c) (d : List Str) :
    resolve d (relText up names) = names.reverse ++ d.drop up := by
  rw [resolve_rel (isAbs_relText up names hn)]
  unfold relText
  split
  · rename_i h
    obtain ⟨rfl, rfl⟩ := h
    simp [comps, walk, go]
  · rename_i h
    have hs : ∀ c ∈ List.replicate up [46, 46] ++ names, 47 ∉ c := by
      intro c hc
      rcases List.mem_append.1 hc with h | h
      · rw [List.eq_of_mem_replicate h]; decide
      · exact (hn c h).2.2.2
    rw [comps_joinSep _ _ hs]
    · rw [walk_append, walk_names _ _ hn]
      congr 1
      exact walk_up d up
    · intro e
      obtain ⟨h1, h2⟩ := List.append_eq_nil_iff.1 e
      exact h ⟨by simpa [List.replicate_eq_nil_iff] using h1, h2⟩

theorem isAbs_absText (names : List Str) : isAbs (absText names) = true := rfl

theorem resolve_absText (names : List Str) (hn : ∀ c ∈ names, IsName c) (d : List Str) :
    resolve d (absText names) = names.reverse := by
  rw [resolve_abs (isAbs_absText names)]
  unfold absText
  rw [comps, if_pos rfl, walk_cons, go_nil]
  cases names with
  | nil => rfl
  | cons a r =>
    rw [comps_joinSep _ (by simp) (fun c hc => (hn c hc).2.2.2), walk_names _ _ hn, List.append_nil]

/-- What `normpath` makes of an absolute path. -/
theorem normpath_abs (p : Str) (h : isAbs p = true) :
    (∃ names, (∀ c ∈ names, IsName c) ∧ normpath p = absText names ∧ names.reverse = resolve [] p) ∨
    (∃ r, normpath p = 47 :: 47 :: joinSep r ∧ r ≠ [] ∧ (∀ c ∈ r, 47 ∉ c) ∧ walk [] r = resolve [] p ∧
      ¬ NoGap ((comps p).drop 1)) := by
  have hp : p ≠ [] := by rintro rfl; simp [isAbs] at h
  obtain ⟨l, hl, hc⟩ := (isAbs_comps p).1 h
  have hs : ∀ c ∈ l, 47 ∉ c := fun c hc' => comps_nosep p c (by rw [hc]; simp [hc'])
  have key := normLoop_abs [[]] l ⟨[], by simp, rfl⟩ hs
  have hw : walk [] (normLoop [[]] l) = resolve [] p := by
    rw [key.2.1, resolve_abs h, hc]; rfl
  have e0 : normpath p = joinSep (normFix (normLoop [[]] l)) := by
    unfold normpath
    rw [if_neg hp, hc, nl_empty0]
  rcases key.2.2 with ⟨names, hn, e⟩ | ⟨r, e, hg⟩
  · left
    refine ⟨names, hn, ?_, ?_⟩
    · rw [e0, e]
      cases names with
      | nil => rfl
      | cons a r => simp [normFix, joinSep, absText, dot]
    · rw [← hw, e, walk_cons, go_nil, walk_names _ _ hn, List.append_nil]
  · have hr : ∀ c ∈ r, 47 ∉ c := by
      obtain ⟨⟨r', e', hs'⟩, _⟩ := key
      rw [e] at e'
      have := (List.cons.inj e').2
      subst this
      exact fun c hc => hs' c (by simp [hc])
    have hw' : walk [] r = resolve [] p := by
      rw [← hw, e, walk_cons, go_nil, walk_cons, go_nil]
    cases r with
    | nil =>
      left
      exact ⟨[], by simp, by rw [e0, e]; rfl, hw'⟩
    | cons a r =>
      right
      refine ⟨a :: r, ?_, by simp, hr, hw', ?_⟩
      · rw [e0, e]
        simp [normFix, joinSep, dot]
      · rw [hc]
        intro hng
        exact absurd (hg hng) (by simp)

theorem isAbs_normpath (p : Str) : isAbs (normpath p) = isAbs p := by
  cases h : isAbs p with
  | false =>
    obtain ⟨up, names, hn, e, _⟩ := C104_norm_rel p h
    rw [e, isAbs_relText up names hn]
  | true =>
    rcases normpath_abs p h with ⟨names, _, e, _⟩ | ⟨r, e, _⟩
    · rw [e]; rfl
    · rw [e]; rfl

/-- C104: the normal form leads where the path leads, from every directory. -/
theorem C104_norm_meaning (d : List Str) (p : Str) : resolve d (normpath p) = resolve d p := by
  cases h : isAbs p with
  | false =>
    obtain ⟨up, names, hn, e, w⟩ := C104_norm_rel p h
    rw [e, resolve_relText up names hn, w]
  | true =>
    rw [resolve_abs h]
    rcases normpath_abs p h with ⟨names, hn, e, w⟩ | ⟨r, e, hr, hs, w, _⟩
    · rw [e, resolve_absText names hn, w, resolve_abs h]
    · rw [e, resolve_abs rfl, comps, if_pos rfl, comps, if_pos rfl, walk_cons, go_nil, walk_cons, go_nil,
        comps_joinSep r hr hs, w, resolve_abs h]

/-- No two separators one after the other. -/
def NoDouble (p : Str) : Prop := ∀ a b, p ≠ a ++ 47 :: 47 :: b

theorem noGap_comps (p : Str) (h : NoDouble p) : NoGap ((comps p).drop 1) := by
  induction p with
  | nil => trivial
  | cons x r ih =>
    have hr : NoDouble r := fun a b e => h (x :: a) b (by rw [e]; rfl)
    rw [comps]
    split
    · rename_i hx; subst hx
      show NoGap (comps r)
      cases hc : comps r with
      | nil => trivial
      | cons a l =>
        cases l with
        | nil => trivial
        | cons b l =>
          refine ⟨?_, by have := ih hr; rw [hc] at this; exact this⟩
          rintro rfl
          have : isAbs r = true := (isAbs_comps r).2 ⟨b :: l, by simp, hc⟩
          cases r with
          | nil => simp [isAbs] at this
          | cons y r =>
            simp [isAbs] at this
            exact h [] r (by simp [this])
    · split
      · rename_i a l he
        have := ih hr
        rw [he] at this
        exact this
      · trivial

/-- C104: the normal form of an absolute path without double separators is made of the names on the way to where it
leads. -/
theorem C104_norm_abs_partial (p : Str) (h : isAbs p = true) (hd : NoDouble p) :
    normpath p = absText (resolve [] p).reverse := by
  rcases normpath_abs p h with ⟨names, hn, e, w⟩ | ⟨r, e, hr, hs, w, hg⟩
  · rw [e, ← w, List.reverse_reverse]
  · exact absurd (noGap_comps p hd) hg

/-- C104 is violated for double separators: `/a/..//b`, which leads to `b` in the root, becomes `//b`. -/
theorem C104_violation_double :
    normpath [47, 97, 47, 46, 46, 47, 47, 98] = [47, 47, 98] ∧ normpath [47, 98] = [47, 98] ∧
    resolve [] [47, 97, 47, 46, 46, 47, 47, 98] = resolve [] [47, 98] := by decide +kernel

theorem relText_inj {u v : Nat} {a b : List Str} (ha : ∀ c ∈ a, IsName c) (hb : ∀ c ∈ b, IsName c)
    (h : ∀ d : List Str, a.reverse ++ d.drop u = b.reverse ++ d.drop v) : u = v ∧ a = b := by
  -- from a deep directory of names longer than all those in `a` and `b`
  have hlen : ∀ n, a.length + (n - u) = b.length + (n - v) := by
    intro n
    have := congrArg List.length (h (List.replicate n []))
    simpa using this
  have hd := h (List.replicate (u + v) [])
  rw [List.drop_replicate, List.drop_replicate] at hd
  have aux : ∀ (x y : List Str) (m n : Nat), (∀ c ∈ x, c ≠ []) → (∀ c ∈ y, c ≠ []) →
      x ++ List.replicate m [] = y ++ List.replicate n [] → x = y := by
    intro x
    induction x with
    | nil =>
      intro y m n _ hy e
      cases y with
      | nil => rfl
      | cons c y =>
        cases m with
        | zero => simp at e
        | succ m =>
          rw [List.replicate_succ] at e
          simp only [List.nil_append, List.cons_append, List.cons.injEq] at e
          exact absurd e.1.symm (hy c (by simp))
    | cons c x ih =>
      intro y m n hx hy e
      cases y with
      | nil =>
        cases n with
        | zero => simp at e
        | succ n =>
          rw [List.replicate_succ] at e
          simp only [List.nil_append, List.cons_append, List.cons.injEq] at e
          exact absurd e.1 (hx c (by simp))
      | cons c' y =>
        simp only [List.cons_append, List.cons.injEq] at e
        rw [e.1, ih y m n (fun z hz => hx z (by simp [hz])) (fun z hz => hy z (by simp [hz])) e.2]
  have hab : a.reverse = b.reverse := aux _ _ _ _ (fun c hc => (ha c (List.mem_reverse.1 hc)).1)
    (fun c hc => (hb c (List.mem_reverse.1 hc)).1) hd
  have hab' : a = b := by simpa using congrArg List.reverse hab
  refine ⟨?_, hab'⟩
  have := hlen (u + v)
  rw [hab'] at this
  omega

/-- C104: two relative paths have the same normal form exactly when they lead to the same place from every
directory. -/
theorem C104_norm_unique (p q : Str) (hp : isAbs p = false) (hq : isAbs q = false) :
    normpath p = normpath q ↔ ∀ d, resolve d p = resolve d q := by
  constructor
  · intro h d
    rw [← C104_norm_meaning d p, h, C104_norm_meaning]
  · intro h
    obtain ⟨u, a, ha, e1, w1⟩ := C104_norm_rel p hp
    obtain ⟨v, b, hb, e2, w2⟩ := C104_norm_rel q hq
    obtain ⟨rfl, rfl⟩ := relText_inj ha hb (fun d => by rw [← w1, ← w2, h])
    rw [e1, e2]

/-- C104: `normpath` leaves a path in normal form as it is. -/
theorem C104_norm_idem (p : Str) : normpath (normpath p) = normpath p := by
  cases h : isAbs p with
  | false =>
    have h2 : isAbs (normpath p) = false := (isAbs_normpath p).trans h
    exact (C104_norm_unique _ _ h2 h).2 (fun d => C104_norm_meaning d p)
  | true =>
    rcases normpath_abs p h with ⟨names, hn, e, w⟩ | ⟨r, e, hr, hs, w, _⟩
    · rw [e]
      have h2 : isAbs (absText names) = true := rfl
      have hd : NoDouble (absText names) := by
        intro a b hab
        have hc := congrArg comps hab
        rw [absText, comps, if_pos rfl] at hc
        have hmem : ∀ a : Str, [] ∈ ((comps (a ++ 47 :: 47 :: b)).drop 1).dropLast := by
          intro a
          rw [comps_append_sep, comps, if_pos rfl]
          cases hca : comps a with
          | nil => exact absurd hca (comps_ne a)
          | cons x y =>
            rw [List.cons_append, List.drop_one, List.tail_cons, List.dropLast_append_of_ne_nil (by simp)]
            apply List.mem_append_right
            cases hb : comps b with
            | nil => exact absurd hb (comps_ne b)
            | cons x y => simp
        have := hmem a
        rw [← hc, List.drop_one, List.tail_cons] at this
        cases names with
        | nil => simp [joinSep, comps] at this
        | cons x r =>
          rw [comps_joinSep _ (by simp) (fun c hc => (hn c hc).2.2.2)] at this
          exact (hn [] (List.dropLast_subset _ this)).1 rfl
      rw [C104_norm_abs_partial _ h2 hd, resolve_absText names hn, List.reverse_reverse]
    · rw [e]
      unfold normpath
      rw [if_neg (by simp), comps, if_pos rfl, comps, if_pos rfl, nl_empty0, nl_break, comps_joinSep r hr hs]
      cases r with
      | nil => exact absurd rfl hr
      | cons a r => simp [normFix, joinSep, dot]

example : isAbs [97, 47, 46, 46, 47, 46, 46, 47, 98] = false ∧ normpath [97, 47, 46, 46, 47, 46, 46, 47, 98] = [46, 46, 47, 98] ∧
    normpath [47, 97, 47, 98, 47, 46, 46, 47, 46, 47, 99, 47] = [47, 97, 47, 99] := by decide +kernel

/-! ### join -/

theorem resolve_append_sep (d : List Str) (p q : Str) (hp : p ≠ []) (hq : isAbs q = false) :
    resolve d (p ++ 47 :: q) = resolve (resolve d p) q := by
  rw [resolve_rel hq]
  unfold resolve
  rw [comps_append_sep, List.foldl_append]
  have : isAbs (p ++ 47 :: q) = isAbs p := by cases p with
    | nil => exact absurd rfl hp
    | cons => rfl
  rw [this]; rfl

theorem endsSep_split {p : Str} (h : endsSep p = true) : ∃ a, p = a ++ [47] := by
  unfold endsSep at h
  rw [beq_iff_eq, List.getLast?_eq_some_iff] at h
  exact h

theorem resolve_snoc_sep (d : List Str) (p : Str) (hp : p ≠ []) : resolve d (p ++ [47]) = resolve d p := by
  rw [resolve_append_sep d p [] hp rfl]
  simp [resolve, comps, isAbs, go]

theorem resolve_root (d : List Str) : resolve d [47] = [] := by simp [resolve, comps, isAbs, go]

theorem resolve_append_ends (d : List Str) (p q : Str) (hp : endsSep p = true) (hq : isAbs q = false) :
    resolve d (p ++ q) = resolve (resolve d p) q := by
  obtain ⟨a, rfl⟩ := endsSep_split hp
  rw [List.append_assoc]
  show resolve d (a ++ 47 :: q) = _
  by_cases ha : a = []
  · subst ha
    rw [List.nil_append, List.nil_append, resolve_root, resolve_rel hq, resolve_abs rfl, comps, if_pos rfl, walk_cons,
      go_nil]
  · rw [resolve_append_sep d a q ha hq, resolve_snoc_sep d a ha]

theorem isAbs_nil_resolve (d : List Str) : resolve d [] = d := by simp [resolve, comps, isAbs, go]

theorem joinLoop_resolve (d : List Str) : ∀ (qs : List Str) (acc : Str) (s : Bool),
    (acc = [] → s = false) → (acc ≠ [] → s = false → endsSep acc = true) →
    resolve d (joinLoop acc s qs) = qs.foldl resolve (resolve d acc)
  | [], acc, s, _, _ => rfl
  | q :: qs, acc, s, h1, h2 => by
    rw [List.foldl_cons, joinLoop]
    have hsep : resolve d (if s then acc ++ [47] else acc) = resolve d acc := by
      cases s with
      | false => rfl
      | true =>
        have : acc ≠ [] := fun e => by simpa using h1 e
        exact resolve_snoc_sep d acc this
    have hends : (if s then acc ++ [47] else acc) ≠ [] → endsSep (if s then acc ++ [47] else acc) = true := by
      cases s with
      | false => intro h; exact h2 h rfl
      | true => intro _; simp [endsSep]
    split
    · rename_i hq; subst hq
      rw [joinLoop_resolve d qs _ false (fun _ => rfl) (fun h _ => hends h), hsep, isAbs_nil_resolve]
    · rename_i hq
      split
      · rename_i ha
        rw [joinLoop_resolve d qs q _ (fun e => absurd e hq) (fun _ h => by simpa using h)]
        congr 1
        rw [resolve_abs ha, resolve_abs ha]
      · rename_i ha
        have ha' : isAbs q = false := by simpa using ha
        rw [joinLoop_resolve d qs _ _ (fun e => absurd (List.append_eq_nil_iff.1 e).2 hq) (fun _ h => by
          have hq' : endsSep q = true := by simpa using h
          obtain ⟨a, rfl⟩ := endsSep_split hq'
          simp [endsSep])]
        congr 1
        by_cases he : (if s then acc ++ [47] else acc) = []
        · have hacc : acc = [] := by
            cases s <;> simp at he
            exact he
          rw [he, List.nil_append, hacc, isAbs_nil_resolve]
        · rw [resolve_append_ends d _ q (hends he) ha', hsep]

/-- C104: joining paths follows them one after the other. -/
theorem C104_join (d : List Str) (p : Str) (qs : List Str) :
    resolve d (join p qs) = (p :: qs).foldl resolve d := by
  unfold join
  split
  · rename_i h; subst h
    rw [joinLoop_resolve d qs [] false (fun _ => rfl) (fun h => absurd rfl h), List.foldl_cons]
  · rename_i h
    rw [joinLoop_resolve d qs p _ (fun e => absurd e h) (fun _ h => by simpa using h), List.foldl_cons]

/-- C104: making a path of several parts, the first of which is not empty, follows them one after the other. -/
theorem C104_parts_partial (d : List Str) (p : Str) (hp : p ≠ []) (qs : List Str) :
    resolve d (mkPath (p :: qs)) = (p :: qs).foldl resolve d := by
  rw [mkPath, List.foldl_cons]
  induction qs generalizing p with
  | nil => rfl
  | cons q qs ih =>
    rw [List.foldl_cons, List.foldl_cons]
    by_cases ha : isAbs q = true
    · rw [if_pos ha]
      rw [ih q (by rintro rfl; simp [isAbs] at ha)]
      congr 1
      rw [resolve_abs ha, resolve_abs ha]
    · rw [if_neg ha]
      have ha' : isAbs q = false := by simpa using ha
      split
      · rename_i he
        rw [ih _ (by simp [hp]), resolve_append_ends d p q he ha']
      · rw [ih _ (by simp [hp]), resolve_append_sep d p q hp ha']

/-- C104 is violated when the first part is empty: `MemFilePath('', 'b')` is `/b`, not `b`. -/
theorem C104_violation_parts :
    mkPath [[], [98]] = [47, 98] ∧ join [] [[98]] = [98] := by decide +kernel

/-- C104: `abspath` leads where the path leads from the current directory. -/
theorem C104_abspath (cwd p : Str) (hc : isAbs cwd = true) (d : List Str) :
    resolve d (abspath cwd p) = resolve (resolve [] cwd) p ∧
    resolve d (realpath cwd p) = resolve (resolve [] cwd) p := by
  have h : ∀ d, resolve d cwd = resolve [] cwd := fun d => by rw [resolve_abs hc, resolve_abs hc]
  constructor
  · unfold abspath
    rw [C104_norm_meaning, C104_join]
    show resolve (resolve d cwd) p = _
    rw [h d]
  · unfold realpath
    rw [C104_norm_meaning]
    split
    · rename_i ha; rw [resolve_abs ha, resolve_abs ha]
    · rw [C104_join]
      show resolve (resolve d cwd) p = _
      rw [h d]

/-! ### split -/

theorem rsplit_some {c : Nat} {p a b : Str} (h : rsplit c p = some (a, b)) : p = a ++ c :: b ∧ c ∉ b := by
  induction p generalizing a with
  | nil => simp [rsplit] at h
  | cons x r ih =>
    rw [rsplit] at h
    cases hr : rsplit c r with
    | some q =>
      obtain ⟨a', b'⟩ := q
      rw [hr] at h
      simp only [Option.some.injEq, Prod.mk.injEq] at h
      obtain ⟨h1, h2⟩ := h
      obtain ⟨e1, e2⟩ := ih (a := a') (by rw [hr, h2])
      exact ⟨by rw [e1, ← h1]; rfl, e2⟩
    | none =>
      rw [hr] at h
      simp only at h
      split at h
      · rename_i hx
        simp only [Option.some.injEq, Prod.mk.injEq] at h
        obtain ⟨rfl, rfl⟩ := h
        refine ⟨by rw [hx]; rfl, ?_⟩
        clear ih
        induction r with
        | nil => simp
        | cons y r ih =>
          rw [rsplit] at hr
          cases hr2 : rsplit c r with
          | some q => rw [hr2] at hr; simp at hr
          | none =>
            rw [hr2] at hr
            simp only at hr
            split at hr
            · simp at hr
            · rename_i hy
              intro hm
              rcases List.mem_cons.1 hm with e | hm
              · exact hy e.symm
              · exact ih hr2 hm
      · simp at h

theorem rsplit_none {c : Nat} {p : Str} (h : rsplit c p = none) : c ∉ p := by
  induction p with
  | nil => simp
  | cons y r ih =>
    rw [rsplit] at h
    cases hr2 : rsplit c r with
    | some q => rw [hr2] at h; simp at h
    | none =>
      rw [hr2] at h
      simp only at h
      split at h
      · simp at h
      · rename_i hy
        intro hm
        rcases List.mem_cons.1 hm with e | hm
        · exact hy e.symm
        · exact ih hr2 hm

theorem isAbs_nosep {p : Str} (h : 47 ∉ p) : isAbs p = false := by
  cases p with
  | nil => rfl
  | cons x r =>
    have : x ≠ 47 := fun e => h (by simp [e])
    simp [isAbs, this]

/-- C104: `split` takes off the last component: it holds no separator, and following first the head and then the
tail is following the path; joining them leads there too.  The head is empty exactly when there is no separator. -/
theorem C104_split (p : Str) :
    47 ∉ (split p).2 ∧ (∀ d, resolve d p = resolve (resolve d (split p).1) (split p).2) ∧
    (∀ d, resolve d (join (split p).1 [(split p).2]) = resolve d p) ∧
    ((split p).1 = [] ↔ 47 ∉ p) ∧ (comps p).getLast? = some (split p).2 := by
  have main : 47 ∉ (split p).2 ∧ (∀ d, resolve d p = resolve (resolve d (split p).1) (split p).2) ∧
      ((split p).1 = [] ↔ 47 ∉ p) ∧ (comps p).getLast? = some (split p).2 := by
    unfold split
    cases h : rsplit 47 p with
    | none =>
      have hn := rsplit_none h
      refine ⟨hn, fun d => by simp [isAbs_nil_resolve], by simp [hn], by simp [comps_plain hn]⟩
    | some q =>
      obtain ⟨a, b⟩ := q
      obtain ⟨e, hb⟩ := rsplit_some h
      dsimp only
      refine ⟨hb, fun d => ?_, ?_, ?_⟩
      · split
        · rename_i ha; subst ha
          rw [e, List.nil_append, resolve_root, resolve_abs rfl, comps, if_pos rfl, walk_cons, go_nil,
            resolve_rel (isAbs_nosep hb)]
        · rename_i ha
          rw [e, resolve_append_sep d a b ha (isAbs_nosep hb)]
      · constructor
        · intro h'; split at h'
          · simp at h'
          · rename_i ha; exact absurd h' ha
        · intro hn; exact absurd (by rw [e]; simp) hn
      · rw [e, comps_append_sep, comps_plain hb]; simp
  refine ⟨main.1, main.2.1, fun d => ?_, main.2.2.1, main.2.2.2⟩
  rw [C104_join]
  exact (main.2.1 d).symm

/-- C104: `is_dirlike` holds of the paths that end in `/` or `/.`. -/
theorem C104_dirlike (p : Str) : isDirlike p = true ↔ (∃ a, p = a ++ [47]) ∨ ∃ a, p = a ++ [47, 46] := by
  unfold isDirlike
  rw [Bool.or_eq_true, beq_iff_eq]
  constructor
  · rintro (h | h)
    · exact Or.inl (endsSep_split h)
    · right
      refine ⟨p.take (p.length - 2), ?_⟩
      rw [← h]; exact (List.take_append_drop ..).symm
  · rintro (⟨a, rfl⟩ | ⟨a, rfl⟩)
    · left; simp [endsSep]
    · right; simp

/-- C104: `splitext` cuts the text in two; the extension is empty for a path like that of a directory or without full
stop, and otherwise begins with the last full stop. -/
theorem C104_splitext (p : Str) :
    (splitext p).1 ++ (splitext p).2 = p ∧
    ((splitext p).2 = [] ↔ (∃ a, p = a ++ [47]) ∨ (∃ a, p = a ++ [47, 46]) ∨ 46 ∉ p) ∧
    ((splitext p).2 = [] ∨ ∃ b, (splitext p).2 = 46 :: b ∧ 46 ∉ b) := by
  have hd := C104_dirlike p
  unfold splitext
  split
  · rename_i h
    refine ⟨by simp, ?_, by simp⟩
    rcases hd.1 h with h | h <;> simp [h]
  · rename_i hn
    have hnd : ¬ ((∃ a, p = a ++ [47]) ∨ ∃ a, p = a ++ [47, 46]) := fun h => hn (hd.2 h)
    cases h : rsplit 46 p with
    | none =>
      refine ⟨by simp, ?_, by simp⟩
      simp [rsplit_none h]
    | some q =>
      obtain ⟨a, b⟩ := q
      obtain ⟨e, hb⟩ := rsplit_some h
      refine ⟨e.symm, ?_, Or.inr ⟨b, rfl, hb⟩⟩
      simp only [reduceCtorEq, false_iff]
      rintro (h | h | h)
      · exact hnd (Or.inl h)
      · exact hnd (Or.inr h)
      · exact h (by rw [e]; simp)

/-- C104 is violated by `splitext`: the extension of `a.d/b` is `.d/b`. -/
theorem C104_violation_splitext : splitext [97, 46, 100, 47, 98] = ([97], [46, 100, 47, 98]) := by decide +kernel

/-- C104: `is_root` holds of `/` alone. -/
theorem C104_root (p : Str) : isRoot p = true ↔ p = [47] := by
  constructor
  · intro h
    unfold isRoot at h
    rw [Bool.and_eq_true, beq_iff_eq] at h
    obtain ⟨ha, he⟩ := h
    unfold split at he
    cases hr : rsplit 47 p with
    | none =>
      rw [hr] at he
      simp only at he
      rw [← he] at ha
      simp [isAbs] at ha
    | some q =>
      obtain ⟨a, b⟩ := q
      rw [hr] at he
      simp only at he
      obtain ⟨e, _⟩ := rsplit_some hr
      split at he
      · exact he.symm
      · rw [e] at he
        have := congrArg List.length he
        simp at this
  · rintro rfl; decide

end Verif.Vfs

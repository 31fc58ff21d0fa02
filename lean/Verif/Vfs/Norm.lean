import Verif.Vfs.Path
/-!
# C104: `normpath`
-/
namespace Verif.Vfs

theorem not_empty_dotdot : ¬ dotdot = ([] : Str) := by decide
theorem not_empty_dot : ¬ dot = ([] : Str) := by decide
theorem not_dot_dotdot : ¬ dot = dotdot := by decide

/-! ### The steps of the loop -/

theorem nl_nil (pre : List Str) : normLoop pre [] = pre.reverse := by rw [normLoop.eq_def]

theorem nl_break (suf : List Str) : normLoop [[]] ([] :: suf) = [] :: [] :: suf := by
  rw [normLoop.eq_def]; simp

theorem nl_empty {pre : List Str} (h1 : ¬ pre = [[]]) (h2 : pre ≠ []) (suf : List Str) :
    normLoop pre ([] :: suf) = normLoop pre suf := by
  rw [normLoop.eq_def]; simp only [if_true, if_neg h1, if_pos h2]

theorem nl_empty0 (suf : List Str) : normLoop [] ([] :: suf) = normLoop [[]] suf := by
  rw [normLoop.eq_def]; simp

theorem nl_up0 (suf : List Str) : normLoop [] (dotdot :: suf) = normLoop [dotdot] suf := by
  rw [normLoop.eq_def]; simp [not_empty_dotdot]

theorem nl_up_up {par : Str} (h : par = dotdot ∨ par = dot) (pre suf : List Str) :
    normLoop (par :: pre) (dotdot :: suf) = normLoop (dotdot :: par :: pre) suf := by
  rw [normLoop.eq_def]; simp only [if_neg not_empty_dotdot, if_true, if_pos h]

theorem nl_up_pop {par : Str} (h : ¬ (par = dotdot ∨ par = dot)) (h2 : par ≠ []) (pre suf : List Str) :
    normLoop (par :: pre) (dotdot :: suf) = normLoop pre (dot :: suf) := by
  rw [normLoop.eq_def]; simp only [if_neg not_empty_dotdot, if_true, if_neg h, if_pos h2]

theorem nl_up_root {par : Str} (h : ¬ (par = dotdot ∨ par = dot)) (h2 : ¬ par ≠ []) (pre suf : List Str) :
    normLoop (par :: pre) (dotdot :: suf) = normLoop (par :: pre) suf := by
  rw [normLoop.eq_def]; simp only [if_neg not_empty_dotdot, if_true, if_neg h, if_neg h2]

theorem nl_dot {pre : List Str} (h : pre ≠ []) (suf : List Str) : normLoop pre (dot :: suf) = normLoop pre suf := by
  rw [normLoop.eq_def]; simp only [if_neg not_empty_dot, if_neg not_dot_dotdot, if_true, if_pos h]

theorem nl_dot0 (suf : List Str) : normLoop [] (dot :: suf) = normLoop [dot] suf := by
  rw [normLoop.eq_def]; simp [not_empty_dot, not_dot_dotdot]

theorem nl_name {c : Str} (h1 : ¬ c = []) (h2 : ¬ c = dotdot) (h3 : ¬ c = dot) (pre suf : List Str) :
    normLoop pre (c :: suf) = normLoop (c :: pre) suf := by
  rw [normLoop.eq_def]; simp only [if_neg h1, if_neg h2, if_neg h3]

theorem isName_of {c : Str} (h1 : ¬ c = []) (h2 : ¬ c = dotdot) (h3 : ¬ c = dot) (h : 47 ∉ c) : IsName c :=
  ⟨h1, h3, h2, h⟩

theorem dot_nosep : 47 ∉ dot := by decide

theorem walk_cons (d : List Str) (c : Str) (cs : List Str) : walk d (c :: cs) = walk (go d c) cs := rfl
theorem walk_nil (d : List Str) : walk d [] = d := rfl

theorem walk_names (d : List Str) : ∀ names : List Str, (∀ c ∈ names, IsName c) → walk d names = names.reverse ++ d
  | [], _ => rfl
  | a :: r, h => by
    rw [walk_cons, go_name d (h a (by simp)), walk_names (a :: d) r (fun c hc => h c (by simp [hc]))]
    simp

theorem walk_up (d : List Str) : ∀ k, walk d (List.replicate k dotdot) = d.drop k
  | 0 => rfl
  | k + 1 => by
    rw [List.replicate_succ, walk_cons, go_dotdot, walk_up d.tail k]
    cases d <;> simp

/-- The form of the components of a relative path in the loop: perhaps `.`, then some `..`, then names. -/
def RelForm (l : List Str) : Prop :=
  ∃ (s : Bool) (k : Nat) (names : List Str), (∀ c ∈ names, IsName c) ∧
    l = (if s then [dot] else []) ++ List.replicate k dotdot ++ names

theorem relForm_snoc_name {l : List Str} {c : Str} (hl : RelForm l) (hc : IsName c) : RelForm (l ++ [c]) := by
  obtain ⟨s, k, names, hn, rfl⟩ := hl
  refine ⟨s, k, names ++ [c], ?_, by simp⟩
  intro x hx
  rcases List.mem_append.1 hx with h | h
  · exact hn x h
  · rw [List.mem_singleton] at h; exact h ▸ hc

theorem relForm_snoc_up {l : List Str} {p : Str} (hl : RelForm (l ++ [p])) (hp : p = dotdot ∨ p = dot) :
    RelForm (l ++ [p] ++ [dotdot]) := by
  obtain ⟨s, k, names, hn, e⟩ := hl
  have hnames : names = [] := by
    cases h : names.reverse with
    | nil => simpa using h
    | cons x r =>
      have hx : x ∈ names := by rw [← List.mem_reverse, h]; simp
      have e2 := congrArg List.reverse e
      simp only [List.reverse_append, List.reverse_cons, List.reverse_nil, List.nil_append, h, List.cons_append,
        List.singleton_append] at e2
      have hpx : p = x := (List.cons.inj e2).1
      have := hn x hx
      subst hpx
      rcases hp with rfl | rfl
      · exact absurd rfl this.2.2.1
      · exact absurd rfl this.2.1
  subst hnames
  refine ⟨s, k + 1, [], by simp, ?_⟩
  rw [e]
  simp [List.replicate_succ']

theorem relForm_pop {l : List Str} {p : Str} (hl : RelForm (l ++ [p])) (h1 : ¬ (p = dotdot ∨ p = dot)) :
    IsName p ∧ RelForm l := by
  obtain ⟨s, k, names, hn, e⟩ := hl
  cases h : names.reverse with
  | nil =>
    have hnil : names = [] := by simpa using h
    subst hnil
    exfalso
    have hp : p ∈ (if s then [dot] else []) ++ List.replicate k dotdot := by
      have : p ∈ l ++ [p] := by simp
      rw [e] at this
      simpa using this
    rcases List.mem_append.1 hp with h | h
    · cases s
      · simp at h
      · simp at h; exact h1 (Or.inr h)
    · exact h1 (Or.inl (List.eq_of_mem_replicate h))
  | cons x r =>
    have hx : x ∈ names := by rw [← List.mem_reverse, h]; simp
    have e2 := congrArg List.reverse e
    simp only [List.reverse_append, List.reverse_cons, List.reverse_nil, List.nil_append, h, List.cons_append,
      List.singleton_append] at e2
    have hpx : p = x := (List.cons.inj e2).1
    have hr := (List.cons.inj e2).2
    refine ⟨hpx ▸ hn x hx, s, k, r.reverse, ?_, ?_⟩
    · intro c hc
      apply hn
      rw [← List.mem_reverse, h]
      simp at hc ⊢
      exact Or.inr hc
    · have := congrArg List.reverse hr
      simpa using this

theorem relForm_one (c : Str) (h : ¬ c = []) (hs : 47 ∉ c) : RelForm [c] := by
  by_cases h1 : c = dot
  · exact ⟨true, 0, [], by simp, by simp [h1]⟩
  · by_cases h2 : c = dotdot
    · exact ⟨false, 1, [], by simp, by simp [h2]⟩
    · refine ⟨false, 0, [c], ?_, by simp⟩
      intro x hx; rw [List.mem_singleton] at hx; subst hx; exact isName_of h h2 h1 hs

/-- The loop on a relative path. -/
theorem normLoop_rel (pre suf : List Str) : RelForm pre.reverse → (∀ c ∈ suf, 47 ∉ c) →
    (pre = [] → suf.head? ≠ some []) →
    RelForm (normLoop pre suf) ∧ (∀ d, walk d (normLoop pre suf) = walk d (pre.reverse ++ suf)) ∧
    (pre ≠ [] ∨ suf ≠ [] → normLoop pre suf ≠ []) := by
  induction pre, suf using normLoop.induct with
  | case1 pre =>
    intro hp _ _
    rw [nl_nil]
    exact ⟨hp, fun d => by simp, fun h => by simpa using h⟩
  | case2 suf =>
    intro hp _ _
    obtain ⟨s, k, names, hn, e⟩ := hp
    exfalso
    have : ([] : Str) ∈ (if s then [dot] else []) ++ List.replicate k dotdot ++ names := by rw [← e]; simp
    rcases List.mem_append.1 this with h | h
    · rcases List.mem_append.1 h with h | h
      · cases s
        · simp at h
        · simp [dot] at h
      · exact absurd (List.eq_of_mem_replicate h) (by decide)
    · exact (hn _ h).1 rfl
  | case3 pre suf h1 h2 ih =>
    intro hp hs _
    rw [nl_empty h1 h2]
    obtain ⟨i1, i2, i3⟩ := ih hp (fun c hc => hs c (by simp [hc])) (fun e => absurd e h2)
    refine ⟨i1, fun d => ?_, fun _ => i3 (Or.inl h2)⟩
    rw [i2 d, walk_append, walk_append, walk_cons, go_nil]
  | case4 pre suf h1 h2 ih =>
    intro _ _ h
    have : pre = [] := by simpa using h2
    exact absurd rfl (h this)
  | case5 suf h ih =>
    intro _ hs _
    rw [nl_up0]
    obtain ⟨i1, i2, i3⟩ := ih (relForm_one _ not_empty_dotdot (by decide)) (fun c hc => hs c (by simp [hc])) (by simp)
    exact ⟨i1, i2, fun _ => i3 (Or.inl (by simp))⟩
  | case6 suf par pre' h2 h ih =>
    intro hp hs _
    rw [nl_up_up h2]
    simp only [List.reverse_cons] at hp ih
    obtain ⟨i1, i2, i3⟩ := ih (relForm_snoc_up hp h2) (fun c hc => hs c (by simp [hc])) (by simp)
    refine ⟨i1, fun d => ?_, fun _ => i3 (Or.inl (by simp))⟩
    rw [i2 d]; simp
  | case7 suf par pre' h2 h3 h ih =>
    intro hp hs _
    rw [nl_up_pop h2 h3]
    simp only [List.reverse_cons] at hp
    obtain ⟨hn, hr⟩ := relForm_pop hp h2
    obtain ⟨i1, i2, i3⟩ := ih hr (by
      intro c hc
      rcases List.mem_cons.1 hc with rfl | hc
      · exact dot_nosep
      · exact hs c (by simp [hc])) (by simp [dot])
    refine ⟨i1, fun d => ?_, fun _ => i3 (Or.inr (by simp))⟩
    rw [i2 d, List.reverse_cons]
    simp only [walk_append, walk_cons, walk_nil, go_dot, go_dotdot, go_name _ hn, List.tail_cons]
  | case8 suf par pre' h2 h3 h ih =>
    intro hp _ _
    simp only [List.reverse_cons] at hp
    obtain ⟨hn, _⟩ := relForm_pop hp h2
    exact absurd hn.1 h3
  | case9 pre suf h3 h1 h2 ih =>
    intro hp hs _
    rw [nl_dot h3]
    obtain ⟨i1, i2, i3⟩ := ih hp (fun c hc => hs c (by simp [hc])) (fun e => absurd e h3)
    refine ⟨i1, fun d => ?_, fun _ => i3 (Or.inl h3)⟩
    rw [i2 d, walk_append, walk_append, walk_cons, go_dot]
  | case10 pre suf h3 h1 h2 ih =>
    intro _ hs _
    have : pre = [] := by simpa using h3
    subst this
    rw [nl_dot0]
    obtain ⟨i1, i2, i3⟩ := ih (relForm_one _ not_empty_dot dot_nosep) (fun c hc => hs c (by simp [hc])) (by simp)
    exact ⟨i1, i2, fun _ => i3 (Or.inl (by simp))⟩
  | case11 pre c suf h1 h2 h3 ih =>
    intro hp hs _
    rw [nl_name h1 h2 h3]
    obtain ⟨i1, i2, i3⟩ := ih (by
      rw [List.reverse_cons]
      exact relForm_snoc_name hp (isName_of h1 h2 h3 (hs c (by simp)))) (fun c hc => hs c (by simp [hc])) (by simp)
    refine ⟨i1, fun d => ?_, fun _ => i3 (Or.inl (by simp))⟩
    rw [i2 d]; simp

/-- The components of an absolute path in the loop. -/
def AbsForm (pre : List Str) : Prop := ∃ names : List Str, (∀ c ∈ names, IsName c) ∧ pre = names ++ [[]]

theorem absForm_ne {pre : List Str} (h : AbsForm pre) : pre ≠ [] := by
  obtain ⟨n, _, rfl⟩ := h; simp

/-- Empty components only at the end. -/
def NoGap : List Str → Prop
  | [] => True
  | [_] => True
  | a :: b :: r => a ≠ [] ∧ NoGap (b :: r)

theorem noGap_tail {a : Str} {r : List Str} (h : NoGap (a :: r)) : NoGap r := by
  cases r with
  | nil => trivial
  | cons b r => exact h.2

/-- The loop on an absolute path. -/
theorem normLoop_abs (pre suf : List Str) : AbsForm pre → (∀ c ∈ suf, 47 ∉ c) →
    (∃ r, normLoop pre suf = [] :: r ∧ (∀ c ∈ r, 47 ∉ c)) ∧
    walk [] (normLoop pre suf) = walk [] (pre.reverse ++ suf) ∧
    ((∃ names : List Str, (∀ c ∈ names, IsName c) ∧ normLoop pre suf = [] :: names) ∨
      ∃ r, normLoop pre suf = [] :: [] :: r ∧ (NoGap suf → r = [])) := by
  induction pre, suf using normLoop.induct with
  | case1 pre =>
    rintro ⟨names, hn, rfl⟩ _
    rw [nl_nil]
    have hn' : ∀ c ∈ names.reverse, IsName c := fun c hc => hn c (List.mem_reverse.1 hc)
    exact ⟨⟨names.reverse, by simp, fun c hc => (hn' c hc).2.2.2⟩, by simp, Or.inl ⟨names.reverse, hn', by simp⟩⟩
  | case2 suf =>
    intro _ hs
    rw [nl_break]
    refine ⟨⟨[] :: suf, rfl, hs⟩, rfl, Or.inr ⟨suf, rfl, fun h => ?_⟩⟩
    cases suf with
    | nil => rfl
    | cons b r => exact absurd rfl h.1
  | case3 pre suf h1 h2 ih =>
    intro hp hs
    rw [nl_empty h1 h2]
    obtain ⟨i1, i2, i3⟩ := ih hp (fun c hc => hs c (by simp [hc]))
    refine ⟨i1, ?_, ?_⟩
    · rw [i2, walk_append, walk_append, walk_cons, go_nil]
    · exact i3.imp id fun ⟨r, e, f⟩ => ⟨r, e, fun h => f (noGap_tail h)⟩
  | case4 pre suf h1 h2 ih =>
    intro hp _
    exact absurd (absForm_ne hp) (by simpa using h2)
  | case5 suf h ih =>
    intro hp _
    exact absurd rfl (absForm_ne hp)
  | case6 suf par pre' h2 h ih =>
    rintro ⟨names, hn, e⟩ _
    exfalso
    cases names with
    | nil =>
      simp only [List.nil_append, List.cons.injEq] at e
      rw [e.1] at h2
      rcases h2 with h2 | h2 <;> exact absurd h2 (by decide)
    | cons x n =>
      simp only [List.cons_append, List.cons.injEq] at e
      have := hn x (by simp)
      rw [← e.1] at this
      rcases h2 with rfl | rfl
      · exact this.2.2.1 rfl
      · exact this.2.1 rfl
  | case7 suf par pre' h2 h3 h ih =>
    rintro ⟨names, hn, e⟩ hs
    rw [nl_up_pop h2 h3]
    cases names with
    | nil =>
      simp only [List.nil_append, List.cons.injEq] at e
      exact absurd e.1 h3
    | cons x n =>
      simp only [List.cons_append, List.cons.injEq] at e
      have hx := hn x (by simp)
      rw [← e.1] at hx
      obtain ⟨i1, i2, i3⟩ := ih ⟨n, fun c hc => hn c (by simp [hc]), e.2⟩ (by
        intro c hc
        rcases List.mem_cons.1 hc with rfl | hc
        · exact dot_nosep
        · exact hs c (by simp [hc]))
      refine ⟨i1, ?_, ?_⟩
      · rw [i2, List.reverse_cons]
        simp only [walk_append, walk_cons, walk_nil, go_dot, go_dotdot, go_name _ hx, List.tail_cons]
      · refine i3.imp id fun ⟨r, e, f⟩ => ⟨r, e, fun h => f ?_⟩
        cases suf with
        | nil => trivial
        | cons b r => exact ⟨not_empty_dot, h.2⟩
  | case8 suf par pre' h2 h3 h ih =>
    rintro ⟨names, hn, e⟩ hs
    rw [nl_up_root h2 h3]
    have hpar : par = [] := by simpa using h3
    obtain ⟨i1, i2, i3⟩ := ih ⟨names, hn, e⟩ (fun c hc => hs c (by simp [hc]))
    refine ⟨i1, ?_, ?_⟩
    · rw [i2]
      have hpre : pre' = [] := by
        cases names with
        | nil => exact (show par = [] ∧ pre' = [] by simpa using e).2
        | cons x n =>
          simp only [List.cons_append, List.cons.injEq] at e
          have := (hn x (by simp)).1
          exact absurd (e.1.symm.trans hpar) this
      subst hpre; subst hpar
      simp only [List.reverse_cons, List.reverse_nil, List.nil_append, walk_append, walk_cons, walk_nil, go_nil,
        go_dotdot, List.tail_nil]
    · exact i3.imp id fun ⟨r, e, f⟩ => ⟨r, e, fun h => f (noGap_tail h)⟩
  | case9 pre suf h3 h1 h2 ih =>
    intro hp hs
    rw [nl_dot h3]
    obtain ⟨i1, i2, i3⟩ := ih hp (fun c hc => hs c (by simp [hc]))
    refine ⟨i1, ?_, ?_⟩
    · rw [i2, walk_append, walk_append, walk_cons, go_dot]
    · exact i3.imp id fun ⟨r, e, f⟩ => ⟨r, e, fun h => f (noGap_tail h)⟩
  | case10 pre suf h3 h1 h2 ih =>
    intro hp _
    exact absurd (absForm_ne hp) (by simpa using h3)
  | case11 pre c suf h1 h2 h3 ih =>
    rintro ⟨names, hn, rfl⟩ hs
    rw [nl_name h1 h2 h3]
    obtain ⟨i1, i2, i3⟩ := ih (by
      refine ⟨c :: names, ?_, rfl⟩
      intro x hx
      rcases List.mem_cons.1 hx with rfl | hx
      · exact isName_of h1 h2 h3 (hs _ (by simp))
      · exact hn x hx) (fun c hc => hs c (by simp [hc]))
    refine ⟨i1, ?_, ?_⟩
    · rw [i2]; simp
    · exact i3.imp id fun ⟨r, e, f⟩ => ⟨r, e, fun h => f (noGap_tail h)⟩

end Verif.Vfs

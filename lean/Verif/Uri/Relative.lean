import Verif.Uri.UriProps
/-!
# C22: `relative` is undone by `resolve`
-/
namespace Verif.Uri

/-! ### Splitting and joining -/

theorem splitOn_ne_nil (c : Nat) (s : Str) : splitOn c s ≠ [] := by
  cases s with
  | nil => simp [splitOn]
  | cons x r =>
    unfold splitOn
    split
    · simp
    · split <;> simp

theorem splitOn_word (c : Nat) (w : Str) (h : c ∉ w) : splitOn c w = [w] := by
  induction w with
  | nil => rfl
  | cons x r ih =>
    have hx : x ≠ c := fun e => h (by simp [e])
    rw [splitOn, if_neg hx, ih (fun hm => h (by simp [hm]))]

theorem splitOn_cons (c : Nat) (w t : Str) (h : c ∉ w) : splitOn c (w ++ c :: t) = w :: splitOn c t := by
  induction w with
  | nil => simp [splitOn]
  | cons x r ih =>
    have hx : x ≠ c := fun e => h (by simp [e])
    rw [List.cons_append, splitOn, if_neg hx, ih (fun hm => h (by simp [hm]))]

/-- `split` undoes `join` for a non-empty list of words without the separator. -/
theorem splitOn_joinWith (c : Nat) (ws : List Str) (hne : ws ≠ []) (h : ∀ w ∈ ws, c ∉ w) :
    splitOn c (joinWith c ws) = ws := by
  induction ws with
  | nil => exact absurd rfl hne
  | cons w r ih =>
    cases r with
    | nil => exact splitOn_word c w (h w (by simp))
    | cons v r =>
      rw [joinWith, splitOn_cons c w _ (h w (by simp)), ih (by simp) (fun x hx => h x (by simp [hx]))]
      simp

/-- `join` undoes `split`, and the words do not contain the separator. -/
theorem joinWith_splitOn (c : Nat) (s : Str) : joinWith c (splitOn c s) = s ∧ ∀ w ∈ splitOn c s, c ∉ w := by
  induction s with
  | nil => simp [splitOn, joinWith]
  | cons x r ih =>
    unfold splitOn
    split
    · rename_i hx
      cases hs : splitOn c r with
      | nil => exact absurd hs (splitOn_ne_nil c r)
      | cons w ws =>
        rw [hs] at ih
        refine ⟨by rw [joinWith, ih.1, hx]; rfl; simp, ?_⟩
        intro v hv
        rcases List.mem_cons.1 hv with rfl | hv
        · simp
        · exact ih.2 v hv
    · rename_i hx
      split
      · rename_i hs; exact absurd hs (splitOn_ne_nil c r)
      · rename_i w ws hs
        rw [hs] at ih
        constructor
        · have := ih.1
          cases ws with
          | nil => simp only [joinWith] at this ⊢; rw [this]
          | cons v vs => simp only [joinWith] at this ⊢; rw [← this]; simp
        · intro v hv
          rcases List.mem_cons.1 hv with rfl | hv
          · intro hm
            rcases List.mem_cons.1 hm with hm | hm
            · exact hx hm.symm
            · exact ih.2 w (by simp) hm
          · exact ih.2 v (by simp [hv])

theorem joinWith_cons (c : Nat) (w : Str) (ws : List Str) (h : ws ≠ []) :
    joinWith c (w :: ws) = w ++ c :: joinWith c ws := by
  cases ws with
  | nil => exact absurd rfl h
  | cons v vs => rfl

/-! ### Runs of URI characters -/

theorem Uric.append {p : Nat → Bool} {x y : Str} (hx : Uric p x) (hy : Uric p y) : Uric p (x ++ y) := by
  obtain ⟨is, h1, rfl⟩ := hx
  obtain ⟨js, h2, rfl⟩ := hy
  refine ⟨is ++ js, ?_, by simp [textOf]⟩
  intro i hi
  rcases List.mem_append.1 hi with hi | hi
  · exact h1 i hi
  · exact h2 i hi

theorem Uric.nil (p : Nat → Bool) : Uric p [] := ⟨[], by simp, rfl⟩

theorem Uric.cons {p : Nat → Bool} {c : Nat} {x : Str} (hc : (Item.lit c).Ok p) (hx : Uric p x) : Uric p (c :: x) := by
  obtain ⟨is, h1, rfl⟩ := hx
  refine ⟨.lit c :: is, ?_, by simp [textOf, Item.text]⟩
  intro i hi
  rcases List.mem_cons.1 hi with rfl | hi
  · exact hc
  · exact h1 i hi

/-- A run can be cut at a character that is no part of an escape. -/
theorem Uric.split {p : Nat → Bool} (c : Nat) (hc : c ≠ 37) (hx : isHex c = false) (x y : Str) (h : Uric p (x ++ c :: y)) :
    Uric p x ∧ Uric p y ∧ (Item.lit c).Ok p := by
  obtain ⟨is, h1, h2⟩ := h
  induction is generalizing x with
  | nil => simp [textOf] at h2
  | cons i is ih =>
    have hi := h1 i (by simp)
    have h1' : ∀ j ∈ is, j.Ok p := fun j hj => h1 j (by simp [hj])
    have e : textOf (i :: is) = i.text ++ textOf is := by simp [textOf]
    rw [e] at h2
    cases i with
    | lit d =>
      simp only [Item.text, List.singleton_append] at h2
      cases x with
      | nil =>
        simp only [List.nil_append, List.cons.injEq] at h2
        obtain ⟨rfl, rfl⟩ := h2
        exact ⟨.nil p, ⟨is, h1', rfl⟩, hi⟩
      | cons z x =>
        simp only [List.cons_append, List.cons.injEq] at h2
        obtain ⟨rfl, h2⟩ := h2
        obtain ⟨k1, k2, k3⟩ := ih x h1' h2
        exact ⟨.cons hi k1, k2, k3⟩
    | esc a b =>
      simp only [Item.text, List.cons_append, List.nil_append] at h2
      rcases x with - | ⟨z, - | ⟨z', - | ⟨z'', x⟩⟩⟩
      · simp only [List.nil_append, List.cons.injEq] at h2
        exact absurd h2.1.symm hc
      · simp only [List.cons_append, List.nil_append, List.cons.injEq] at h2
        have := hi.1; rw [h2.2.1, hx] at this; cases this
      · simp only [List.cons_append, List.nil_append, List.cons.injEq] at h2
        have := hi.2; rw [h2.2.2.1, hx] at this; cases this
      · simp only [List.cons_append, List.cons.injEq] at h2
        obtain ⟨rfl, rfl, rfl, h2⟩ := h2
        obtain ⟨k1, k2, k3⟩ := ih x h1' h2
        refine ⟨?_, k2, k3⟩
        have : Uric p [37, a, b] := ⟨[.esc a b], by simpa using hi, rfl⟩
        have := this.append k1
        simpa using this

theorem slash_ok : (Item.lit 47).Ok isAllowed := by simp [Item.Ok]; decide
theorem dot_uric : Uric isAllowed dot := ⟨[.lit 46], by simp [Item.Ok]; decide, rfl⟩
theorem dotdot_uric : Uric isAllowed dotdot := ⟨[.lit 46, .lit 46], by simp [Item.Ok]; decide, rfl⟩

theorem uric_joinWith (ws : List Str) : (∀ w ∈ ws, Uric isAllowed w) → Uric isAllowed (joinWith 47 ws) := by
  induction ws with
  | nil => intro _; exact .nil _
  | cons w r ih =>
    intro h
    cases r with
    | nil => exact h w (by simp)
    | cons v r =>
      rw [joinWith]
      · exact (h w (by simp)).append (.cons slash_ok (ih (fun x hx => h x (by simp [hx]))))
      · simp

theorem joinWith_uric (ws : List Str) (h : Uric isAllowed (joinWith 47 ws)) : ∀ w ∈ ws, Uric isAllowed w := by
  induction ws with
  | nil => simp
  | cons w r ih =>
    cases r with
    | nil => simpa [joinWith] using h
    | cons v r =>
      rw [joinWith] at h
      · obtain ⟨h1, h2, -⟩ := Uric.split 47 (by decide) (by decide) _ _ h
        intro x hx
        rcases List.mem_cons.1 hx with rfl | hx
        · exact h1
        · exact ih h2 x hx
      · simp

/-! ### `_relativize_segments` -/

theorem relLoop_end (P B : List Str) (pos : Nat) (h : B.length ≤ pos) (r : List Str) : relativizeLoop P B pos r = r := by
  rw [relativizeLoop, if_neg (by omega)]

theorem relLoop_ups (P B : List Str) (n pos : Nat) (hn : pos + n = B.length) (r : List Str) (hr : r ≠ []) :
    relativizeLoop P B pos r = List.replicate n dotdot ++ r := by
  induction n generalizing pos r with
  | zero => rw [relLoop_end P B pos (by omega)]; simp
  | succ n ih =>
    rw [relativizeLoop, if_pos (by omega), if_pos hr, ih (pos + 1) (by omega) _ (by simp)]
    rw [List.replicate_succ']; simp

theorem relLoop_common (C P' B' : List Str) (n : Nat) (hn : n ≤ C.length) :
    relativizeLoop (C ++ P') (C ++ B') (C.length - n) [] = relativizeLoop (C ++ P') (C ++ B') C.length [] := by
  induction n with
  | zero => simp
  | succ n ih =>
    rw [← ih (by omega)]
    have hlt : C.length - (n + 1) < C.length := by omega
    rw [relativizeLoop, if_pos (by simp; omega), if_neg (by simp), if_neg]
    · congr 1; omega
    · rw [List.getElem?_append_left hlt, List.getElem?_append_left hlt]
      simp only [List.length_append]
      simp; omega

/-- The longest common prefix. -/
theorem common_prefix (P B : List Str) : ∃ C P' B', P = C ++ P' ∧ B = C ++ B' ∧
    (P' = [] ∨ B' = [] ∨ P'.head? ≠ B'.head?) := by
  induction P generalizing B with
  | nil => exact ⟨[], [], B, rfl, rfl, .inl rfl⟩
  | cons p P ih =>
    cases B with
    | nil => exact ⟨[], p :: P, [], rfl, rfl, .inr (.inl rfl)⟩
    | cons b B =>
      by_cases h : p = b
      · subst h
        obtain ⟨C, P', B', rfl, rfl, h⟩ := ih B
        exact ⟨p :: C, P', B', rfl, rfl, h⟩
      · exact ⟨[], p :: P, b :: B, rfl, rfl, .inr (.inr (by simpa using h))⟩

theorem walk_pops (n : Nat) (C E : List Str) (hE : E.length = n) (rest : List Str) (hr : rest ≠ []) (lf : Str) :
    Location.walk ⟨0, C ++ E, lf⟩ (List.replicate n dotdot ++ rest) = Location.walk ⟨0, C, lf⟩ rest := by
  have h0 : dotdot ≠ dot := by decide
  induction n generalizing E with
  | zero => have : E = [] := List.length_eq_zero_iff.1 hE; subst this; simp
  | succ n ih =>
    obtain ⟨q, ns, rfl⟩ : ∃ q ns, E = ns ++ [q] := by
      rcases List.eq_nil_or_concat E with h | ⟨ns, q, h⟩
      · subst h; simp at hE
      · exact ⟨q, ns, by simpa using h⟩
    rw [List.replicate_succ, List.cons_append]
    obtain ⟨y, ys, e⟩ : ∃ y ys, List.replicate n dotdot ++ rest = y :: ys := by
      cases h : List.replicate n dotdot ++ rest with
      | nil => simp at h; exact absurd h.2 hr
      | cons y ys => exact ⟨y, ys, rfl⟩
    rw [e]
    simp only [Location.walk, Location.step, h0, if_true, if_false]
    rw [if_neg (by simp), ← e]
    have : (C ++ (ns ++ [q])).dropLast = C ++ ns := by rw [← List.append_assoc, List.dropLast_concat]
    rw [this, ih ns (by simpa using hE)]

theorem walk_enter (names : List Str) (h : Plain names) (pre : List Str) (rest : List Str) (hr : rest ≠ []) (lf : Str) :
    Location.walk ⟨0, pre, lf⟩ (names ++ rest) = Location.walk ⟨0, pre ++ names, lf⟩ rest := by
  induction names generalizing pre with
  | nil => simp
  | cons x xs ih =>
    have hx := h x (by simp)
    obtain ⟨y, ys, e⟩ : ∃ y ys, xs ++ rest = y :: ys := by
      cases h : xs ++ rest with
      | nil => simp at h; exact absurd h.2 hr
      | cons y ys => exact ⟨y, ys, rfl⟩
    rw [List.cons_append, e]
    simp only [Location.walk, Location.step, hx.1, hx.2, if_false]
    rw [← e, ih (fun y hy => h y (by simp [hy]))]
    simp

theorem normalize_of_walk (segs P : List Str) (hs : segs ≠ []) (hP : Plain P) (hne : P ≠ [])
    (h : Location.walk ⟨0, [], []⟩ segs = Location.walk ⟨0, [], []⟩ P) : normalizeSegments segs = P := by
  rw [C20_normalize segs hs, location, h]
  have := normalize_plain P hP hne
  rwa [C20_normalize P hne, location] at this

/-- What the relative segments are for: appended to the base's directory they lead to the path. -/
theorem relativize_spec (P B : List Str) (hP : Plain P) (hB : Plain B) (hPne : P ≠ []) (hBne : B ≠ [])
    (hpre : ¬ (P <+: B ∧ P ≠ B)) :
    (P = B ∧ relativizeSegments P B = []) ∨
    (P ≠ B ∧ relativizeSegments P B ≠ [] ∧ normalizeSegments (B.dropLast ++ relativizeSegments P B) = P ∧
      (∀ x ∈ relativizeSegments P B, x = dot ∨ x = dotdot ∨ x ∈ P) ∧
      ∃ x r, relativizeSegments P B = x :: r ∧ (x = dot ∨ x = dotdot ∨ (x ∈ P ∧ (r = [] → x ≠ [])) ) ∧
        (x = [] → ∃ A t, P = A ++ x :: t ∧ t ≠ [])) := by
  obtain ⟨C, P', B', rfl, rfl, hc⟩ := common_prefix P B
  have hloop := relLoop_common C P' B' C.length (Nat.le_refl _)
  rw [Nat.sub_self] at hloop
  by_cases hB' : B' = []
  · subst hB'
    have hl : relativizeLoop (C ++ P') (C ++ []) C.length [] = [] := relLoop_end _ _ _ (by simp) _
    rw [hl] at hloop
    by_cases hP' : P' = []
    · subst hP'
      refine .inl ⟨rfl, ?_⟩
      unfold relativizeSegments; dsimp only; rw [hloop]; simp
    · right
      have hlen : (C ++ P').length > (C ++ ([] : List Str)).length := by
        cases P' with
        | nil => exact absurd rfl hP'
        | cons a b => simp
      have hC : C ≠ [] := by simpa using hBne
      obtain ⟨x, D, rfl⟩ : ∃ q ns, C = ns ++ [q] := by
        rcases List.eq_nil_or_concat C with h | ⟨ns, q, h⟩
        · exact absurd h hC
        · exact ⟨q, ns, by simpa using h⟩
      have er : relativizeSegments (D ++ [x] ++ P') (D ++ [x] ++ []) = x :: P' := by
        unfold relativizeSegments; dsimp only; rw [hloop]
        rw [if_pos ⟨rfl, hlen⟩, if_neg (by simp)]
        simp
      rw [er]
      refine ⟨by simpa using hP', by simp, ?_, ?_, x, P', rfl, .inr (.inr ⟨by simp, fun h => absurd h hP'⟩), ?_⟩
      · have : (D ++ [x] ++ []).dropLast ++ x :: P' = D ++ [x] ++ P' := by simp
        rw [this]; exact normalize_plain _ hP hPne
      · intro y hy; right; right
        rcases List.mem_cons.1 hy with rfl | hy
        · simp
        · simp [hy]
      · intro _; exact ⟨D, P', by simp, hP'⟩
  · have hP' : P' ≠ [] := by
      rintro rfl
      exact hpre ⟨⟨B', by simp⟩, fun h => hB' (by simpa using h.symm)⟩
    have hd : P'.head? ≠ B'.head? := by
      rcases hc with h | h | h
      · exact absurd h hP'
      · exact absurd h hB'
      · exact h
    right
    obtain ⟨b, bs, rfl⟩ : ∃ b bs, B' = b :: bs := by
      cases B' with
      | nil => exact absurd rfl hB'
      | cons b bs => exact ⟨b, bs, rfl⟩
    have hl : relativizeLoop (C ++ P') (C ++ b :: bs) C.length [] = List.replicate bs.length dotdot ++ P' := by
      rw [relativizeLoop, if_pos (by simp), if_neg (by simp), if_pos]
      · have e : ([] : List Str) ++ (C ++ P').drop C.length = P' := by simp
        rw [e]
        exact relLoop_ups _ _ bs.length (C.length + 1) (by simp; omega) P' hP'
      · right
        rw [List.getElem?_append_right (Nat.le_refl _), List.getElem?_append_right (Nat.le_refl _), Nat.sub_self]
        rw [← List.head?_eq_getElem?, ← List.head?_eq_getElem?]
        exact fun h => hd h.symm
    rw [hl] at hloop
    have hne : List.replicate bs.length dotdot ++ P' ≠ [] := by simp [hP']
    have hdrop : (C ++ b :: bs).dropLast = C ++ (b :: bs).dropLast := by rw [List.dropLast_append]; simp
    have hElen : ((b :: bs).dropLast).length = bs.length := by simp
    have hCp : Plain C := fun y hy => hB y (by simp [hy])
    have hEp : Plain ((b :: bs).dropLast) := fun y hy => hB y (by
      have := (List.dropLast_sublist (b :: bs)).subset hy
      exact List.mem_append_right _ this)
    have hwalk : ∀ T, T ≠ [] → Location.walk ⟨0, [], []⟩ ((C ++ b :: bs).dropLast ++ (List.replicate bs.length dotdot ++ T)) =
        Location.walk ⟨0, [], []⟩ (C ++ T) := by
      intro T hT
      have hCE : Plain (C ++ (b :: bs).dropLast) := by
        intro y hy
        rcases List.mem_append.1 hy with h | h
        · exact hCp y h
        · exact hEp y h
      rw [hdrop, walk_enter _ hCE [] _ (by simp [hT]),
        List.nil_append, walk_pops _ C _ hElen T hT, walk_enter C hCp [] T hT, List.nil_append]
    by_cases hs : List.replicate bs.length dotdot ++ P' = [[]]
    · have er : relativizeSegments (C ++ P') (C ++ b :: bs) = [dot, []] := by
        unfold relativizeSegments; dsimp only; rw [hloop]
        rw [if_neg (fun h => hne h.1), if_pos hs, hs]
      have hbs : bs.length = 0 := by
        cases hbs : bs.length with
        | zero => rfl
        | succ n => rw [hbs, List.replicate_succ, List.cons_append] at hs; simp [dotdot] at hs
      have hP'e : P' = [[]] := by rw [hbs] at hs; simpa using hs
      rw [er]
      refine ⟨?_, by simp, ?_, ?_, dot, [[]], rfl, .inl rfl, by intro h; simp [dot] at h⟩
      · intro h; rw [List.append_cancel_left h] at hd; simp at hd
      · apply normalize_of_walk _ _ (by simp) hP hPne
        have := hwalk [dot, []] (by simp)
        rw [hbs, List.replicate_zero, List.nil_append] at this
        rw [this, hP'e, walk_enter C hCp [] _ (by simp), walk_enter C hCp [] _ (by simp)]
        simp [Location.walk, Location.step]
      · intro y hy
        simp only [List.mem_cons, List.not_mem_nil, or_false] at hy
        rcases hy with h | h
        · exact .inl h
        · subst h; exact .inr (.inr (by simp [hP'e]))
    · have er : relativizeSegments (C ++ P') (C ++ b :: bs) = List.replicate bs.length dotdot ++ P' := by
        unfold relativizeSegments; dsimp only; rw [hloop]
        rw [if_neg (fun h => hne h.1), if_neg hs]
      rw [er]
      refine ⟨?_, hne, ?_, ?_, ?_⟩
      · intro h; rw [List.append_cancel_left h] at hd; exact hd rfl
      · exact normalize_of_walk _ _ (by simp [hP']) hP hPne (hwalk P' hP')
      · intro y hy
        rcases List.mem_append.1 hy with h | h
        · exact .inr (.inl (List.eq_of_mem_replicate h))
        · exact .inr (.inr (by simp [h]))
      · cases hbs : bs.length with
        | zero =>
          obtain ⟨x, r, rfl⟩ : ∃ x r, P' = x :: r := by
            cases P' with
            | nil => exact absurd rfl hP'
            | cons x r => exact ⟨x, r, rfl⟩
          have hxr : r = [] → x ≠ [] := by rintro rfl rfl; exact hs (by simp [hbs])
          refine ⟨x, r, by simp, .inr (.inr ⟨by simp, hxr⟩), ?_⟩
          intro hx
          exact ⟨C, r, rfl, fun h => hxr h hx⟩
        | succ n =>
          refine ⟨dotdot, List.replicate n dotdot ++ P', by simp [List.replicate_succ], .inr (.inl rfl), ?_⟩
          intro h; simp [dotdot] at h

end Verif.Uri

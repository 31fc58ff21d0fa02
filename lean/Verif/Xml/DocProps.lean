import Verif.Xml.DocLex

/-! # The document parser implements the grammar (C79) -/
namespace Verif.Xml

/-! ## Comments and processing instructions -/

theorem comment_ok (r : Str) : ∀ b : Str, ¬ [45, 45] <:+: b → ¬ [45] <:+ b →
    comment 0 (b ++ ([45, 45, 62] ++ r)) = some r ∧
    (b ≠ [] → b.head? ≠ some 45 → comment 1 (b ++ ([45, 45, 62] ++ r)) = some r)
  | [], _, _ => by simp [comment]
  | c :: t, h1, h2 => by
    have ht1 : ¬ [45, 45] <:+: t := fun h => h1 (List.infix_cons h)
    have ht2 : ¬ [45] <:+ t := fun h => h2 (h.trans (List.suffix_cons c t))
    obtain ⟨i1, i2⟩ := comment_ok r t ht1 ht2
    by_cases hc : c = 45
    · subst hc
      refine ⟨?_, fun _ h => absurd rfl h⟩
      have : comment 0 ((45 :: t) ++ ([45, 45, 62] ++ r)) = comment 1 (t ++ ([45, 45, 62] ++ r)) := by
        simp [comment]
      rw [this]
      apply i2
      · rintro rfl; exact h2 (List.suffix_refl _)
      · intro h
        cases t with
        | nil => simp at h
        | cons d t =>
          simp at h; subst h
          exact h1 ⟨[], t, by simp⟩
    · have : ∀ h, h < 2 → comment h ((c :: t) ++ ([45, 45, 62] ++ r)) =
          comment 0 (t ++ ([45, 45, 62] ++ r)) := by
        intro h hh
        have hh2 : h ≠ 2 := by omega
        have hh3 : ¬ 2 ≤ h := by omega
        simp only [List.cons_append, comment, hc, if_false, hh2, hh, if_true, hh3]
        split
        · rfl
        · split <;> rfl
      exact ⟨by rw [this 0 (by omega)]; exact i1, fun _ _ => by rw [this 1 (by omega)]; exact i1⟩

/-- The data ends with an odd number of question marks. -/
def OddMarks (data : Str) : Prop :=
  ∃ a n, data = a ++ List.replicate (2 * n + 1) 63 ∧ ∀ c, a.getLast? = some c → c ≠ 63

theorem piData_ok (r : Str) : ∀ data : Str, ¬ [63, 62] <:+: data → ¬ OddMarks data →
    piData (data ++ ([63, 62] ++ r)) = some r
  | [], _, _ => by simp [piData]
  | [c], h1, h2 => by
    by_cases hc : c = 63
    · subst hc
      exact absurd ⟨[], 0, by simp, by simp⟩ h2
    · have : piData ([c] ++ ([63, 62] ++ r)) = piData ([63, 62] ++ r) := by
        simp only [List.cons_append, List.nil_append]
        rw [piData.eq_5]
        · intro h _; exact hc h
        · intro t h; exact absurd h hc
        · intro t t' h; exact absurd h hc
      rw [this]; simp [piData]
  | c :: d :: t, h1, h2 => by
    by_cases hc : c = 63
    · subst hc
      have hd : d ≠ 62 := by
        rintro rfl; exact h1 ⟨[], t, by simp⟩
      have : piData ((63 :: d :: t) ++ ([63, 62] ++ r)) = piData (t ++ ([63, 62] ++ r)) := by
        simp only [List.cons_append]
        rw [piData.eq_4]
        intro h; exact absurd h hd
      rw [this]
      apply piData_ok r t
      · intro h; exact h1 (List.infix_cons (List.infix_cons h))
      · rintro ⟨a, n, rfl, ha⟩
        by_cases hd3 : d = 63
        · cases ha' : a with
          | nil =>
            subst ha' hd3
            apply h2
            refine ⟨[], n + 1, ?_, by simp⟩
            rw [show 2 * (n + 1) + 1 = 2 * n + 1 + 1 + 1 by omega]
            simp [List.replicate_succ]
          | cons x a' =>
            apply h2
            refine ⟨63 :: d :: a, n, by simp, ?_⟩
            intro c hc
            apply ha
            subst ha'
            simpa using hc
        · apply h2
          refine ⟨63 :: d :: a, n, by simp, ?_⟩
          intro c hc
          cases ha' : a with
          | nil => subst ha'; simp at hc; subst hc; exact hd3
          | cons x a' => apply ha; subst ha'; simpa using hc
    · have : piData ((c :: d :: t) ++ ([63, 62] ++ r)) = piData ((d :: t) ++ ([63, 62] ++ r)) := by
        simp only [List.cons_append]
        rw [piData.eq_5]
        · intro h _; exact hc h
        · intro t h; exact absurd h hc
        · intro t t' h; exact absurd h hc
      rw [this]
      apply piData_ok r (d :: t)
      · intro h; exact h1 (List.infix_cons h)
      · rintro ⟨a, n, e, ha⟩
        apply h2
        refine ⟨c :: a, n, by rw [e]; simp, ?_⟩
        intro c' hc'
        cases ha' : a with
        | nil => subst ha'; simp at hc'; subst hc'; exact hc
        | cons x a' => apply ha; subst ha'; simpa using hc'

theorem parsePI_ok {t data : Str} (h : GPI t data) (ho : ¬ OddMarks data) :
    ∃ u, t = [60, 63] ++ u ∧ ∀ r, parsePI (u ++ r) = some r := by
  obtain ⟨name, sp, h1, h2, h3, h4, h5, h6, rfl⟩ := h
  refine ⟨name ++ (sp ++ (data ++ [63, 62])), by simp, fun r => ?_⟩
  have hst : Stop isS (data ++ ([63, 62] ++ r)) := by
    cases data with
    | nil => exact stop_app (by decide)
    | cons c d => exact stop_cons (h5 c rfl)
  have hstn : Stop isNameChar (sp ++ (data ++ ([63, 62] ++ r))) := by
    by_cases hd : data = []
    · subst hd
      exact stop_space h3 (stop_app (by decide))
    · obtain ⟨x, xs, e⟩ := List.exists_cons_of_ne_nil (h6 hd)
      rw [e]
      exact stop_app (space_not_name (h3 x (by simp [e])))
  have e : (name ++ (sp ++ (data ++ [63, 62]))) ++ r = name ++ (sp ++ (data ++ ([63, 62] ++ r))) := by
    simp
  rw [e]
  unfold parsePI
  rw [parseName_ok h1 hstn]
  dsimp only
  rw [h2, (span_eq h3 hst).1, (span_eq h3 hst).2]
  simp only [Bool.false_eq_true, if_false]
  by_cases hsp : sp = []
  · rw [if_pos hsp]
    have hd : data = [] := by
      by_contra hd; exact h6 hd hsp
    subst hd hsp
    simp [lit]
  · rw [if_neg hsp]
    exact piData_ok r data h4 ho

/-- Comments and processing instructions that are skipped. -/
def SkipOk (i : Str) : Prop :=
  (∃ u, i = [60, 33, 45, 45] ++ u ∧ ∀ r, comment 0 (u ++ r) = some r) ∨
  (∃ u, i = [60, 63] ++ u ∧ ∀ r, parsePI (u ++ r) = some r)

/-! ## Character data -/

theorem charData_ok {r : Str} (hr : r = [] ∨ ∃ t, r = 60 :: t ∨ r = 38 :: t) : ∀ d : Str,
    GCharData d → charData (d ++ r) = (d, r)
  | [], _ => by
    rcases hr with rfl | ⟨t, rfl | rfl⟩ <;> simp [charData]
  | c :: d, ⟨h1, h2, h3⟩ => by
    have ih := charData_ok hr d ⟨fun h => h1 (List.mem_cons_of_mem _ h),
      fun h => h2 (List.mem_cons_of_mem _ h), fun h => h3 (List.infix_cons h)⟩
    have hc1 : c ≠ 60 := by rintro rfl; exact h1 (by simp)
    have hc2 : c ≠ 38 := by rintro rfl; exact h2 (by simp)
    have hl : ¬ (lit cdEnd (c :: (d ++ r))).isSome = true := by
      rw [lit_isSome]
      rintro ⟨u, hu⟩
      simp only [cdEnd, List.cons_append, List.nil_append, List.cons.injEq] at hu
      obtain ⟨rfl, hu⟩ := hu
      match d, hu with
      | [], hu =>
        rcases hr with rfl | ⟨t, rfl | rfl⟩ <;> simp at hu
      | [x], hu =>
        rcases hr with rfl | ⟨t, rfl | rfl⟩ <;> simp at hu
      | x :: y :: d, hu =>
        simp at hu
        obtain ⟨rfl, rfl, _⟩ := hu
        exact h3 ⟨[], d, by simp [cdEnd]⟩
    simp only [List.cons_append, charData, hc1, hc2, hl, false_or, ih]
    simp

theorem charData_sound : ∀ s : Str, s = (charData s).1 ++ (charData s).2 ∧ GCharData (charData s).1 ∧
    ((charData s).2 = [] ∨ ∃ t, (charData s).2 = 60 :: t ∨ (charData s).2 = 38 :: t ∨
      (charData s).2 = cdEnd ++ t)
  | [] => by simp [charData, GCharData, cdEnd]
  | c :: t => by
    obtain ⟨i1, ⟨i2, i3, i4⟩, i5⟩ := charData_sound t
    unfold charData
    by_cases h : c = 60 ∨ c = 38 ∨ (lit cdEnd (c :: t)).isSome
    · rw [if_pos h]
      refine ⟨by simp, by simp [GCharData, cdEnd], Or.inr ?_⟩
      rcases h with rfl | rfl | h
      · exact ⟨t, Or.inl rfl⟩
      · exact ⟨t, Or.inr (Or.inl rfl)⟩
      · obtain ⟨u, hu⟩ := (lit_isSome _ _).1 h
        exact ⟨u, Or.inr (Or.inr hu)⟩
    · rw [if_neg h]
      simp only [not_or] at h
      refine ⟨by simpa using i1, ⟨?_, ?_, ?_⟩, i5⟩
      · simp only [List.mem_cons, not_or]; exact ⟨fun e => h.1 e.symm, i2⟩
      · simp only [List.mem_cons, not_or]; exact ⟨fun e => h.2.1 e.symm, i3⟩
      · intro hin
        rcases List.infix_cons_iff.1 hin with hp | hp
        · obtain ⟨u, hu⟩ := hp
          apply h.2.2
          rw [lit_isSome]
          refine ⟨u ++ (charData t).2, ?_⟩
          rw [← List.append_assoc, hu, List.cons_append, ← i1]
        · exact i4 hp

theorem cdata_ok (r : Str) : ∀ d : Str, ¬ cdEnd <:+: d → cdata (d ++ (cdEnd ++ r)) = (d, cdEnd ++ r)
  | [], _ => by
    have : (lit cdEnd (cdEnd ++ r)).isSome = true := (lit_isSome _ _).2 ⟨r, rfl⟩
    have e : cdEnd ++ r = 93 :: ([93, 62] ++ r) := rfl
    rw [List.nil_append, e]
    unfold cdata
    rw [← e, if_pos this]
  | c :: d, h => by
    have ih := cdata_ok r d (fun h' => h (List.infix_cons h'))
    have hl : ¬ (lit cdEnd (c :: (d ++ (cdEnd ++ r)))).isSome = true := by
      rw [lit_isSome]
      rintro ⟨u, hu⟩
      simp only [cdEnd, List.cons_append, List.nil_append, List.cons.injEq] at hu
      obtain ⟨rfl, hu⟩ := hu
      match d, hu with
      | [], hu => simp at hu
      | [x], hu => simp at hu
      | x :: y :: d, hu =>
        simp at hu
        obtain ⟨rfl, rfl, _⟩ := hu
        exact h ⟨[], d, by simp [cdEnd]⟩
    simp only [List.cons_append, cdata, hl, if_false, ih]
    simp

theorem cdata_sound : ∀ s : Str, s = (cdata s).1 ++ (cdata s).2 ∧ ¬ cdEnd <:+: (cdata s).1
  | [] => by simp [cdata, cdEnd]
  | c :: t => by
    obtain ⟨i1, i2⟩ := cdata_sound t
    unfold cdata
    by_cases h : (lit cdEnd (c :: t)).isSome = true
    · rw [if_pos h]; exact ⟨by simp, by simp [cdEnd]⟩
    · rw [if_neg h]
      refine ⟨by simpa using i1, ?_⟩
      intro hin
      rcases List.infix_cons_iff.1 hin with hp | hp
      · obtain ⟨u, hu⟩ := hp
        apply h
        rw [lit_isSome]
        refine ⟨u ++ (cdata t).2, ?_⟩
        rw [← List.append_assoc, hu, List.cons_append, ← i1]
      · exact i2 hp

/-! ## Children -/

/-- Add a piece to the children. -/
def addPiece (acc : List Kid) : Piece → List Kid
  | .data d => addData acc d
  | .elt e => acc ++ [.elt e]

theorem addData_nil (acc : List Kid) : addData acc [] = acc := by
  cases acc <;> rfl

theorem addData_elt (acc : List Kid) (e : Elt) (d : Str) (hd : d ≠ []) :
    addData (acc ++ [.elt e]) d = acc ++ [.elt e, .text d] := by
  obtain ⟨c, t, rfl⟩ := List.exists_cons_of_ne_nil hd
  induction acc with
  | nil => simp [addData]
  | cons k acc ih =>
    cases acc with
    | nil =>
      cases k with
      | text s => simp [addData]
      | elt e' => simp [addData]
    | cons k2 acc =>
      rw [List.cons_append, addData.eq_4]
      · rw [ih]; simp
      all_goals (intros; simp_all)

theorem addData_text (acc : List Kid) (s d : Str) : addData (acc ++ [.text s]) d = acc ++ [.text (s ++ d)] := by
  by_cases hd : d = []
  · subst hd; rw [addData_nil]; simp
  obtain ⟨c, t, rfl⟩ := List.exists_cons_of_ne_nil hd
  induction acc with
  | nil => simp [addData]
  | cons k acc ih =>
    cases acc with
    | nil =>
      cases k with
      | text s => simp [addData]
      | elt e' => simp [addData]
    | cons k2 acc =>
      rw [List.cons_append, addData.eq_4]
      · rw [ih]; simp
      all_goals (intros; simp_all)

theorem addData_addData (acc : List Kid) (d s : Str) :
    addData (addData acc d) s = addData acc (d ++ s) := by
  by_cases hd : d = []
  · subst hd; rw [addData_nil]; simp
  by_cases hs : s = []
  · subst hs; rw [addData_nil]; simp
  have hds : d ++ s ≠ [] := by simp [hd]
  rcases List.eq_nil_or_concat acc with rfl | ⟨as, k, rfl⟩
  · obtain ⟨c, t, rfl⟩ := List.exists_cons_of_ne_nil hd
    obtain ⟨c', t', rfl⟩ := List.exists_cons_of_ne_nil hs
    simp [addData]
  · rw [List.concat_eq_append]
    cases k with
    | text u => rw [addData_text, addData_text, addData_text]; simp
    | elt e =>
      rw [addData_elt _ _ _ hd, addData_elt _ _ _ hds]
      have : as ++ [Kid.elt e, Kid.text d] = (as ++ [Kid.elt e]) ++ [Kid.text d] := by simp
      rw [this, addData_text]; simp

/-- Add more children, joining data. -/
def glue (acc : List Kid) : List Kid → List Kid
  | .text s :: ks => addData acc s ++ ks
  | ks => acc ++ ks

theorem joinData_head (ps : List Piece) : ∀ s ks, joinData ps = .text s :: ks → s ≠ [] := by
  induction ps with
  | nil => intro s ks h; cases h
  | cons p ps ih =>
    intro s ks h
    cases p with
    | elt e => simp [joinData] at h
    | data d =>
      unfold joinData at h
      split at h
      · rename_i s' ks' hj
        injection h with h1 h2
        injection h1 with h1
        subst h1
        simp [ih _ _ hj]
      · rename_i hne
        split at h
        · exact absurd h (hne s ks)
        · rename_i hd
          injection h with h1 h2
          injection h1 with h1
          subst h1
          exact hd

theorem fold_glue (ps : List Piece) : ∀ acc : List Kid, ps.foldl addPiece acc = glue acc (joinData ps) := by
  induction ps with
  | nil => intro acc; simp [joinData, glue]
  | cons p ps ih =>
    intro acc
    rw [List.foldl_cons, ih]
    cases p with
    | elt e =>
      simp only [addPiece, joinData, glue]
      cases hj : joinData ps with
      | nil => simp [glue]
      | cons k ks =>
        cases k with
        | text s =>
          simp only [glue]
          rw [addData_elt _ _ _ (joinData_head ps s ks hj)]
          simp
        | elt e' => simp [glue]
    | data d =>
      simp only [addPiece, joinData]
      split
      · rename_i s ks hj
        simp only [glue]
        rw [hj]
        simp only [glue]
        rw [addData_addData]
      · rename_i hne
        have hg : ∀ a, glue a (joinData ps) = a ++ joinData ps := by
          intro a
          cases hj : joinData ps with
          | nil => rfl
          | cons k ks =>
            cases k with
            | text s => exact absurd hj (hne s ks)
            | elt e => rfl
        rw [hg]
        split
        · rename_i hd; subst hd; rw [addData_nil, hg]
        · rfl

theorem fold_join (ps : List Piece) : ps.foldl addPiece [] = joinData ps := by
  rw [fold_glue]
  cases hj : joinData ps with
  | nil => rfl
  | cons k ks =>
    cases k with
    | elt e => rfl
    | text s =>
      have := joinData_head ps s ks hj
      obtain ⟨c, t, rfl⟩ := List.exists_cons_of_ne_nil this
      simp [glue, addData]

/-! ## Content and elements: every text of the grammar is parsed -/

theorem lead_data {c : Nat} (t : Str) (h1 : c ≠ 60) (h2 : c ≠ 38) : lead (c :: t) = .data := by
  unfold lead
  split <;> simp_all

theorem lead_elt {c : Nat} (t : Str) (h : isNameStart c = true) : lead (60 :: c :: t) = .elt := by
  have h1 : c ≠ 33 := by rintro rfl; exact absurd h (by decide)
  have h2 : c ≠ 63 := by rintro rfl; exact absurd h (by decide)
  have h3 : c ≠ 47 := by rintro rfl; exact absurd h (by decide)
  unfold lead
  split <;> simp_all

theorem parseETag_ok {name sp : Str} (hn : GName name) (hs : GSpace sp) (r : Str) :
    parseETag ([60, 47] ++ (name ++ (sp ++ ([62] ++ r)))) = some (name, r) := by
  unfold parseETag
  have : lit [60, 47] ([60, 47] ++ (name ++ (sp ++ ([62] ++ r)))) = some (name ++ (sp ++ ([62] ++ r))) :=
    (lit_iff _ _ _).2 rfl
  rw [this]
  dsimp only
  rw [parseName_ok hn (stop_space hs (stop_app (by decide)))]
  dsimp only
  rw [(span_eq hs (stop_app (by decide) : Stop isS ([62] ++ r))).2]
  rfl

theorem element_cons (k : Nat) (t : Str) : element (k + 1) (60 :: t) =
    (need (parseName t)).then fun name r =>
      (stagLoop k [] r).then fun p r' =>
        if p.2 then .ok (.mk name p.1 []) r'
        else
          (content k [] r').then fun kids r'' =>
            (need (parseETag r'')).then fun en r3 =>
              if en = name then .ok (.mk name p.1 kids) r3 else .bad := by
  rw [element]

/-- What follows content. -/
def Ends (r : Str) : Prop := ∃ u, r = 60 :: 47 :: u

theorem element_ok {Skip : Str → Prop} (hS : ∀ i, Skip i → SkipOk i) {i : Str} {e : Elt}
    (h : GElement Skip i e) : ∀ r, ∃ n, ∀ k, n ≤ k → element k (i ++ r) = .ok e r := by
  have key := @GElement.rec Skip
    (fun i e _ => (∃ c t, i = 60 :: c :: t ∧ isNameStart c = true) ∧
      ∀ r, ∃ n, ∀ k, n ≤ k → element k (i ++ r) = .ok e r)
    (fun t ps _ => ∀ acc r, Ends r → ∃ n, ∀ k, n ≤ k →
      content k acc (t ++ r) = .ok (ps.foldl addPiece acc) r)
    (fun t ps _ => (t = [] ∨ ∃ u, t = 60 :: u ∨ t = 38 :: u) ∧ ∀ acc r, Ends r → ∃ n, ∀ k, n ≤ k →
      content k acc (t ++ r) = .ok (ps.foldl addPiece acc) r)
    ?_ ?_ ?_ ?_ ?_ ?_ ?_ ?_ i e h
  · exact key.2
  · -- empty-element tag
    intro name atext sp attrs h1 h2 h3 h4
    refine ⟨?_, fun r => ?_⟩
    · cases name with
      | nil => exact absurd h1 id
      | cons c nt => exact ⟨c, _, by simp; rfl, h1.1⟩
    · obtain ⟨n, hn⟩ := stag_ok h2 sp h4 true [] r (by simpa using h3)
      refine ⟨n + 1, fun k hk => ?_⟩
      obtain ⟨k, rfl⟩ : ∃ j, k = j + 1 := ⟨k - 1, by omega⟩
      have e1 : ([60] ++ (name ++ (atext ++ (sp ++ [47, 62])))) ++ r =
          60 :: (name ++ (atext ++ (sp ++ (tagEnd true ++ r)))) := by simp [tagEnd]
      have hstop : Stop isNameChar (atext ++ (sp ++ (tagEnd true ++ r))) := by
        cases h2 with
        | nil =>
          rw [List.nil_append]
          exact stop_space h4 (by simp only [tagEnd]; exact stop_app (by decide))
        | @cons s0 name' sp1 sp2 v value t q attrs g1 g2 g3 g4 g5 g6 g7 g8 =>
          obtain ⟨x, xs, rfl⟩ := List.exists_cons_of_ne_nil g2
          exact stop_app (space_not_name (g1 x (by simp)))
      rw [e1]
      rw [element_cons, parseName_ok h1 hstop]
      simp only [need, Out.then]
      rw [hn k (by omega)]
      simp
  · -- element with content
    intro name atext sp ctext sp2 attrs ps h1 h2 h3 h4 h5 h6 ih
    refine ⟨?_, fun r => ?_⟩
    · cases name with
      | nil => exact absurd h1 id
      | cons c nt => exact ⟨c, _, by simp; rfl, h1.1⟩
    · obtain ⟨n2, hn2⟩ := ih [] ([60, 47] ++ (name ++ (sp2 ++ ([62] ++ r)))) ⟨_, rfl⟩
      obtain ⟨n, hn⟩ := stag_ok h2 sp h4 false []
        (ctext ++ ([60, 47] ++ (name ++ (sp2 ++ ([62] ++ r))))) (by simpa using h3)
      refine ⟨n + n2 + 1, fun k hk => ?_⟩
      obtain ⟨k, rfl⟩ : ∃ j, k = j + 1 := ⟨k - 1, by omega⟩
      have e1 : ([60] ++ (name ++ (atext ++ (sp ++ ([62] ++ (ctext ++ ([60, 47] ++
          (name ++ (sp2 ++ [62]))))))))) ++ r =
          60 :: (name ++ (atext ++ (sp ++ (tagEnd false ++
            (ctext ++ ([60, 47] ++ (name ++ (sp2 ++ ([62] ++ r))))))))) := by simp [tagEnd]
      have hstop : ∀ w, Stop isNameChar (atext ++ (sp ++ (tagEnd false ++ w))) := by
        intro w
        cases h2 with
        | nil =>
          rw [List.nil_append]
          exact stop_space h4 (by simp only [tagEnd]; exact stop_app (by decide))
        | @cons s0 name' sp1 sp2 v value t q attrs g1 g2 g3 g4 g5 g6 g7 g8 =>
          obtain ⟨x, xs, rfl⟩ := List.exists_cons_of_ne_nil g2
          exact stop_app (space_not_name (g1 x (by simp)))
      rw [e1]
      rw [element_cons, parseName_ok h1 (hstop _)]
      simp only [need, Out.then]
      rw [hn k (by omega)]
      simp only [Bool.false_eq_true, if_false]
      rw [hn2 k (by omega)]
      dsimp only
      rw [parseETag_ok h1 h6]
      simp [fold_join]
  · -- content
    intro d t ps hd _ ih acc r hr
    obtain ⟨ht, ih⟩ := ih
    have hbeg : ∃ u, t ++ r = 60 :: u ∨ t ++ r = 38 :: u := by
      obtain ⟨u, rfl⟩ := hr
      rcases ht with rfl | ⟨v, rfl | rfl⟩
      · exact ⟨47 :: u, Or.inl rfl⟩
      · exact ⟨v ++ 60 :: 47 :: u, Or.inl rfl⟩
      · exact ⟨v ++ 60 :: 47 :: u, Or.inr rfl⟩
    obtain ⟨n, hn⟩ := ih (addData acc d) r hr
    cases d with
    | nil =>
      refine ⟨n, fun k hk => ?_⟩
      have := hn k hk
      rw [addData_nil] at this
      simpa [addPiece, addData_nil] using this
    | cons c d =>
      refine ⟨n + 1, fun k hk => ?_⟩
      obtain ⟨k, rfl⟩ : ∃ j, k = j + 1 := ⟨k - 1, by omega⟩
      have hc1 : c ≠ 60 := by rintro rfl; exact hd.1 (by simp)
      have hc2 : c ≠ 38 := by rintro rfl; exact hd.2.1 (by simp)
      have hcd := charData_ok (Or.inr hbeg) (c :: d) hd
      rw [List.append_assoc]
      unfold content
      rw [show (c :: d) ++ (t ++ r) = c :: (d ++ (t ++ r)) from rfl, lead_data _ hc1 hc2]
      dsimp only
      rw [show c :: (d ++ (t ++ r)) = (c :: d) ++ (t ++ r) from rfl, hcd]
      dsimp only
      rw [hn k (by omega)]
      rfl
  · -- nothing
    refine ⟨Or.inl rfl, fun acc r hr => ⟨1, fun k hk => ?_⟩⟩
    obtain ⟨k, rfl⟩ : ∃ j, k = j + 1 := ⟨k - 1, by omega⟩
    obtain ⟨u, rfl⟩ := hr
    unfold content
    simp [lead]
  · -- child element
    intro i t e ps _ _ ihe ihc
    obtain ⟨⟨c, u, rfl, hc⟩, ihe⟩ := ihe
    refine ⟨Or.inr ⟨_, Or.inl rfl⟩, fun acc r hr => ?_⟩
    obtain ⟨n1, hn1⟩ := ihe (t ++ r)
    obtain ⟨n2, hn2⟩ := ihc (acc ++ [.elt e]) r hr
    refine ⟨n1 + n2 + 1, fun k hk => ?_⟩
    obtain ⟨k, rfl⟩ : ∃ j, k = j + 1 := ⟨k - 1, by omega⟩
    have := hn1 k (by omega)
    rw [List.append_assoc]
    simp only [List.cons_append] at this ⊢
    unfold content
    rw [lead_elt _ hc]
    dsimp only
    rw [this]
    simp only [Out.then]
    rw [hn2 k (by omega)]
    rfl
  · -- reference
    intro i t c ps hr _ ihc
    obtain ⟨u, rfl, hu⟩ := parseRef_ok hr
    refine ⟨Or.inr ⟨_, Or.inr rfl⟩, fun acc r hr => ?_⟩
    obtain ⟨n2, hn2⟩ := ihc (addData acc [c]) r hr
    refine ⟨n2 + 1, fun k hk => ?_⟩
    obtain ⟨k, rfl⟩ : ∃ j, k = j + 1 := ⟨k - 1, by omega⟩
    rw [List.append_assoc]
    simp only [List.cons_append]
    unfold content
    have : lead (38 :: (u ++ (t ++ r))) = .ref (u ++ (t ++ r)) := rfl
    rw [this]
    dsimp only
    rw [hu]
    simp only [need, Out.then]
    rw [hn2 k (by omega)]
    rfl
  · -- CDATA section
    intro d t ps hd _ ihc
    refine ⟨Or.inr ⟨_, Or.inl rfl⟩, fun acc r hr => ?_⟩
    obtain ⟨n2, hn2⟩ := ihc (addData acc d) r hr
    refine ⟨n2 + 1, fun k hk => ?_⟩
    obtain ⟨k, rfl⟩ : ∃ j, k = j + 1 := ⟨k - 1, by omega⟩
    have e1 : (cdStart ++ (d ++ (cdEnd ++ t))) ++ r =
        60 :: 33 :: 91 :: ([67, 68, 65, 84, 65, 91] ++ (d ++ (cdEnd ++ (t ++ r)))) := by
      simp [cdStart]
    rw [e1]
    unfold content
    have : lead (60 :: 33 :: 91 :: ([67, 68, 65, 84, 65, 91] ++ (d ++ (cdEnd ++ (t ++ r))))) =
        .cd (d ++ (cdEnd ++ (t ++ r))) := by
      simp [lead, lit]
    rw [this]
    dsimp only
    rw [cdata_ok _ _ hd]
    dsimp only
    rw [(lit_iff _ _ _).2 (rfl : cdEnd ++ (t ++ r) = cdEnd ++ (t ++ r))]
    dsimp only
    rw [hn2 k (by omega)]
    rfl
  · -- comment or processing instruction
    intro i t ps hi _ ihc
    rcases hS i hi with ⟨u, rfl, hu⟩ | ⟨u, rfl, hu⟩
    · refine ⟨Or.inr ⟨_, Or.inl rfl⟩, fun acc r hr => ?_⟩
      obtain ⟨n2, hn2⟩ := ihc acc r hr
      refine ⟨n2 + 1, fun k hk => ?_⟩
      obtain ⟨k, rfl⟩ : ∃ j, k = j + 1 := ⟨k - 1, by omega⟩
      have e1 : (([60, 33, 45, 45] ++ u) ++ t) ++ r = 60 :: 33 :: 45 :: 45 :: (u ++ (t ++ r)) := by simp
      rw [e1]
      unfold content
      have : lead (60 :: 33 :: 45 :: 45 :: (u ++ (t ++ r))) = .com (u ++ (t ++ r)) := rfl
      rw [this]
      dsimp only
      rw [hu]
      exact hn2 k (by omega)
    · refine ⟨Or.inr ⟨_, Or.inl rfl⟩, fun acc r hr => ?_⟩
      obtain ⟨n2, hn2⟩ := ihc acc r hr
      refine ⟨n2 + 1, fun k hk => ?_⟩
      obtain ⟨k, rfl⟩ : ∃ j, k = j + 1 := ⟨k - 1, by omega⟩
      have e1 : (([60, 63] ++ u) ++ t) ++ r = 60 :: 63 :: (u ++ (t ++ r)) := by simp
      rw [e1]
      unfold content
      have : lead (60 :: 63 :: (u ++ (t ++ r))) = .pi (u ++ (t ++ r)) := rfl
      rw [this]
      dsimp only
      rw [hu]
      exact hn2 k (by omega)

end Verif.Xml

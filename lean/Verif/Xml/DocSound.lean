import Verif.Xml.DocProps

/-! # What the document parser accepts, exactly (C79) -/
namespace Verif.Xml

/-! ## The comments and processing instructions that are accepted -/

/-- A comment, with the spaces that `parse_comment` allows before the final `>`. -/
def LComment (t : Str) : Prop :=
  ∃ b sp, t = [60, 33, 45, 45] ++ (b ++ ([45, 45] ++ (sp ++ [62]))) ∧ ¬ [45, 45] <:+: b ∧
    ¬ [45] <:+ b ∧ GSpace sp

/-- Data in which every `?` is followed by a character other than `>`, taking the characters after
`?` in pairs. -/
inductive Paired : Str → Prop where
  | nil : Paired []
  | char {c : Nat} {t : Str} : c ≠ 63 → Paired t → Paired (c :: t)
  | pair {d : Nat} {t : Str} : d ≠ 62 → Paired t → Paired (63 :: d :: t)

/-- A processing instruction whose data is `Paired`. -/
def LPI (t : Str) : Prop :=
  ∃ name sp data, GName name ∧ isXmlName name = false ∧ GSpace sp ∧ Paired data ∧
    (∀ c, data.head? = some c → isS c = false) ∧ (data ≠ [] → sp ≠ []) ∧
    t = [60, 63] ++ (name ++ (sp ++ (data ++ [63, 62])))

/-- What is accepted as a comment or processing instruction. -/
def LSkip (t : Str) : Prop := LComment t ∨ LPI t

/-- A comment that is not closed. -/
def OpenComment (t : Str) : Prop :=
  (∃ b, t = [60, 33, 45, 45] ++ b ∧ ¬ [45, 45] <:+: b) ∨
  (∃ b sp, t = [60, 33, 45, 45] ++ (b ++ ([45, 45] ++ sp)) ∧ ¬ [45, 45] <:+: b ∧ ¬ [45] <:+ b ∧
    GSpace sp)

/-- A processing instruction that is not closed. -/
def OpenPI (t : Str) : Prop :=
  ∃ name sp data, GName name ∧ isXmlName name = false ∧ GSpace sp ∧ sp ≠ [] ∧ Paired data ∧
    (∀ c, data.head? = some c → isS c = false) ∧ t = [60, 63] ++ (name ++ (sp ++ data))

/-- What can end the text after the root element. -/
def Open (t : Str) : Prop := t = [] ∨ OpenComment t ∨ OpenPI t

theorem comment_space (r : Str) : ∀ sp : Str, GSpace sp → comment 2 (sp ++ (62 :: r)) = some r
  | [], _ => by simp [comment]
  | c :: sp, h => by
    have hc := h c (by simp)
    have hc1 : c ≠ 45 := by rintro rfl; exact absurd hc (by decide)
    have hc2 : c ≠ 62 := by rintro rfl; exact absurd hc (by decide)
    simp only [List.cons_append, comment, hc1, hc2, if_false, hc, if_true]
    simpa using comment_space r sp (fun c h' => h c (by simp [h']))

/-- The body of a comment up to its two hyphens. -/
theorem comment_body (r : Str) : ∀ b : Str, ¬ [45, 45] <:+: b → ¬ [45] <:+ b →
    comment 0 (b ++ ([45, 45] ++ r)) = comment 2 r ∧
    (b ≠ [] → b.head? ≠ some 45 → comment 1 (b ++ ([45, 45] ++ r)) = comment 2 r)
  | [], _, _ => by simp [comment]
  | c :: t, h1, h2 => by
    have ht1 : ¬ [45, 45] <:+: t := fun h => h1 (List.infix_cons h)
    have ht2 : ¬ [45] <:+ t := fun h => h2 (h.trans (List.suffix_cons c t))
    obtain ⟨i1, i2⟩ := comment_body r t ht1 ht2
    by_cases hc : c = 45
    · subst hc
      refine ⟨?_, fun _ h => absurd rfl h⟩
      have : comment 0 ((45 :: t) ++ ([45, 45] ++ r)) = comment 1 (t ++ ([45, 45] ++ r)) := by
        simp [comment]
      rw [this]
      apply i2
      · rintro rfl; exact h2 (List.suffix_refl _)
      · intro h
        cases t with
        | nil => simp at h
        | cons d t =>
          simp at h; subst h
          exact h1 ⟨[], t, by simp⟩
    · have : ∀ h, h < 2 → comment h ((c :: t) ++ ([45, 45] ++ r)) =
          comment 0 (t ++ ([45, 45] ++ r)) := by
        intro h hh
        have hh2 : h ≠ 2 := by omega
        have hh3 : ¬ 2 ≤ h := by omega
        simp only [List.cons_append, comment, hc, if_false, hh2, hh, if_true, hh3]
        split
        · rfl
        · split <;> rfl
      exact ⟨by rw [this 0 (by omega)]; exact i1, fun _ _ => by rw [this 1 (by omega)]; exact i1⟩

theorem comment2_sound : ∀ (s r : Str), comment 2 s = some r →
    (∃ sp, GSpace sp ∧ s = sp ++ 62 :: r) ∨ (GSpace s ∧ r = [])
  | [], r, h => by
    simp [comment] at h
    exact Or.inr ⟨by simp [GSpace], h⟩
  | c :: t, r, h => by
    unfold comment at h
    by_cases h1 : c = 45
    · simp [h1] at h
    rw [if_neg h1] at h
    by_cases h2 : c = 62
    · subst h2
      simp at h
      exact Or.inl ⟨[], by simp [GSpace], by simp [h]⟩
    rw [if_neg h2] at h
    by_cases h3 : isS c = true
    · rw [if_pos h3] at h
      simp only [Nat.lt_irrefl, if_false] at h
      rcases comment2_sound t r h with ⟨sp, hs, rfl⟩ | ⟨hs, rfl⟩
      · exact Or.inl ⟨c :: sp, by
          intro x hx; rcases List.mem_cons.1 hx with rfl | hx
          · exact h3
          · exact hs x hx, by simp⟩
      · exact Or.inr ⟨by
          intro x hx; rcases List.mem_cons.1 hx with rfl | hx
          · exact h3
          · exact hs x hx, rfl⟩
    · rw [if_neg h3] at h
      simp at h

/-- No two hyphens in a row, none at the start. -/
theorem infix_cons_hyphen {c : Nat} {b : Str} (h : ¬ [45, 45] <:+: b)
    (hc : c = 45 → b.head? ≠ some 45) : ¬ [45, 45] <:+: c :: b := by
  intro hin
  rcases List.infix_cons_iff.1 hin with ⟨u, hu⟩ | hp
  · simp at hu
    obtain ⟨rfl, rfl⟩ := hu
    exact hc rfl rfl
  · exact h hp

theorem suffix_cons_hyphen {c : Nat} {b : Str} (h : ¬ [45] <:+ b) (hc : b = [] → c ≠ 45) :
    ¬ [45] <:+ c :: b := by
  intro hs
  rcases List.suffix_cons_iff.1 hs with e | e
  · simp at e
    exact hc e.2 e.1.symm
  · exact h e

/-- A comment that is read is closed, or ends the text; in the second part one hyphen has been
read. -/
theorem comment_sound : ∀ (s r : Str),
    (comment 0 s = some r →
      (∃ b s', s = b ++ ([45, 45] ++ s') ∧ ¬ [45, 45] <:+: b ∧ ¬ [45] <:+ b ∧ comment 2 s' = some r) ∨
      (¬ [45, 45] <:+: s ∧ r = [])) ∧
    (comment 1 s = some r →
      (∃ s', s = 45 :: s' ∧ comment 2 s' = some r) ∨
      (∃ b s', s = b ++ ([45, 45] ++ s') ∧ ¬ [45, 45] <:+: b ∧ ¬ [45] <:+ b ∧ b ≠ [] ∧
        b.head? ≠ some 45 ∧ comment 2 s' = some r) ∨
      (¬ [45, 45] <:+: s ∧ s.head? ≠ some 45 ∧ r = []))
  | [], r => by
    refine ⟨fun h => Or.inr ⟨by simp, ?_⟩, fun h => Or.inr (Or.inr ⟨by simp, by simp, ?_⟩)⟩ <;>
    · simp [comment] at h; exact h
  | c :: t, r => by
    obtain ⟨i1, i2⟩ := comment_sound t r
    by_cases hc : c = 45
    · subst hc
      constructor
      · intro h
        have h' : comment 1 t = some r := by simpa [comment] using h
        rcases i2 h' with ⟨s', rfl, hs⟩ | ⟨b, s', rfl, hb1, hb2, hb3, hb4, hs⟩ | ⟨h1, h2, h3⟩
        · exact Or.inl ⟨[], s', by simp, by simp, by simp, hs⟩
        · exact Or.inl ⟨45 :: b, s', by simp, infix_cons_hyphen hb1 (fun _ => hb4),
            suffix_cons_hyphen hb2 (fun e => absurd e hb3), hs⟩
        · exact Or.inr ⟨infix_cons_hyphen h1 (fun _ => h2), h3⟩
      · intro h
        have h' : comment 2 t = some r := by simpa [comment] using h
        exact Or.inl ⟨t, rfl, h'⟩
    · have hstep : ∀ h, h < 2 → comment h (c :: t) = comment 0 t := by
        intro h hh
        have hh2 : h ≠ 2 := by omega
        have hh3 : ¬ 2 ≤ h := by omega
        simp only [comment, hc, if_false, hh2, hh, if_true, hh3]
        split
        · rfl
        · split <;> rfl
      have hcom : comment 0 t = some r →
          (∃ b s', c :: t = b ++ ([45, 45] ++ s') ∧ ¬ [45, 45] <:+: b ∧ ¬ [45] <:+ b ∧ b ≠ [] ∧
            b.head? ≠ some 45 ∧ comment 2 s' = some r) ∨
          (¬ [45, 45] <:+: c :: t ∧ (c :: t).head? ≠ some 45 ∧ r = []) := by
        intro h
        rcases i1 h with ⟨b, s', rfl, hb1, hb2, hs⟩ | ⟨h1, h2⟩
        · exact Or.inl ⟨c :: b, s', by simp, infix_cons_hyphen hb1 (fun e => absurd e hc),
            suffix_cons_hyphen hb2 (fun _ => hc), by simp, by simpa using hc, hs⟩
        · exact Or.inr ⟨infix_cons_hyphen h1 (fun e => absurd e hc), by simpa using hc, h2⟩
      constructor
      · intro h
        rw [hstep 0 (by omega)] at h
        rcases hcom h with ⟨b, s', h1, h2, h3, _, _, h6⟩ | ⟨h1, _, h3⟩
        · exact Or.inl ⟨b, s', h1, h2, h3, h6⟩
        · exact Or.inr ⟨h1, h3⟩
      · intro h
        rw [hstep 1 (by omega)] at h
        exact Or.inr (hcom h)

/-- A comment that is read. -/
theorem comment_read {s r : Str} (h : comment 0 s = some r) :
    (∃ u, s = u ++ r ∧ LComment ([60, 33, 45, 45] ++ u)) ∨
    (r = [] ∧ OpenComment ([60, 33, 45, 45] ++ s)) := by
  rcases (comment_sound s r).1 h with ⟨b, s', rfl, hb1, hb2, hs⟩ | ⟨h1, h2⟩
  · rcases comment2_sound s' r hs with ⟨sp, hsp, rfl⟩ | ⟨hsp, rfl⟩
    · exact Or.inl ⟨b ++ ([45, 45] ++ (sp ++ [62])), by simp, b, sp, rfl, hb1, hb2, hsp⟩
    · exact Or.inr ⟨rfl, Or.inr ⟨b, s', rfl, hb1, hb2, hsp⟩⟩
  · exact Or.inr ⟨h2, Or.inl ⟨s, rfl, h1⟩⟩

theorem comment_not_hyphens : ∀ (s : Str), ¬ [45, 45] <:+: s →
    comment 0 s = some [] ∧ (s.head? ≠ some 45 → comment 1 s = some [])
  | [], _ => by simp [comment]
  | c :: t, h => by
    have ht : ¬ [45, 45] <:+: t := fun h' => h (List.infix_cons h')
    obtain ⟨i1, i2⟩ := comment_not_hyphens t ht
    by_cases hc : c = 45
    · subst hc
      refine ⟨?_, fun h' => absurd rfl h'⟩
      have : comment 0 (45 :: t) = comment 1 t := by simp [comment]
      rw [this]
      apply i2
      intro h'
      cases t with
      | nil => simp at h'
      | cons d t =>
        simp at h'; subst h'
        exact h ⟨[], t, by simp⟩
    · have hstep : ∀ h, h < 2 → comment h (c :: t) = comment 0 t := by
        intro h hh
        have hh2 : h ≠ 2 := by omega
        have hh3 : ¬ 2 ≤ h := by omega
        simp only [comment, hc, if_false, hh2, hh, if_true, hh3]
        split
        · rfl
        · split <;> rfl
      exact ⟨by rw [hstep 0 (by omega)]; exact i1, fun _ => by rw [hstep 1 (by omega)]; exact i1⟩

theorem comment2_spaces : ∀ sp : Str, GSpace sp → comment 2 sp = some []
  | [], _ => by simp [comment]
  | c :: sp, h => by
    have hc := h c (by simp)
    have hc1 : c ≠ 45 := by rintro rfl; exact absurd hc (by decide)
    have hc2 : c ≠ 62 := by rintro rfl; exact absurd hc (by decide)
    simp only [comment, hc1, hc2, if_false, hc, if_true]
    simpa using comment2_spaces sp (fun c h' => h c (by simp [h']))

theorem openComment_ok {t : Str} (h : OpenComment t) :
    ∃ u, t = [60, 33, 45, 45] ++ u ∧ comment 0 u = some [] := by
  rcases h with ⟨b, rfl, hb⟩ | ⟨b, sp, rfl, h1, h2, h3⟩
  · exact ⟨b, rfl, (comment_not_hyphens b hb).1⟩
  · exact ⟨_, rfl, by rw [(comment_body sp b h1 h2).1]; exact comment2_spaces sp h3⟩

/-! ### Processing instructions -/

theorem piData_paired (r : Str) {data : Str} (h : Paired data) :
    piData (data ++ ([63, 62] ++ r)) = some r := by
  induction h with
  | nil => simp [piData]
  | @char c t hc _ ih =>
    rw [List.cons_append, piData.eq_5]
    · exact ih
    · intro h _; exact hc h
    · intro t h; exact absurd h hc
    · intro t t' h; exact absurd h hc
  | @pair d t hd _ ih =>
    rw [List.cons_append, List.cons_append, piData.eq_4]
    · exact ih
    · intro h; exact absurd h hd

theorem piData_open {data : Str} (h : Paired data) : piData data = some [] := by
  induction h with
  | nil => simp [piData]
  | @char c t hc _ ih =>
    rw [piData.eq_5]
    · exact ih
    · intro h _; exact hc h
    · intro t h; exact absurd h hc
    · intro t t' h; exact absurd h hc
  | @pair d t hd _ ih =>
    rw [piData.eq_4]
    · exact ih
    · intro h; exact absurd h hd

theorem piData_sound : ∀ (s r : Str), piData s = some r →
    (∃ data, Paired data ∧ s = data ++ ([63, 62] ++ r)) ∨ (Paired s ∧ r = [])
  | [], r, h => by
    simp [piData] at h
    exact Or.inr ⟨Paired.nil, h⟩
  | [c], r, h => by
    by_cases hc : c = 63
    · subst hc; simp [piData] at h
    · have : piData [c] = piData [] := by
        rw [piData.eq_5]
        · intro h _; exact hc h
        · intro t h; exact absurd h hc
        · intro t t' h; exact absurd h hc
      rw [this] at h
      simp [piData] at h
      exact Or.inr ⟨Paired.char hc Paired.nil, h⟩
  | c :: d :: t, r, h => by
    by_cases hc : c = 63
    · subst hc
      by_cases hd : d = 62
      · subst hd
        simp [piData] at h
        exact Or.inl ⟨[], Paired.nil, by simp [h]⟩
      · rw [piData.eq_4 _ _ (fun h => absurd h hd)] at h
        rcases piData_sound t r h with ⟨data, hp, rfl⟩ | ⟨hp, rfl⟩
        · exact Or.inl ⟨63 :: d :: data, Paired.pair hd hp, by simp⟩
        · exact Or.inr ⟨Paired.pair hd hp, rfl⟩
    · have : piData (c :: d :: t) = piData (d :: t) := by
        rw [piData.eq_5]
        · intro h _; exact hc h
        · intro t h; exact absurd h hc
        · intro t t' h; exact absurd h hc
      rw [this] at h
      rcases piData_sound (d :: t) r h with ⟨data, hp, he⟩ | ⟨hp, rfl⟩
      · exact Or.inl ⟨c :: data, Paired.char hc hp, by rw [he]; simp⟩
      · exact Or.inr ⟨Paired.char hc hp, rfl⟩

theorem parsePI_eq {name sp data r : Str} (h1 : GName name) (h2 : isXmlName name = false)
    (h3 : GSpace sp) (hst : Stop isS (data ++ r)) (hsp : sp ≠ []) :
    parsePI (name ++ (sp ++ (data ++ r))) = piData (data ++ r) := by
  have hstn : Stop isNameChar (sp ++ (data ++ r)) := by
    obtain ⟨x, xs, e⟩ := List.exists_cons_of_ne_nil hsp
    rw [e]
    exact stop_app (space_not_name (h3 x (by simp [e])))
  unfold parsePI
  rw [parseName_ok h1 hstn]
  dsimp only
  rw [h2, (span_eq h3 hst).1, (span_eq h3 hst).2]
  simp only [Bool.false_eq_true, if_false]
  rw [if_neg hsp]

theorem lpi_ok {t : Str} (h : LPI t) : ∃ u, t = [60, 63] ++ u ∧ ∀ r, parsePI (u ++ r) = some r := by
  obtain ⟨name, sp, data, h1, h2, h3, h4, h5, h6, rfl⟩ := h
  refine ⟨_, rfl, fun r => ?_⟩
  have e : (name ++ (sp ++ (data ++ [63, 62]))) ++ r = name ++ (sp ++ (data ++ ([63, 62] ++ r))) := by
    simp
  rw [e]
  by_cases hsp : sp = []
  · have hd : data = [] := by
      by_contra hd; exact h6 hd hsp
    subst hd hsp
    unfold parsePI
    rw [List.nil_append, List.nil_append, parseName_ok h1 (stop_app (by decide))]
    dsimp only
    rw [h2]
    simp [isS, lit]
  · rw [parsePI_eq h1 h2 h3 _ hsp]
    · exact piData_paired r h4
    · cases data with
      | nil => exact stop_app (by decide)
      | cons c d => exact stop_cons (h5 c rfl)

theorem openPI_ok {t : Str} (h : OpenPI t) : ∃ u, t = [60, 63] ++ u ∧ parsePI u = some [] := by
  obtain ⟨name, sp, data, h1, h2, h3, h4, h5, h6, rfl⟩ := h
  refine ⟨_, rfl, ?_⟩
  have := parsePI_eq (r := []) h1 h2 h3 (data := data) (by rw [List.append_nil]; exact h6) h4
  rw [List.append_nil] at this
  rw [this]
  exact piData_open h5

theorem parsePI_read {s r : Str} (h : parsePI s = some r) :
    (∃ u, s = u ++ r ∧ LPI ([60, 63] ++ u)) ∨ (r = [] ∧ OpenPI ([60, 63] ++ s)) := by
  unfold parsePI at h
  cases hn : parseName s with
  | none => rw [hn] at h; cases h
  | some p =>
    obtain ⟨name, t⟩ := p
    rw [hn] at h
    dsimp only at h
    obtain ⟨rfl, h1, h2⟩ := parseName_sound hn
    by_cases hx : isXmlName name = true
    · rw [if_pos hx] at h; cases h
    rw [if_neg hx] at h
    have hx' : isXmlName name = false := by simpa using hx
    obtain ⟨e1, e2, e3⟩ := span_sound isS t
    by_cases hsp : t.takeWhile isS = []
    · rw [if_pos hsp] at h
      rw [lit_iff] at h
      subst h
      exact Or.inl ⟨name ++ [63, 62], by simp, name, [], [], h1, hx', by simp [GSpace], Paired.nil,
        by simp, by simp, by simp⟩
    · rw [if_neg hsp] at h
      generalize t.takeWhile isS = w at *
      generalize t.dropWhile isS = v at *
      subst e1
      rcases piData_sound _ _ h with ⟨data, hd, rfl⟩ | ⟨hd, rfl⟩
      · refine Or.inl ⟨name ++ (w ++ (data ++ [63, 62])), by simp, name, w, data, h1, hx', e2, hd, ?_,
          fun _ => hsp, rfl⟩
        intro c hc
        apply e3
        cases data with
        | nil => simp at hc
        | cons x d => simpa using hc
      · exact Or.inr ⟨rfl, name, w, v, h1, hx', e2, hsp, hd, e3, by simp⟩

theorem lskip_ok (t : Str) (h : LSkip t) : SkipOk t := by
  rcases h with ⟨b, sp, rfl, h1, h2, h3⟩ | h
  · refine Or.inl ⟨_, rfl, fun r => ?_⟩
    have e : (b ++ ([45, 45] ++ (sp ++ [62]))) ++ r = b ++ ([45, 45] ++ (sp ++ (62 :: r))) := by simp
    rw [e, (comment_body _ b h1 h2).1]
    exact comment_space r sp h3
  · exact Or.inr (lpi_ok h)

/-! ## Content and elements -/

theorem content_hang (t : Str) : ∀ (k : Nat) (acc : List Kid), content k acc (cdEnd ++ t) = .more
  | 0, acc => by rw [content]
  | k + 1, acc => by
    have e : cdEnd ++ t = 93 :: ([93, 62] ++ t) := rfl
    have hl : lead (cdEnd ++ t) = .data := by rw [e]; exact lead_data _ (by decide) (by decide)
    have hc : charData (cdEnd ++ t) = ([], cdEnd ++ t) := by
      have : (lit cdEnd (cdEnd ++ t)).isSome = true := (lit_isSome _ _).2 ⟨t, rfl⟩
      rw [e]
      unfold charData
      rw [← e, if_pos (Or.inr (Or.inr this))]
    rw [content]
    rw [hl]
    dsimp only
    rw [hc, addData_nil]
    exact content_hang t k acc

theorem content_nil : ∀ (k : Nat) (acc : List Kid) (x : List Kid) (r : Str),
    content k acc [] = .ok x r → x = acc ∧ r = []
  | 0, acc, x, r, h => by rw [content] at h; cases h
  | k + 1, acc, x, r, h => by
    rw [content] at h
    simp [lead] at h
    exact ⟨h.1.symm, h.2⟩

/-- Every way content starts. -/
theorem lead_cases (s : Str) : (lead s = .stop ∧ (s = [] ∨ Ends s)) ∨
    (∃ r, lead s = .com r ∧ s = [60, 33, 45, 45] ++ r) ∨
    (∃ r, lead s = .cd r ∧ s = cdStart ++ r) ∨ (∃ r, lead s = .pi r ∧ s = [60, 63] ++ r) ∨
    (lead s = .elt) ∨ (∃ r, lead s = .ref r ∧ s = 38 :: r) ∨
    (lead s = .data ∧ ∃ c t, s = c :: t ∧ c ≠ 60 ∧ c ≠ 38) ∨ lead s = .bad := by
  unfold lead
  split
  · exact Or.inl ⟨rfl, Or.inl rfl⟩
  · split
    · exact Or.inr (Or.inl ⟨_, rfl, rfl⟩)
    · simp
  · rename_i t
    cases hl : lit [67, 68, 65, 84, 65, 91] t with
    | none => simp
    | some r =>
      rw [lit_iff] at hl
      exact Or.inr (Or.inr (Or.inl ⟨r, rfl, by rw [hl]; rfl⟩))
  · simp
  · exact Or.inr (Or.inr (Or.inr (Or.inl ⟨_, rfl, rfl⟩)))
  · exact Or.inl ⟨rfl, Or.inr ⟨_, rfl⟩⟩
  · simp
  · exact Or.inr (Or.inr (Or.inr (Or.inr (Or.inr (Or.inl ⟨_, rfl, rfl⟩)))))
  · refine Or.inr (Or.inr (Or.inr (Or.inr (Or.inr (Or.inr (Or.inl ⟨rfl, ?_⟩))))))
    cases s with
    | nil => simp_all
    | cons c t =>
      refine ⟨c, t, rfl, ?_, ?_⟩
      · rintro rfl; simp_all
      · rintro rfl; simp_all

/-- Content that starts with `<` or `&`. -/
theorem gcontent_lead {t r : Str} {ps : List Piece} (h : GContent LSkip t ps)
    (hs : ∀ c, (t ++ r).head? = some c → c = 60 ∨ c = 38) :
    ∃ ps', ps = .data [] :: ps' ∧ GTail LSkip t ps' := by
  cases h with
  | @mk d t ps hd ht =>
    cases d with
    | nil => exact ⟨ps, rfl, ht⟩
    | cons c d =>
      rcases hs c rfl with rfl | rfl
      · exact absurd (by simp) hd.1
      · exact absurd (by simp) hd.2.1

theorem parseETag_sound {s name r : Str} (h : parseETag s = some (name, r)) :
    ∃ sp, GSpace sp ∧ GName name ∧ s = [60, 47] ++ (name ++ (sp ++ ([62] ++ r))) := by
  unfold parseETag at h
  cases hl : lit [60, 47] s with
  | none => rw [hl] at h; cases h
  | some t =>
    rw [hl] at h
    rw [lit_iff] at hl
    dsimp only at h
    cases hn : parseName t with
    | none => rw [hn] at h; cases h
    | some p =>
      obtain ⟨n, u⟩ := p
      rw [hn] at h
      dsimp only at h
      obtain ⟨rfl, h1, _⟩ := parseName_sound hn
      obtain ⟨e1, e2, _⟩ := span_sound isS u
      split at h
      · rename_i r' hd
        injection h with h
        injection h with ha hb
        subst ha hb
        refine ⟨_, e2, h1, ?_⟩
        rw [hl]
        conv_lhs => rw [e1, hd]
        rfl
      · cases h

theorem gspace_nil : GCharData [] := by simp [GCharData, cdEnd]

theorem sound_step (k : Nat) :
    (∀ acc s kids r, content k acc s = .ok kids r →
      (r = [] ∧ True) ∨ (Ends r ∧ ∃ t ps, s = t ++ r ∧ GContent LSkip t ps ∧
        kids = ps.foldl addPiece acc)) ∧
    (∀ s e r, element k s = .ok e r → ∃ i, s = i ++ r ∧ GElement LSkip i e) := by
  induction k with
  | zero =>
    constructor
    · intro acc s kids r h; rw [content] at h; cases h
    · intro s e r h; rw [element] at h; cases h
  | succ k ih =>
    obtain ⟨ih1, ih2⟩ := ih
    constructor
    · intro acc s kids r h
      rw [content] at h
      rcases lead_cases s with ⟨hl, hs⟩ | ⟨t, hl, rfl⟩ | ⟨t, hl, rfl⟩ | ⟨t, hl, rfl⟩ | hl |
        ⟨t, hl, rfl⟩ | ⟨hl, c, t, hs, hc1, hc2⟩ | hl
      · rw [hl] at h
        dsimp only at h
        injection h with ha hb
        subst ha hb
        rcases hs with rfl | hs
        · exact Or.inl ⟨rfl, trivial⟩
        · exact Or.inr ⟨hs, [], [.data []], rfl,
            GContent.mk (d := []) gspace_nil GTail.nil, by simp [addPiece, addData_nil]⟩
      · rw [hl] at h
        dsimp only at h
        cases hc : comment 0 t with
        | none => rw [hc] at h; cases h
        | some r' =>
          rw [hc] at h
          dsimp only at h
          rcases comment_read hc with ⟨u, rfl, hu⟩ | ⟨rfl, _⟩
          · rcases ih1 _ _ _ _ h with hr | ⟨hr, t', ps, rfl, hg, rfl⟩
            · exact Or.inl hr
            · exact Or.inr ⟨hr, _, .data [] :: ps, by simp,
                GContent.mk (d := []) gspace_nil (GTail.skip (Or.inl hu) hg),
                by simp [addPiece, addData_nil]⟩
          · exact Or.inl ⟨(content_nil _ _ _ _ h).2, trivial⟩
      · rw [hl] at h
        dsimp only at h
        cases hc : lit cdEnd (cdata t).2 with
        | none => rw [hc] at h; cases h
        | some r' =>
          rw [hc] at h
          dsimp only at h
          rw [lit_iff] at hc
          obtain ⟨e1, e2⟩ := cdata_sound t
          rw [hc] at e1
          rcases ih1 _ _ _ _ h with hr | ⟨hr, t', ps, rfl, hg, rfl⟩
          · exact Or.inl hr
          · exact Or.inr ⟨hr, _, .data [] :: .data (cdata t).1 :: ps,
              by rw [List.nil_append, List.append_assoc, List.append_assoc, List.append_assoc, ← e1],
              GContent.mk (d := []) gspace_nil (GTail.cd e2 hg), by simp [addPiece, addData_nil]⟩
      · rw [hl] at h
        dsimp only at h
        cases hc : parsePI t with
        | none => rw [hc] at h; cases h
        | some r' =>
          rw [hc] at h
          dsimp only at h
          rcases parsePI_read hc with ⟨u, rfl, hu⟩ | ⟨rfl, _⟩
          · rcases ih1 _ _ _ _ h with hr | ⟨hr, t', ps, rfl, hg, rfl⟩
            · exact Or.inl hr
            · exact Or.inr ⟨hr, _, .data [] :: ps, by simp,
                GContent.mk (d := []) gspace_nil (GTail.skip (Or.inr hu) hg),
                by simp [addPiece, addData_nil]⟩
          · exact Or.inl ⟨(content_nil _ _ _ _ h).2, trivial⟩
      · rw [hl] at h
        dsimp only at h
        cases he : element k s with
        | bad => rw [he] at h; cases h
        | more => rw [he] at h; cases h
        | ok e r' =>
          rw [he] at h
          simp only [Out.then] at h
          obtain ⟨i, rfl, hi⟩ := ih2 _ _ _ he
          rcases ih1 _ _ _ _ h with hr | ⟨hr, t', ps, rfl, hg, rfl⟩
          · exact Or.inl hr
          · exact Or.inr ⟨hr, _, .data [] :: .elt e :: ps, by simp,
              GContent.mk (d := []) gspace_nil (GTail.elt hi hg), by simp [addPiece, addData_nil]⟩
      · rw [hl] at h
        dsimp only at h
        cases hc : parseRef t with
        | none => rw [hc] at h; cases h
        | some p =>
          obtain ⟨d, r'⟩ := p
          rw [hc] at h
          simp only [need, Out.then] at h
          obtain ⟨i, c, rfl, hi, rfl⟩ := parseRef_sound hc
          rcases ih1 _ _ _ _ h with hr | ⟨hr, t', ps, rfl, hg, rfl⟩
          · exact Or.inl hr
          · exact Or.inr ⟨hr, _, .data [] :: .data [c] :: ps, by simp,
              GContent.mk (d := []) gspace_nil (GTail.ref hi hg), by simp [addPiece, addData_nil]⟩
      · rw [hl] at h
        dsimp only at h
        obtain ⟨e1, e2, e3⟩ := charData_sound s
        generalize hd : (charData s).1 = d at *
        generalize hv : (charData s).2 = v at *
        rcases e3 with rfl | ⟨u, e3⟩
        · exact Or.inl ⟨(content_nil _ _ _ _ h).2, trivial⟩
        · by_cases hcd : v = cdEnd ++ u
          · rw [hcd, content_hang] at h; cases h
          have hhead : ∀ c, v.head? = some c → c = 60 ∨ c = 38 := by
            intro c hc
            rcases e3 with rfl | rfl | e3
            · simp at hc; exact Or.inl hc.symm
            · simp at hc; exact Or.inr hc.symm
            · exact absurd e3 hcd
          rcases ih1 _ _ _ _ h with hr | ⟨hr, t', ps, hv', hg, rfl⟩
          · exact Or.inl hr
          · obtain ⟨ps', rfl, hg'⟩ := gcontent_lead (r := r) hg (by rw [← hv']; exact hhead)
            refine Or.inr ⟨hr, d ++ t', .data d :: ps', by rw [e1, hv']; simp,
              GContent.mk e2 hg', by simp [addPiece, addData_nil]⟩
      · rw [hl] at h; cases h
    · intro s e r h
      cases s with
      | nil => rw [element] at h; cases h; intros; simp_all
      | cons c t =>
        by_cases hc : c = 60
        · subst hc
          rw [element_cons] at h
          cases hn : parseName t with
          | none => rw [hn] at h; cases h
          | some p =>
            obtain ⟨name, t1⟩ := p
            rw [hn] at h
            simp only [need, Out.then] at h
            obtain ⟨rfl, hname, _⟩ := parseName_sound hn
            cases hst : stagLoop k [] t1 with
            | bad => rw [hst] at h; cases h
            | more => rw [hst] at h; cases h
            | ok p t2 =>
              obtain ⟨attrs, b⟩ := p
              rw [hst] at h
              dsimp only at h
              obtain ⟨atext, new, sp, rfl, hnew, hat, hsp, hnd⟩ := stag_sound _ _ _ _ _ _ hst
              rw [List.nil_append] at hnew
              subst hnew
              have hnd' : (attrs.map Prod.fst).Nodup := by simpa using hnd (by simp)
              cases b with
              | true =>
                rw [if_pos rfl] at h
                injection h with ha hb
                subst ha hb
                exact ⟨_, by simp [tagEnd], GElement.tag hname hat hnd' hsp⟩
              | false =>
                rw [if_neg (by simp)] at h
                cases hco : content k [] t2 with
                | bad => rw [hco] at h; cases h
                | more => rw [hco] at h; cases h
                | ok kids t3 =>
                  rw [hco] at h
                  dsimp only at h
                  cases het : parseETag t3 with
                  | none => rw [het] at h; cases h
                  | some p =>
                    obtain ⟨en, t4⟩ := p
                    rw [het] at h
                    dsimp only at h
                    obtain ⟨sp2, hsp2, _, rfl⟩ := parseETag_sound het
                    by_cases hen : en = name
                    · rw [if_pos hen] at h
                      subst hen
                      injection h with ha hb
                      subst ha hb
                      rcases ih1 _ _ _ _ hco with ⟨hr, _⟩ | ⟨_, t', ps, rfl, hg, rfl⟩
                      · simp at hr
                      · rw [fold_join]
                        exact ⟨_, by simp [tagEnd], GElement.full hname hat hnd' hsp hg hsp2⟩
                    · rw [if_neg hen] at h; cases h
        · rw [element] at h
          · cases h
          · intro t' h'
            simp at h'
            exact hc h'.1

end Verif.Xml

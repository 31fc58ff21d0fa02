import Verif.Xml.DocSound

/-! # Parsing a document (C79) -/
namespace Verif.Xml

/-! ## Miscellaneous items before and after the root element -/

/-- Where `misc` stops. -/
def MiscStop (r : Str) : Prop :=
  Stop isS r ∧ ¬ [60, 33, 45, 45] <+: r ∧ ¬ [60, 63] <+: r

theorem misc_cons (k c : Nat) (t : Str) : misc (k + 1) (c :: t) =
    if isS c then misc k t
    else
      match lit [60, 33, 45, 45] (c :: t), lit [60, 63] (c :: t) with
      | some r, _ =>
        (match comment 0 r with
        | some r' => misc k r'
        | none => .bad)
      | none, some r =>
        (match parsePI r with
        | some r' => misc k r'
        | none => .bad)
      | none, none => .ok () (c :: t) := by
  rw [misc]
  rfl

theorem lit_none {m s : Str} (h : ¬ m <+: s) : lit m s = none := by
  cases hl : lit m s with
  | none => rfl
  | some r => exact absurd ⟨r, ((lit_iff _ _ _).1 hl).symm⟩ h

theorem misc_comment (k : Nat) (u : Str) : misc (k + 1) ([60, 33, 45, 45] ++ u) =
    match comment 0 u with
    | some r' => misc k r'
    | none => .bad := by
  have e : [60, 33, 45, 45] ++ u = 60 :: ([33, 45, 45] ++ u) := rfl
  rw [e, misc_cons, if_neg (by decide), ← e, (lit_iff _ _ _).2 rfl]

theorem misc_pi (k : Nat) (u : Str) : misc (k + 1) ([60, 63] ++ u) =
    match parsePI u with
    | some r' => misc k r'
    | none => .bad := by
  have e : [60, 63] ++ u = 60 :: ([63] ++ u) := rfl
  have h1 : lit [60, 33, 45, 45] ([60, 63] ++ u) = none := by simp [lit]
  rw [e, misc_cons, if_neg (by decide), ← e, h1, (lit_iff _ _ _).2 rfl]

theorem misc_stop (k : Nat) {r : Str} (h : MiscStop r) : misc (k + 1) r = .ok () r := by
  obtain ⟨h1, h2, h3⟩ := h
  cases r with
  | nil => rw [misc]
  | cons c t =>
    have hc : ¬ isS c = true := by have := h1 c rfl; simp [this]
    rw [misc_cons, if_neg hc, lit_none h2, lit_none h3]

/-- The items are skipped, whatever follows. -/
theorem misc_ok {Skip : Str → Prop} (hS : ∀ i, Skip i → SkipOk i) {m : Str} (h : GMisc Skip m)
    (r : Str) (a : Nat) (x : Out Unit) (hr : ∀ k, a ≤ k → misc k r = x) :
    ∃ n, ∀ k, n ≤ k → misc k (m ++ r) = x := by
  induction h with
  | nil => exact ⟨a, hr⟩
  | @space c t hc _ ih =>
    obtain ⟨n, hn⟩ := ih
    refine ⟨n + 1, fun k hk => ?_⟩
    obtain ⟨k, rfl⟩ : ∃ j, k = j + 1 := ⟨k - 1, by omega⟩
    rw [List.cons_append, misc_cons, if_pos hc]
    exact hn k (by omega)
  | @skip i t hi _ ih =>
    obtain ⟨n, hn⟩ := ih
    refine ⟨n + 1, fun k hk => ?_⟩
    obtain ⟨k, rfl⟩ : ∃ j, k = j + 1 := ⟨k - 1, by omega⟩
    rcases hS i hi with ⟨u, rfl, hu⟩ | ⟨u, rfl, hu⟩
    · rw [List.append_assoc, List.append_assoc, misc_comment, hu]
      exact hn k (by omega)
    · rw [List.append_assoc, List.append_assoc, misc_pi, hu]
      exact hn k (by omega)

theorem misc_nil (k : Nat) : misc (k + 1) [] = .ok () [] := by rw [misc]

theorem open_ok {o : Str} (h : Open o) : ∀ k, 2 ≤ k → misc k o = .ok () [] := by
  intro k hk
  obtain ⟨k, rfl⟩ : ∃ j, k = j + 2 := ⟨k - 2, by omega⟩
  rcases h with rfl | h | h
  · exact misc_nil _
  · obtain ⟨u, rfl, hu⟩ := openComment_ok h
    rw [misc_comment, hu]
    exact misc_nil _
  · obtain ⟨u, rfl, hu⟩ := openPI_ok h
    rw [misc_pi, hu]
    exact misc_nil _

theorem misc_sound : ∀ (k : Nat) (s r : Str), misc k s = .ok () r →
    ∃ m o, s = m ++ (o ++ r) ∧ GMisc LSkip m ∧ Open o ∧ (o ≠ [] → r = [])
  | 0, s, r, h => by rw [misc] at h; cases h
  | k + 1, [], r, h => by
    rw [misc] at h
    injection h with _ h
    subst h
    exact ⟨[], [], rfl, GMisc.nil, Or.inl rfl, fun h => absurd rfl h⟩
  | k + 1, c :: t, r, h => by
    rw [misc_cons] at h
    by_cases hc : isS c = true
    · rw [if_pos hc] at h
      obtain ⟨m, o, rfl, h1, h2, h3⟩ := misc_sound k t r h
      exact ⟨c :: m, o, rfl, GMisc.space hc h1, h2, h3⟩
    · rw [if_neg hc] at h
      cases hl : lit [60, 33, 45, 45] (c :: t) with
      | some u =>
        rw [hl] at h
        dsimp only at h
        rw [lit_iff] at hl
        rw [hl]
        cases hco : comment 0 u with
        | none => rw [hco] at h; cases h
        | some r' =>
          rw [hco] at h
          dsimp only at h
          obtain ⟨m, o, rfl, h1, h2, h3⟩ := misc_sound k r' r h
          rcases comment_read hco with ⟨v, rfl, hv⟩ | ⟨he, hv⟩
          · exact ⟨([60, 33, 45, 45] ++ v) ++ m, o, by simp, GMisc.skip (Or.inl hv) h1, h2, h3⟩
          · simp at he
            obtain ⟨rfl, rfl, rfl⟩ := he
            exact ⟨[], _, by simp, GMisc.nil, Or.inr (Or.inl hv), fun _ => rfl⟩
      | none =>
        rw [hl] at h
        cases hp : lit [60, 63] (c :: t) with
        | some u =>
          rw [hp] at h
          dsimp only at h
          rw [lit_iff] at hp
          rw [hp]
          cases hco : parsePI u with
          | none => rw [hco] at h; cases h
          | some r' =>
            rw [hco] at h
            dsimp only at h
            obtain ⟨m, o, rfl, h1, h2, h3⟩ := misc_sound k r' r h
            rcases parsePI_read hco with ⟨v, rfl, hv⟩ | ⟨he, hv⟩
            · exact ⟨([60, 63] ++ v) ++ m, o, by simp, GMisc.skip (Or.inr hv) h1, h2, h3⟩
            · simp at he
              obtain ⟨rfl, rfl, rfl⟩ := he
              exact ⟨[], _, by simp, GMisc.nil, Or.inr (Or.inr hv), fun _ => rfl⟩
        | none =>
          rw [hp] at h
          dsimp only at h
          injection h with _ h
          subst h
          exact ⟨[], [], rfl, GMisc.nil, Or.inl rfl, fun h => absurd rfl h⟩

/-! ## Documents -/

theorem gelement_start {Skip : Str → Prop} {i : Str} {e : Elt} (h : GElement Skip i e) :
    ∃ c t, i = 60 :: c :: t ∧ isNameStart c = true := by
  cases h with
  | @tag name atext sp attrs h1 =>
    cases name with
    | nil => exact absurd h1 id
    | cons c nt => exact ⟨c, _, by simp; rfl, h1.1⟩
  | @full name atext sp ctext sp2 attrs ps h1 =>
    cases name with
    | nil => exact absurd h1 id
    | cons c nt => exact ⟨c, _, by simp; rfl, h1.1⟩

theorem start_stop {c : Nat} (hc : isNameStart c = true) (t : Str) : MiscStop (60 :: c :: t) := by
  refine ⟨stop_cons (by decide), ?_, ?_⟩
  · rintro ⟨u, hu⟩
    simp at hu
    rw [← hu.1] at hc
    exact absurd hc (by decide)
  · rintro ⟨u, hu⟩
    simp at hu
    rw [← hu.1] at hc
    exact absurd hc (by decide)

theorem doc_ok {Skip : Str → Prop} (hS : ∀ i, Skip i → SkipOk i) {d o : Str} {e : Elt}
    (h : GDocument Skip d e) (ho : Open o) :
    ∃ n, ∀ k, n ≤ k → parseDoc k (d ++ o) = .ok e [] := by
  obtain ⟨h1, h2, h3⟩ := h
  rename_i m1 t m2
  obtain ⟨c, u, rfl, hc⟩ := gelement_start h2
  obtain ⟨n3, hn3⟩ := misc_ok hS h3 o 2 (.ok () []) (open_ok ho)
  obtain ⟨n2, hn2⟩ := element_ok hS h2 (m2 ++ o)
  obtain ⟨n1, hn1⟩ := misc_ok hS h1 ((60 :: c :: u) ++ (m2 ++ o)) 1 (.ok () _) (by
    intro k hk
    obtain ⟨k, rfl⟩ : ∃ j, k = j + 1 := ⟨k - 1, by omega⟩
    exact misc_stop k (start_stop hc _))
  refine ⟨n1 + n2 + n3, fun k hk => ?_⟩
  have e1 : (m1 ++ ((60 :: c :: u) ++ m2)) ++ o = m1 ++ ((60 :: c :: u) ++ (m2 ++ o)) := by simp
  rw [e1]
  unfold parseDoc
  rw [hn1 k (by omega)]
  simp only [Out.then]
  rw [hn2 k (by omega)]
  dsimp only
  rw [hn3 k (by omega)]

theorem doc_sound {k : Nat} {s r : Str} {e : Elt} (h : parseDoc k s = .ok e r) :
    r = [] ∧ ∃ d o, s = d ++ o ∧ GDocument LSkip d e ∧ Open o := by
  unfold parseDoc at h
  cases h1 : misc k s with
  | bad => rw [h1] at h; cases h
  | more => rw [h1] at h; cases h
  | ok a r1 =>
    rw [h1] at h
    simp only [Out.then] at h
    cases h2 : element k r1 with
    | bad => rw [h2] at h; cases h
    | more => rw [h2] at h; cases h
    | ok e' r2 =>
      rw [h2] at h
      dsimp only at h
      cases h3 : misc k r2 with
      | bad => rw [h3] at h; cases h
      | more => rw [h3] at h; cases h
      | ok a' r3 =>
        rw [h3] at h
        dsimp only at h
        cases r3 with
        | cons c t => cases h
        | nil =>
          injection h with ha hb
          subst ha hb
          refine ⟨rfl, ?_⟩
          obtain ⟨m, o, rfl, g1, g2, g3⟩ := misc_sound _ _ _ h1
          obtain ⟨i, rfl, hi⟩ := (sound_step k).2 _ _ _ h2
          obtain ⟨m', o', rfl, g1', g2', _⟩ := misc_sound _ _ _ h3
          obtain ⟨c, t, rfl, _⟩ := gelement_start hi
          have ho : o = [] := by
            by_contra hne
            have := g3 hne
            simp at this
          subst ho
          exact ⟨m ++ ((60 :: c :: t) ++ m'), o', by simp, GDocument.mk g1 hi g1', g2'⟩

/-- Change what may be skipped, for the parts of a text. -/
theorem gelement_map {S S' : Str → Prop} {s : Str} (hS : ∀ i, i <:+: s → S i → S' i) {i : Str}
    {e : Elt} (h : GElement S i e) : i <:+: s → GElement S' i e := by
  refine @GElement.rec S (fun i e _ => i <:+: s → GElement S' i e)
    (fun t ps _ => t <:+: s → GContent S' t ps) (fun t ps _ => t <:+: s → GTail S' t ps)
    ?_ ?_ ?_ ?_ ?_ ?_ ?_ ?_ i e h
  · intro name atext sp attrs h1 h2 h3 h4 _
    exact GElement.tag h1 h2 h3 h4
  · intro name atext sp ctext sp2 attrs ps h1 h2 h3 h4 _ h6 ih hin
    refine GElement.full h1 h2 h3 h4 (ih (List.IsInfix.trans ?_ hin)) h6
    exact ⟨[60] ++ (name ++ (atext ++ (sp ++ [62]))), [60, 47] ++ (name ++ (sp2 ++ [62])), by simp⟩
  · intro d t ps hd _ ih hin
    exact GContent.mk hd (ih (List.IsInfix.trans (List.suffix_append _ _).isInfix hin))
  · intro _; exact GTail.nil
  · intro i t e ps _ _ ih1 ih2 hin
    exact GTail.elt (ih1 (List.IsInfix.trans (List.prefix_append _ _).isInfix hin))
      (ih2 (List.IsInfix.trans (List.suffix_append _ _).isInfix hin))
  · intro i t c ps hr _ ih hin
    exact GTail.ref hr (ih (List.IsInfix.trans (List.suffix_append _ _).isInfix hin))
  · intro d t ps hd _ ih hin
    refine GTail.cd hd (ih (List.IsInfix.trans ?_ hin))
    exact ⟨cdStart ++ (d ++ cdEnd), [], by simp⟩
  · intro i t ps hi _ ih hin
    exact GTail.skip (hS i (List.IsInfix.trans (List.prefix_append _ _).isInfix hin) hi)
      (ih (List.IsInfix.trans (List.suffix_append _ _).isInfix hin))

theorem gmisc_map {S S' : Str → Prop} {s : Str} (hS : ∀ i, i <:+: s → S i → S' i) {m : Str}
    (h : GMisc S m) : m <:+: s → GMisc S' m := by
  induction h with
  | nil => intro _; exact GMisc.nil
  | @space c t hc _ ih =>
    intro hin
    exact GMisc.space hc (ih (List.IsInfix.trans (List.suffix_cons _ _).isInfix hin))
  | @skip i t hi _ ih =>
    intro hin
    exact GMisc.skip (hS i (List.IsInfix.trans (List.prefix_append _ _).isInfix hin) hi)
      (ih (List.IsInfix.trans (List.suffix_append _ _).isInfix hin))

theorem gdoc_map {S S' : Str → Prop} {s : Str} (hS : ∀ i, i <:+: s → S i → S' i) {e : Elt}
    (h : GDocument S s e) : GDocument S' s e := by
  obtain ⟨h1, h2, h3⟩ := h
  rename_i m1 t m2
  exact GDocument.mk (gmisc_map hS h1 (List.prefix_append _ _).isInfix)
    (gelement_map hS h2 ⟨m1, m2, by simp⟩)
    (gmisc_map hS h3 ⟨m1 ++ t, [], by simp⟩)

/-! ## Specification -/

/-- Comments and processing instructions of XML 1.0 -/
def GSkip (t : Str) : Prop := GComment t ∨ ∃ data, GPI t data

/-- The same, without processing instructions whose data ends with an odd number of `?`. -/
def GSkipEven (t : Str) : Prop := GComment t ∨ ∃ data, GPI t data ∧ ¬ OddMarks data

/-- Parsing gives the element (with any bound on the number of turns from some bound on). -/
def Parses (s : Str) (e : Elt) : Prop := ∃ n, ∀ k, n ≤ k → parseDoc k s = .ok e []

/-- Parsing never ends. -/
def Hangs (s : Str) : Prop := ∀ k, parseDoc k s = .more

theorem gskipEven_ok (i : Str) (h : GSkipEven i) : SkipOk i := by
  rcases h with ⟨b, rfl, h1, h2⟩ | ⟨data, h, ho⟩
  · exact Or.inl ⟨b ++ [45, 45, 62], by simp, fun r => by
      have := (comment_ok r b h1 h2).1
      simpa using this⟩
  · exact Or.inr (parsePI_ok h ho)

/-! ## C79 -/

/-- Exactly the texts `d ++ o` are accepted, where `d` is a document (in the grammar of XML 1.0 with
`LSkip` for comments and processing instructions) and `o` is nothing or an unclosed comment or
processing instruction; the result is the tree of `d`. -/
theorem C79_accepted (s : Str) (e : Elt) :
    Parses s e ↔ ∃ d o, s = d ++ o ∧ GDocument LSkip d e ∧ Open o := by
  constructor
  · rintro ⟨n, h⟩
    exact (doc_sound (h n (Nat.le_refl _))).2
  · rintro ⟨d, o, rfl, h, ho⟩
    exact doc_ok lskip_ok h ho

/-- Every document of XML 1.0 is parsed to its tree; missing are the documents with a processing
instruction whose data ends with an odd number of `?` (see `C79_pi_violated`). -/
theorem C79_complete_partial (s : Str) (e : Elt) (h : GDocument GSkipEven s e) : Parses s e := by
  have := doc_ok gskipEven_ok h (Or.inl rfl)
  rwa [List.append_nil] at this

/-- The result does not depend on the way the text is derived: a document has one tree. -/
theorem C79_unique (s : Str) (e e' : Elt) (h : GDocument GSkipEven s e)
    (h' : GDocument GSkipEven s e') : e = e' := by
  obtain ⟨n, hn⟩ := C79_complete_partial s e h
  obtain ⟨n', hn'⟩ := C79_complete_partial s e' h'
  have := (hn (n + n') (by omega)).symm.trans (hn' (n + n') (by omega))
  injection this

/-- Text without `??`, and without two hyphens before a space: acceptance is that of XML 1.0, except
for an unclosed comment or processing instruction at the end. -/
theorem C79_sound_partial (s : Str) (e : Elt) (h1 : ¬ [63, 63] <:+: s)
    (h2 : ∀ c, isS c = true → ¬ [45, 45, c] <:+: s) :
    Parses s e ↔ ∃ d o, s = d ++ o ∧ GDocument GSkip d e ∧ Open o := by
  rw [C79_accepted]
  constructor
  · rintro ⟨d, o, rfl, h, ho⟩
    refine ⟨d, o, rfl, gdoc_map ?_ h, ho⟩
    have hin : ∀ i, i <:+: d → i <:+: d ++ o := fun i h => h.trans (List.prefix_append _ _).isInfix
    rintro i hi (⟨b, sp, rfl, g1, g2, g3⟩ | ⟨name, sp, data, g1, g2, g3, g4, g5, g6, rfl⟩)
    · have : sp = [] := by
        cases sp with
        | nil => rfl
        | cons c sp =>
          refine absurd ?_ (h2 c (g3 c (by simp)))
          refine List.IsInfix.trans ?_ (hin _ hi)
          exact ⟨[60, 33, 45, 45] ++ b, sp ++ [62], by simp⟩
      subst this
      exact Or.inl ⟨b, by simp, g1, g2⟩
    · refine Or.inr ⟨data, name, sp, g1, g2, g3, ?_, g5, g6, by simp⟩
      have hq : ¬ [63, 63] <:+: data := by
        intro hq
        apply h1
        refine hq.trans (List.IsInfix.trans ?_ (hin _ hi))
        exact ⟨[60, 63] ++ (name ++ sp), [63, 62], by simp⟩
      have hpair : ∀ w, Paired w → ¬ [63, 63] <:+: w → ¬ [63, 62] <:+: w := by
        intro w hw
        induction hw with
        | nil => intro _; simp
        | @char c t hc _ ih =>
          intro hq hin
          rcases List.infix_cons_iff.1 hin with ⟨u, hu⟩ | hp
          · simp at hu; exact hc hu.1.symm
          · exact ih (fun h => hq (List.infix_cons h)) hp
        | @pair x t hx _ ih =>
          intro hq hin
          rcases List.infix_cons_iff.1 hin with ⟨u, hu⟩ | hp
          · simp at hu; exact hx hu.1.symm
          · rcases List.infix_cons_iff.1 hp with ⟨u, hu⟩ | hp'
            · simp at hu
              obtain ⟨rfl, _⟩ := hu
              exact hq ⟨[], t, by simp⟩
            · exact ih (fun h => hq (List.infix_cons (List.infix_cons h))) hp'
      exact hpair data g4 hq
  · rintro ⟨d, o, rfl, h, ho⟩
    rw [← C79_accepted]
    refine doc_ok gskipEven_ok (gdoc_map ?_ h) ho
    rintro i hi (g | ⟨data, g⟩)
    · exact Or.inl g
    · refine Or.inr ⟨data, g, ?_⟩
      rintro ⟨a, n, rfl, _⟩
      obtain ⟨name, sp, _, _, _, _, _, _, rfl⟩ := g
      apply h1
      refine List.IsInfix.trans ?_ (hi.trans (List.prefix_append _ _).isInfix)
      refine ⟨[60, 63] ++ name ++ sp ++ a ++ List.replicate (2 * n) 63, [62], ?_⟩
      rw [List.replicate_succ']
      simp

/-! ### Termination -/

theorem suffix_len {s i r : Str} (h : s = i ++ r) : r.length ≤ s.length := by
  rw [h, List.length_append]; omega

theorem att_more {q : Nat} : ∀ (k : Nat) (acc s : Str), s.length < k → attLoop q k acc s ≠ .more
  | 0, _, _, h => by omega
  | k + 1, acc, [], _ => by simp [attLoop]
  | k + 1, acc, c :: t, h => by
    have h' : t.length < k := by simpa using h
    unfold attLoop
    split
    · simp
    split
    · cases hr : parseRef t with
      | none => simp [need, Out.then]
      | some p =>
        obtain ⟨d, r⟩ := p
        obtain ⟨i, c, _, _, rfl⟩ := parseRef_sound hr
        simp only [need, Out.then]
        apply att_more k
        have := suffix_len (rfl : i ++ r = i ++ r)
        omega
    split
    · exact att_more k _ _ h'
    split
    · simp
    · exact att_more k _ _ h'

theorem attribute_more {k : Nat} {s : Str} (h : s.length < k) : parseAttribute k s ≠ .more := by
  unfold parseAttribute
  cases hn : parseName s with
  | none => simp [need, Out.then]
  | some p =>
    obtain ⟨name, r⟩ := p
    simp only [need, Out.then]
    cases hq : eqQuote r with
    | none => simp
    | some p =>
      obtain ⟨q, r'⟩ := p
      dsimp only
      obtain ⟨rfl, _, _⟩ := parseName_sound hn
      obtain ⟨sp1, sp2, _, _, _, rfl⟩ := eqQuote_sound hq
      have := @att_more q k [] r' (by simp at h; omega)
      cases ha : attLoop q k [] r' with
      | ok v r'' => simp
      | bad => simp
      | more => exact absurd ha this

theorem stag_more : ∀ (k : Nat) (acc : List (Str × Str)) (s : Str), s.length < k →
    stagLoop k acc s ≠ .more
  | 0, _, _, h => by omega
  | k + 1, acc, s, h => by
    have hlen : (s.dropWhile isS).length ≤ s.length := (List.dropWhile_suffix isS).length_le
    have e1 := List.takeWhile_append_dropWhile (p := isS) (l := s)
    unfold stagLoop
    split
    · simp
    · simp
    · simp
    · split
      · simp
      · rename_i hsp
        have hlt : (s.dropWhile isS).length < s.length := by
          rw [← e1] 
          have : 0 < (s.takeWhile isS).length := List.length_pos_iff.2 hsp
          rw [List.length_append]
          simp only [e1]
          omega
        have hk : (s.dropWhile isS).length < k := by omega
        cases ha : parseAttribute k (s.dropWhile isS) with
        | bad => simp [Out.then]
        | more => exact absurd ha (attribute_more hk)
        | ok a r =>
          simp only [Out.then]
          split
          · simp
          · apply stag_more k
            obtain ⟨sp1, sp2, v, q, _, _, _, _, _, he⟩ := parseAttribute_sound ha
            rw [he] at hk
            simp at hk
            omega

theorem infix_of_suffix {s i r : Str} (h : ¬ cdEnd <:+: s) (he : s = i ++ r) : ¬ cdEnd <:+: r :=
  fun hr => h (by rw [he]; exact hr.trans (List.suffix_append _ _).isInfix)

theorem lead_elt_ne {s : Str} (h : lead s = .elt) : ∃ t, s = 60 :: t := by
  cases s with
  | nil => simp [lead] at h
  | cons c t =>
    by_cases hc : c = 60
    · exact ⟨t, by rw [hc]⟩
    · by_cases hc2 : c = 38
      · subst hc2; simp [lead] at h
      · rw [lead_data t hc hc2] at h; cases h

/-- What is left after content, for any outcome. -/
theorem content_suffix : ∀ (k : Nat) (acc : List Kid) (s : Str) (kids : List Kid) (r : Str),
    content k acc s = .ok kids r → ∃ t, s = t ++ r := by
  intro k acc s kids r h
  rcases (sound_step k).1 _ _ _ _ h with ⟨rfl, _⟩ | ⟨_, t, _, rfl, _⟩
  · exact ⟨s, by simp⟩
  · exact ⟨t, rfl⟩

theorem more_step (n : Nat) : ∀ s : Str, s.length ≤ n → ¬ cdEnd <:+: s →
    (∀ k acc, 2 * s.length + 2 ≤ k → content k acc s ≠ .more) ∧
    (∀ k, 2 * s.length + 1 ≤ k → element k s ≠ .more) := by
  induction n with
  | zero =>
    intro s hs _
    have : s = [] := List.length_eq_zero_iff.1 (by omega)
    subst this
    constructor
    · intro k acc hk
      obtain ⟨k, rfl⟩ : ∃ j, k = j + 1 := ⟨k - 1, by omega⟩
      rw [content]
      simp [lead]
    · intro k hk
      obtain ⟨k, rfl⟩ : ∃ j, k = j + 1 := ⟨k - 1, by omega⟩
      rw [element]
      · simp
      · simp
  | succ n ih =>
    intro s hs hcd
    have hel : ∀ k, 2 * s.length + 1 ≤ k → element k s ≠ .more := by
      intro k hk
      obtain ⟨k, rfl⟩ : ∃ j, k = j + 1 := ⟨k - 1, by omega⟩
      cases s with
      | nil =>
        rw [element]
        · simp
        · simp
      | cons c t =>
        by_cases hc : c = 60
        · subst hc
          rw [element_cons]
          simp only [List.length_cons] at hs hk
          cases hn : parseName t with
          | none => simp [need, Out.then]
          | some p =>
            obtain ⟨name, t1⟩ := p
            simp only [need, Out.then]
            obtain ⟨rfl, hname, _⟩ := parseName_sound hn
            simp only [List.length_append] at hs hk
            cases hst : stagLoop k [] t1 with
            | bad => simp
            | more => exact absurd hst (stag_more k _ _ (by omega))
            | ok p t2 =>
              obtain ⟨attrs, b⟩ := p
              dsimp only
              obtain ⟨atext, new, sp, rfl, _⟩ := stag_sound _ _ _ _ _ _ hst
              simp only [List.length_append] at hs hk
              split
              · simp
              · have hcd2 : ¬ cdEnd <:+: t2 := by
                  refine infix_of_suffix (i := 60 :: (name ++ (atext ++ (sp ++ tagEnd b)))) hcd ?_
                  simp
                have := (ih t2 (by omega) hcd2).1 k [] (by omega)
                cases hco : content k [] t2 with
                | bad => simp
                | more => exact absurd hco this
                | ok kids t3 =>
                  dsimp only
                  cases het : parseETag t3 with
                  | none => simp
                  | some p =>
                    obtain ⟨en, t4⟩ := p
                    dsimp only
                    split <;> simp
        · rw [element]
          · simp
          · intro t' h'
            simp at h'
            exact hc h'.1
    refine ⟨?_, hel⟩
    intro k acc hk
    obtain ⟨k, rfl⟩ : ∃ j, k = j + 1 := ⟨k - 1, by omega⟩
    -- go on with a proper suffix
    have hgo : ∀ acc' i r, s = i ++ r → i ≠ [] → content k acc' r ≠ .more := by
      intro acc' i r he hi
      have hl : 0 < i.length := List.length_pos_iff.2 hi
      have hlen : s.length = i.length + r.length := by rw [he, List.length_append]
      exact (ih r (by omega) (infix_of_suffix hcd he)).1 k acc' (by omega)
    rw [content]
    rcases lead_cases s with ⟨hl, _⟩ | ⟨t, hl, he⟩ | ⟨t, hl, he⟩ | ⟨t, hl, he⟩ | hl |
      ⟨t, hl, he⟩ | ⟨hl, c, t, he, hc1, hc2⟩ | hl
    · rw [hl]; simp
    · rw [hl]
      dsimp only
      cases hc : comment 0 t with
      | none => simp
      | some r' =>
        dsimp only
        rcases comment_read hc with ⟨u, rfl, _⟩ | ⟨rfl, _⟩
        · exact hgo acc ([60, 33, 45, 45] ++ u) r' (by rw [he]; simp) (by simp)
        · exact hgo acc s [] (by simp) (by rw [he]; simp)
    · rw [hl]
      dsimp only
      cases hc : lit cdEnd (cdata t).2 with
      | none => simp
      | some r' =>
        dsimp only
        rw [lit_iff] at hc
        have e1 := (cdata_sound t).1
        rw [hc] at e1
        exact hgo _ (cdStart ++ ((cdata t).1 ++ cdEnd)) r'
          (by rw [he, List.append_assoc, List.append_assoc, ← e1]) (by simp [cdStart])
    · rw [hl]
      dsimp only
      cases hc : parsePI t with
      | none => simp
      | some r' =>
        dsimp only
        rcases parsePI_read hc with ⟨u, rfl, _⟩ | ⟨rfl, _⟩
        · exact hgo acc ([60, 63] ++ u) r' (by rw [he]; simp) (by simp)
        · exact hgo acc s [] (by simp) (by rw [he]; simp)
    · rw [hl]
      dsimp only
      cases hco : element k s with
      | bad => simp [Out.then]
      | more => exact absurd hco (hel k (by omega))
      | ok e r' =>
        simp only [Out.then]
        obtain ⟨i, hi, hg⟩ := (sound_step k).2 _ _ _ hco
        obtain ⟨c, t, rfl, _⟩ := gelement_start hg
        exact hgo _ _ r' hi (by simp)
    · rw [hl]
      dsimp only
      cases hc : parseRef t with
      | none => simp [need, Out.then]
      | some p =>
        obtain ⟨d, r'⟩ := p
        simp only [need, Out.then]
        obtain ⟨i, c, _, _, rfl⟩ := parseRef_sound hc
        exact hgo _ (38 :: i) r' (by rw [he]; simp) (by simp)
    · rw [hl]
      dsimp only
      obtain ⟨e1, _, _⟩ := charData_sound s
      refine hgo _ (charData s).1 (charData s).2 e1 ?_
      have hno : ¬ (lit cdEnd (c :: t)).isSome = true := by
        rw [lit_isSome]
        rintro ⟨r, hr⟩
        apply hcd
        rw [he, hr]
        exact (List.prefix_append _ _).isInfix
      rw [he]
      unfold charData
      rw [if_neg (by simp only [not_or]; exact ⟨hc1, hc2, hno⟩)]
      simp
    · rw [hl]; simp

theorem misc_more : ∀ (k : Nat) (s : Str), s.length < k → misc k s ≠ .more
  | 0, _, h => by omega
  | k + 1, [], _ => by simp [misc]
  | k + 1, c :: t, h => by
    rw [misc_cons]
    simp only [List.length_cons] at h
    split
    · exact misc_more k t (by omega)
    · cases hl : lit [60, 33, 45, 45] (c :: t) with
      | some u =>
        dsimp only
        rw [lit_iff] at hl
        have hlen := congrArg List.length hl
        simp at hlen
        cases hco : comment 0 u with
        | none => simp
        | some r' =>
          dsimp only
          apply misc_more k
          rcases comment_read hco with ⟨v, rfl, _⟩ | ⟨rfl, _⟩
          · simp at hlen; omega
          · simp; omega
      | none =>
        cases hp : lit [60, 63] (c :: t) with
        | some u =>
          dsimp only
          rw [lit_iff] at hp
          have hlen := congrArg List.length hp
          simp at hlen
          cases hco : parsePI u with
          | none => simp
          | some r' =>
            dsimp only
            apply misc_more k
            rcases parsePI_read hco with ⟨v, rfl, _⟩ | ⟨rfl, _⟩
            · simp at hlen; omega
            · simp; omega
        | none => simp

/-- Parsing ends, with a tree or an exception, for every text without `]]>`. -/
theorem C79_terminates_partial (s : Str) (h : ¬ cdEnd <:+: s) :
    ∀ k, 2 * s.length + 1 ≤ k → parseDoc k s ≠ .more := by
  intro k hk
  unfold parseDoc
  cases h1 : misc k s with
  | bad => simp [Out.then]
  | more => exact absurd h1 (misc_more k s (by omega))
  | ok a r1 =>
    simp only [Out.then]
    obtain ⟨m, o, rfl, _⟩ := misc_sound _ _ _ h1
    simp only [List.length_append] at hk
    have hcd1 : ¬ cdEnd <:+: r1 := infix_of_suffix (i := m ++ o) h (by simp)
    cases h2 : element k r1 with
    | bad => simp
    | more => exact absurd h2 ((more_step _ r1 (Nat.le_refl _) hcd1).2 k (by omega))
    | ok e r2 =>
      dsimp only
      obtain ⟨i, rfl, _⟩ := (sound_step k).2 _ _ _ h2
      simp only [List.length_append] at hk
      cases h3 : misc k r2 with
      | bad => simp
      | more => exact absurd h3 (misc_more k r2 (by omega))
      | ok a' r3 =>
        dsimp only
        cases r3 <;> simp

/-! ### Where the parser departs from XML 1.0 -/

/-- Content with `]]>` outside a CDATA section is never finished: no tree and no exception. -/
theorem C79_hang_violated (t : Str) : Hangs ([60, 97, 62] ++ (cdEnd ++ t)) := by
  intro k
  cases k with
  | zero => simp [parseDoc, misc, Out.then]
  | succ k =>
    unfold parseDoc
    have h1 : misc (k + 1) ([60, 97, 62] ++ (cdEnd ++ t)) = .ok () ([60, 97, 62] ++ (cdEnd ++ t)) :=
      misc_stop k (start_stop (c := 97) (by decide) _)
    rw [h1]
    simp only [Out.then]
    have h2 : element (k + 1) ([60, 97, 62] ++ (cdEnd ++ t)) = .more := by
      rw [show [60, 97, 62] ++ (cdEnd ++ t) = 60 :: ([97] ++ ([62] ++ (cdEnd ++ t))) from rfl,
        element_cons, parseName_ok (n := [97]) ⟨by decide, by simp⟩ (stop_app (by decide))]
      simp only [need, Out.then]
      cases k with
      | zero => simp [stagLoop]
      | succ k =>
        have h3 : stagLoop (k + 1) [] ([62] ++ (cdEnd ++ t)) = .ok ([], false) (cdEnd ++ t) := by
          simp [stagLoop, isS]
        rw [h3]
        dsimp only
        rw [if_neg (by simp), content_hang]
    rw [h2]

/-- `<?a b??><c/>` -/
def oddPI : Str := [60, 63, 97, 32, 98, 63, 63, 62, 60, 99, 47, 62]

/-- A document with a processing instruction whose data ends with `?` is not parsed. -/
theorem C79_pi_violated : GDocument GSkip oddPI (.mk [99] [] []) ∧ ∀ e, ¬ Parses oddPI e := by
  constructor
  · have h1 : GMisc GSkip ([60, 63, 97, 32, 98, 63, 63, 62] ++ []) := by
      refine GMisc.skip (Or.inr ⟨[98, 63], [97], [32], ⟨by decide, by simp⟩, by decide, ?_, ?_, ?_, ?_,
        by simp⟩) GMisc.nil
      · intro c hc; simp at hc; subst hc; decide
      · decide
      · intro c hc; simp at hc; subst hc; decide
      · simp
    have h2 : GElement GSkip ([60] ++ ([99] ++ ([] ++ ([] ++ [47, 62])))) (.mk [99] [] []) :=
      GElement.tag ⟨by decide, by simp⟩ GAtts.nil (by simp) (by simp [GSpace])
    exact GDocument.mk h1 h2 GMisc.nil
  · rintro e ⟨n, h⟩
    have := h (n + 3) (by omega)
    have hm : misc (n + 3) oddPI = .ok () [] := by
      have : oddPI = [60, 63] ++ [97, 32, 98, 63, 63, 62, 60, 99, 47, 62] := rfl
      rw [this, misc_pi]
      have : parsePI [97, 32, 98, 63, 63, 62, 60, 99, 47, 62] = some [] := by decide
      rw [this]
      rfl
    unfold parseDoc at this
    rw [hm] at this
    simp [Out.then, element] at this

theorem last_misc {m : Str} (h : GMisc GSkip m) : ∀ c, m.getLast? = some c → isS c = true ∨ c = 62 := by
  induction h with
  | nil => simp
  | @space x t hx _ ih =>
    intro c hc
    cases t with
    | nil => simp at hc; subst hc; exact Or.inl hx
    | cons y t => apply ih; simpa using hc
  | @skip i t hi _ ih =>
    intro c hc
    cases t with
    | nil =>
      rw [List.append_nil] at hc
      rcases hi with ⟨b, rfl, _⟩ | ⟨data, name, sp, _, _, _, _, _, _, rfl⟩ <;>
        (rw [List.getLast?_append] at hc; simp at hc; exact Or.inr hc.symm)
    | cons y t =>
      apply ih
      rw [List.getLast?_append] at hc
      simpa using hc

theorem last_doc {s : Str} {e : Elt} (h : GDocument GSkip s e) :
    ∀ c, s.getLast? = some c → isS c = true ∨ c = 62 := by
  obtain ⟨h1, h2, h3⟩ := h
  rename_i m1 t m2
  intro c hc
  cases m2 with
  | nil =>
    rw [List.append_nil] at hc
    have : t.getLast? = some 62 := by
      cases h2 with
      | @tag name atext sp => rw [← List.append_assoc, ← List.append_assoc, ← List.append_assoc, List.getLast?_append]; simp
      | @full name atext sp ctext sp2 =>
        rw [show ([60] ++ (name ++ (atext ++ (sp ++ ([62] ++ (ctext ++ ([60, 47] ++ (name ++ (sp2 ++ [62]))))))))) =
          ([60] ++ (name ++ (atext ++ (sp ++ ([62] ++ (ctext ++ ([60, 47] ++ (name ++ sp2)))))))) ++ [62] by simp,
          List.getLast?_append]
        simp
    rw [List.getLast?_append, this] at hc
    simp at hc
    exact Or.inr hc.symm
  | cons x m2 =>
    apply last_misc h3
    rw [List.getLast?_append, List.getLast?_append] at hc
    simpa using hc

/-- `<a/><!--` -/
def openDoc : Str := [60, 97, 47, 62, 60, 33, 45, 45]

theorem gelt_a (Skip : Str → Prop) : GElement Skip [60, 97, 47, 62] (.mk [97] [] []) :=
  GElement.tag (name := [97]) (atext := []) (sp := []) ⟨by decide, by simp⟩ GAtts.nil (by simp)
    (by simp [GSpace])

/-- A comment that is not closed is accepted at the end of the text, although the text is not a
document. -/
theorem C79_open_violated : Parses openDoc (.mk [97] [] []) ∧ ∀ e, ¬ GDocument GSkip openDoc e := by
  constructor
  · rw [C79_accepted]
    exact ⟨[60, 97, 47, 62], [60, 33, 45, 45], rfl,
      GDocument.mk (m1 := []) (m2 := []) GMisc.nil (gelt_a _) GMisc.nil,
      Or.inr (Or.inl (Or.inl ⟨[], rfl, by simp⟩))⟩
  · intro e h
    rcases last_doc h 45 (by decide) with h | h
    · exact absurd h (by decide)
    · exact absurd h (by decide)

/-- `<!---- ><a/>` -/
def spaceDoc : Str := [60, 33, 45, 45, 45, 45, 32, 62, 60, 97, 47, 62]

/-- Spaces before the `>` of a comment are accepted, although the text is not a document. -/
theorem C79_comment_violated :
    Parses spaceDoc (.mk [97] [] []) ∧ ∀ e, ¬ GDocument GSkip spaceDoc e := by
  constructor
  · rw [C79_accepted]
    refine ⟨spaceDoc, [], rfl, ?_, Or.inl rfl⟩
    refine GDocument.mk (m1 := [60, 33, 45, 45, 45, 45, 32, 62] ++ []) (m2 := [])
      (GMisc.skip (Or.inl ⟨[], [32], rfl, by simp, by simp, ?_⟩) GMisc.nil) (gelt_a _) GMisc.nil
    intro c hc; simp at hc; subst hc; decide
  · intro e h
    generalize hs : spaceDoc = s at h
    obtain ⟨h1, h2, h3⟩ := h
    rename_i m1 t m2
    cases h1 with
    | nil =>
      obtain ⟨c, u, rfl, hc⟩ := gelement_start h2
      simp [spaceDoc] at hs
      rw [← hs.1] at hc
      exact absurd hc (by decide)
    | @space c u hc _ =>
      simp [spaceDoc] at hs
      rw [← hs.1] at hc
      exact absurd hc (by decide)
    | @skip i u hi _ =>
      rcases hi with ⟨b, rfl, _⟩ | ⟨data, name, sp, _, _, _, _, _, _, rfl⟩
      · have : [45, 45, 62] <:+: spaceDoc :=
          ⟨[60, 33, 45, 45] ++ b, u ++ (t ++ m2), by rw [hs]; simp⟩
        exact absurd this (by decide)
      · simp [spaceDoc] at hs

/-! ### A document with a bit of everything -/

/-- `<a x='1'>t&lt;<!--c--><b/><![CDATA[d]]></a>` -/
def sampleDoc : Str := [60, 97, 32, 120, 61, 39, 49, 39, 62, 116, 38, 108, 116, 59, 60, 33, 45, 45, 99,
  45, 45, 62, 60, 98, 47, 62, 60, 33, 91, 67, 68, 65, 84, 65, 91, 100, 93, 93, 62, 60, 47, 97, 62]

/-- Its tree. -/
def sampleTree : Elt :=
  .mk [97] [([120], [49])] [.text [116, 60], .elt (.mk [98] [] []), .text [100]]

example : parseDoc 100 sampleDoc = .ok sampleTree [] := by
  simp [sampleDoc, sampleTree, parseDoc, misc, element, content, lead, comment, cdata, charData,
    addData, parseRef, entityRef, parseName, predefined, parseETag, stagLoop, parseAttribute, attLoop,
    eqQuote, isS, isNameChar, isNameStart, lit, cdEnd, need, Out.then, List.takeWhile, List.dropWhile]

example : GDocument GSkipEven sampleDoc sampleTree := by
  have hatt : GAtts ([32] ++ ([120] ++ ([] ++ ([61] ++ ([] ++ ([39] ++ ([49] ++ ([39] ++ []))))))))
      [([120], [49])] :=
    GAtts.cons (by intro c hc; simp at hc; subst hc; decide) (by simp) ⟨by decide, by simp⟩
      (by simp [GSpace]) (by simp [GSpace]) (Or.inr rfl)
      (GAtt.char (c := 49) (t := []) (v := []) (by decide) (by decide) (by decide) GAtt.nil) GAtts.nil
  have hb : GElement GSkipEven [60, 98, 47, 62] (.mk [98] [] []) :=
    GElement.tag (name := [98]) (atext := []) (sp := []) ⟨by decide, by simp⟩ GAtts.nil (by simp)
      (by simp [GSpace])
  have c0 : GContent GSkipEven ([] ++ []) [.data []] := GContent.mk gspace_nil GTail.nil
  have c1 : GContent GSkipEven ([] ++ (cdStart ++ ([100] ++ (cdEnd ++ ([] ++ [])))))
      [.data [], .data [100], .data []] :=
    GContent.mk gspace_nil (GTail.cd (by decide) c0)
  have c2 := GContent.mk gspace_nil (GTail.elt hb c1)
  have hcom : GSkipEven [60, 33, 45, 45, 99, 45, 45, 62] := Or.inl ⟨[99], rfl, by decide, by decide⟩
  have c3 := GContent.mk gspace_nil (GTail.skip hcom c2)
  have c4 := GContent.mk (d := [116]) ⟨by decide, by decide, by decide⟩ (GTail.ref GRef.lt c3)
  have := GElement.full (name := [97]) (sp := []) (sp2 := []) ⟨by decide, by simp⟩ hatt (by simp)
    (by simp [GSpace]) c4 (by simp [GSpace])
  exact GDocument.mk (m1 := []) (m2 := []) GMisc.nil this GMisc.nil

end Verif.Xml

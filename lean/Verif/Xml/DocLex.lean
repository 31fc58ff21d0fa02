import Verif.Xml.Doc

/-! # Lexical lemmas about the document parser -/
namespace Verif.Xml

theorem lit_iff (m s r : Str) : lit m s = some r ↔ s = m ++ r := by
  induction m generalizing s with
  | nil => simp [lit, eq_comm]
  | cons a m ih =>
    cases s with
    | nil => simp [lit]
    | cons c s =>
      unfold lit
      by_cases h : a = c
      · subst h; simp [ih]
      · simp [h]; intro h'; exact absurd h'.symm h

theorem lit_isSome (m s : Str) : (lit m s).isSome = true ↔ ∃ r, s = m ++ r := by
  rw [Option.isSome_iff_exists]
  simp only [lit_iff]

/-- The text does not start with a character of the class. -/
def Stop (p : Nat → Bool) (r : Str) : Prop := ∀ c, r.head? = some c → p c = false

theorem stop_nil (p : Nat → Bool) : Stop p [] := by intro c h; simp at h

theorem stop_cons {p : Nat → Bool} {c : Nat} {r : Str} (h : p c = false) : Stop p (c :: r) := by
  intro d hd; simp at hd; subst hd; exact h

theorem stop_app {p : Nat → Bool} {c : Nat} {w r : Str} (h : p c = false) : Stop p ((c :: w) ++ r) :=
  stop_cons h

theorem stop_while {p : Nat → Bool} {r : Str} (h : Stop p r) :
    r.takeWhile p = [] ∧ r.dropWhile p = r := by
  cases r with
  | nil => simp
  | cons c r =>
    have := h c rfl
    simp [this]

theorem span_eq {p : Nat → Bool} {w r : Str} (hw : ∀ c ∈ w, p c = true) (h : Stop p r) :
    (w ++ r).takeWhile p = w ∧ (w ++ r).dropWhile p = r := by
  rw [List.takeWhile_append_of_pos hw, List.dropWhile_append_of_pos hw, (stop_while h).1,
    (stop_while h).2]
  simp

theorem span_sound (p : Nat → Bool) (s : Str) :
    s = s.takeWhile p ++ s.dropWhile p ∧ (∀ c ∈ s.takeWhile p, p c = true) ∧
      Stop p (s.dropWhile p) := by
  refine ⟨(List.takeWhile_append_dropWhile).symm, fun c hc => ?_, ?_⟩
  · have := List.all_takeWhile (p := p) (l := s)
    rw [List.all_eq_true] at this
    exact this c hc
  intro c hc
  have := List.head?_dropWhile_not p s
  rw [hc] at this
  simpa using this

theorem parseName_ok {n r : Str} (hn : GName n) (hr : Stop isNameChar r) :
    parseName (n ++ r) = some (n, r) := by
  cases n with
  | nil => exact absurd hn id
  | cons c t =>
    obtain ⟨h1, h2⟩ := hn
    simp only [List.cons_append, parseName, h1, if_true]
    rw [(span_eq h2 hr).1, (span_eq h2 hr).2]

theorem parseName_sound {s n r : Str} (h : parseName s = some (n, r)) :
    s = n ++ r ∧ GName n ∧ Stop isNameChar r := by
  cases s with
  | nil => simp [parseName] at h
  | cons c t =>
    unfold parseName at h
    dsimp only at h
    by_cases hc : isNameStart c = true
    · rw [if_pos hc] at h
      simp only [Option.some.injEq, Prod.mk.injEq] at h
      obtain ⟨rfl, rfl⟩ := h
      obtain ⟨h1, h2, h3⟩ := span_sound isNameChar t
      exact ⟨by rw [List.cons_append, ← h1], ⟨hc, h2⟩, h3⟩
    · rw [if_neg hc] at h; cases h

theorem name_ne {n : Str} (h : GName n) : n ≠ [] := by rintro rfl; exact h

theorem charRefEnd_ok (digit : Nat → Option Nat) (base : Nat) (hd : digit 59 = none) {ds : Str}
    (h1 : ds ≠ []) (h2 : ∀ c ∈ ds, (digit c).isSome = true)
    (h3 : isChar (digitsVal digit base ds) = true) (r : Str) :
    charRefEnd digit base (ds ++ 59 :: r) = some ([digitsVal digit base ds], r) := by
  have hs : Stop (fun c => (digit c).isSome) (59 :: r) := stop_cons (by simp [hd])
  unfold charRefEnd
  dsimp only
  rw [(span_eq h2 hs).1, (span_eq h2 hs).2, if_neg h1]
  simp only [h3, if_true]

theorem charRefEnd_sound {digit : Nat → Option Nat} {base : Nat} {s d r : Str}
    (h : charRefEnd digit base s = some (d, r)) :
    ∃ ds, ds ≠ [] ∧ (∀ c ∈ ds, (digit c).isSome = true) ∧
      isChar (digitsVal digit base ds) = true ∧ d = [digitsVal digit base ds] ∧
      s = ds ++ 59 :: r := by
  obtain ⟨h1, h2, _⟩ := span_sound (fun c => (digit c).isSome) s
  unfold charRefEnd at h
  dsimp only at h
  by_cases hne : s.takeWhile (fun c => (digit c).isSome) = []
  · rw [if_pos hne] at h; cases h
  · rw [if_neg hne] at h
    cases hdr : s.dropWhile (fun c => (digit c).isSome) with
    | nil => rw [hdr] at h; cases h
    | cons c t =>
      rw [hdr] at h h1
      by_cases hc : c = 59
      · subst hc
        simp only at h
        by_cases hch : isChar (digitsVal digit base (s.takeWhile fun c => (digit c).isSome)) = true
        · rw [if_pos hch] at h
          simp only [Option.some.injEq, Prod.mk.injEq] at h
          obtain ⟨rfl, rfl⟩ := h
          exact ⟨_, hne, h2, hch, rfl, h1⟩
        · rw [if_neg hch] at h; cases h
      · split at h
        · rename_i heq; injection heq with heq _; exact absurd heq hc
        · cases h

theorem entityRef_ok {n : Str} (hn : GName n) {c : Nat} (hp : predefined n = some c) (r : Str) :
    entityRef (n ++ 59 :: r) = some ([c], r) := by
  unfold entityRef
  rw [parseName_ok hn (stop_cons (by decide))]
  simp [hp]

theorem name_lt : GName [108, 116] ∧ GName [103, 116] ∧ GName [97, 109, 112] ∧
    GName [97, 112, 111, 115] ∧ GName [113, 117, 111, 116] := by
  refine ⟨⟨by decide, by decide⟩, ⟨by decide, by decide⟩, ⟨by decide, by decide⟩,
    ⟨by decide, by decide⟩, ⟨by decide, by decide⟩⟩

theorem parseRef_name {n : Str} (hn : GName n) (r : Str) : parseRef (n ++ r) = entityRef (n ++ r) := by
  cases n with
  | nil => exact absurd hn id
  | cons a n =>
    have : a ≠ 35 := by rintro rfl; exact absurd hn.1 (by decide)
    simp only [List.cons_append]
    unfold parseRef
    split
    · rename_i heq; injection heq with heq _; exact absurd heq this
    · rename_i heq; injection heq with heq _; exact absurd heq this
    · rfl

theorem parseRef_ok {i : Str} {c : Nat} (h : GRef i c) :
    ∃ t, i = 38 :: t ∧ ∀ r, parseRef (t ++ r) = some ([c], r) := by
  have key : ∀ n c, GName n → predefined n = some c → ∀ r,
      parseRef ((n ++ [59]) ++ r) = some ([c], r) := by
    intro n c hn hp r
    have : (n ++ [59]) ++ r = n ++ 59 :: r := by simp
    rw [this, parseRef_name hn, entityRef_ok hn hp]
  cases h with
  | lt => exact ⟨_, rfl, key [108, 116] 60 name_lt.1 rfl⟩
  | gt => exact ⟨_, rfl, key [103, 116] 62 name_lt.2.1 rfl⟩
  | amp => exact ⟨_, rfl, key [97, 109, 112] 38 name_lt.2.2.1 rfl⟩
  | apos => exact ⟨_, rfl, key [97, 112, 111, 115] 39 name_lt.2.2.2.1 rfl⟩
  | quot => exact ⟨_, rfl, key [113, 117, 111, 116] 34 name_lt.2.2.2.2 rfl⟩
  | dec ds h1 h2 h3 =>
    refine ⟨35 :: (ds ++ [59]), rfl, fun r => ?_⟩
    have : (35 :: (ds ++ [59])) ++ r = 35 :: (ds ++ 59 :: r) := by simp
    rw [this]
    cases ds with
    | nil => exact absurd rfl h1
    | cons a ds =>
      have ha : a ≠ 120 := by
        rintro rfl; exact absurd (h2 120 (by simp)) (by decide)
      have : parseRef (35 :: ((a :: ds) ++ 59 :: r)) = charRefEnd decDigit 10 ((a :: ds) ++ 59 :: r) := by
        simp only [List.cons_append]
        unfold parseRef
        split
        · rename_i heq; injection heq with _ heq; injection heq with heq _; exact absurd heq ha
        · rename_i heq; injection heq with _ heq; rw [heq]
        · rename_i h1 h2 ; exact absurd rfl (h2 _)
      rw [this]
      exact charRefEnd_ok decDigit 10 (by decide) h1 h2 h3 r
  | hex ds h1 h2 h3 =>
    refine ⟨35 :: 120 :: (ds ++ [59]), rfl, fun r => ?_⟩
    have : (35 :: 120 :: (ds ++ [59])) ++ r = 35 :: 120 :: (ds ++ 59 :: r) := by simp
    rw [this]
    show charRefEnd hexDigit 16 _ = _
    exact charRefEnd_ok hexDigit 16 (by decide) h1 h2 h3 r

theorem parseRef_sound {s d r : Str} (h : parseRef s = some (d, r)) :
    ∃ i c, d = [c] ∧ GRef (38 :: i) c ∧ s = i ++ r := by
  unfold parseRef at h
  split at h
  · rename_i s'
    obtain ⟨ds, h1, h2, h3, rfl, rfl⟩ := charRefEnd_sound h
    exact ⟨35 :: 120 :: (ds ++ [59]), _, rfl, by simpa using GRef.hex ds h1 h2 h3, by simp⟩
  · rename_i s' _
    obtain ⟨ds, h1, h2, h3, rfl, rfl⟩ := charRefEnd_sound h
    exact ⟨35 :: (ds ++ [59]), _, rfl, by simpa using GRef.dec ds h1 h2 h3, by simp⟩
  · unfold entityRef at h
    split at h
    · rename_i name r' hn
      obtain ⟨h1, _, _⟩ := parseName_sound hn
      cases hp : predefined name with
      | none => rw [hp] at h; cases h
      | some c =>
        rw [hp] at h
        simp only [Option.map_some, Option.some.injEq, Prod.mk.injEq] at h
        obtain ⟨rfl, rfl⟩ := h
        refine ⟨name ++ [59], c, rfl, ?_, by simp [h1]⟩
        unfold predefined at hp
        split at hp
        · rename_i e; subst e; injection hp with hp; subst hp; exact .lt
        split at hp
        · rename_i e; subst e; injection hp with hp; subst hp; exact .gt
        split at hp
        · rename_i e; subst e; injection hp with hp; subst hp; exact .apos
        split at hp
        · rename_i e; subst e; injection hp with hp; subst hp; exact .quot
        split at hp
        · rename_i e; subst e; injection hp with hp; subst hp; exact .amp
        · cases hp
    · cases h

/-! ## Attributes -/

theorem att_ok {q : Nat} (hq : q = 34 ∨ q = 39) {v val : Str} (h : GAtt q v val) :
    ∀ acc r : Str, ∃ n, ∀ k, n ≤ k → attLoop q k acc (v ++ q :: r) = .ok (acc ++ val) r := by
  induction h with
  | nil =>
    intro acc r
    refine ⟨1, fun k hk => ?_⟩
    obtain ⟨k, rfl⟩ : ∃ j, k = j + 1 := ⟨k - 1, by omega⟩
    simp [attLoop]
  | @char c t v h1 h2 h3 _ ih =>
    intro acc r
    obtain ⟨n, hn⟩ := ih (acc ++ [if isS c then 32 else c]) r
    refine ⟨n + 1, fun k hk => ?_⟩
    obtain ⟨k, rfl⟩ : ∃ j, k = j + 1 := ⟨k - 1, by omega⟩
    have := hn k (by omega)
    simp only [List.cons_append, attLoop, h1, h2, h3, if_false]
    by_cases hs : isS c = true
    · rw [if_pos hs] at this ⊢
      rw [this]; simp [hs]
    · rw [if_neg hs] at this ⊢
      rw [this]; simp [hs]
  | @ref i c t v h1 _ ih =>
    intro acc r
    obtain ⟨n, hn⟩ := ih (acc ++ [c]) r
    obtain ⟨u, rfl, hu⟩ := parseRef_ok h1
    refine ⟨n + 1, fun k hk => ?_⟩
    obtain ⟨k, rfl⟩ : ∃ j, k = j + 1 := ⟨k - 1, by omega⟩
    have := hn k (by omega)
    have hq' : (38 : Nat) ≠ q := by rcases hq with rfl | rfl <;> decide
    simp only [List.cons_append, List.append_assoc, attLoop, hq', if_false, if_true]
    rw [hu]
    simp only [need, Out.then]
    rw [this]; simp

theorem att_sound {q : Nat} : ∀ (k : Nat) (acc s v r : Str), attLoop q k acc s = .ok v r →
    ∃ t val, s = t ++ q :: r ∧ v = acc ++ val ∧ GAtt q t val
  | 0, acc, s, v, r, h => by cases h
  | k + 1, acc, [], v, r, h => by cases h
  | k + 1, acc, c :: s, v, r, h => by
    unfold attLoop at h
    by_cases h1 : c = q
    · rw [if_pos h1] at h
      injection h with h2 h3
      subst h1 h2 h3
      exact ⟨[], [], by simp, by simp, .nil⟩
    · rw [if_neg h1] at h
      by_cases h2 : c = 38
      · rw [if_pos h2] at h
        cases hp : parseRef s with
        | none => rw [hp] at h; cases h
        | some p =>
          obtain ⟨d, r'⟩ := p
          rw [hp] at h
          obtain ⟨i, ch, rfl, h4, rfl⟩ := parseRef_sound hp
          obtain ⟨t, val, rfl, rfl, h5⟩ := att_sound k _ _ _ _ h
          refine ⟨38 :: i ++ t, ch :: val, by simp [h2], by simp, .ref h4 h5⟩
      · rw [if_neg h2] at h
        by_cases h3 : isS c = true
        · rw [if_pos h3] at h
          obtain ⟨t, val, rfl, rfl, h5⟩ := att_sound k _ _ _ _ h
          refine ⟨c :: t, (if isS c then 32 else c) :: val, by simp, by simp [h3], .char h1 ?_ h2 h5⟩
          rintro rfl; exact absurd h3 (by decide)
        · rw [if_neg h3] at h
          by_cases h4 : c = 60
          · rw [if_pos h4] at h; cases h
          · rw [if_neg h4] at h
            obtain ⟨t, val, rfl, rfl, h5⟩ := att_sound k _ _ _ _ h
            exact ⟨c :: t, (if isS c then 32 else c) :: val, by simp, by simp [h3], .char h1 h4 h2 h5⟩

theorem eqQuote_ok {sp1 sp2 : Str} (h1 : GSpace sp1) (h2 : GSpace sp2) {q : Nat}
    (hq : q = 34 ∨ q = 39) (r : Str) :
    eqQuote (sp1 ++ ([61] ++ (sp2 ++ ([q] ++ r)))) = some (q, r) := by
  unfold eqQuote
  rw [(span_eq h1 (stop_app (by decide) : Stop isS ([61] ++ (sp2 ++ ([q] ++ r))))).2]
  simp only [List.cons_append, List.nil_append]
  rw [← List.singleton_append (l := r), (span_eq h2 (stop_app (by rcases hq with rfl | rfl <;> decide) : Stop isS ([q] ++ r))).2]
  rcases hq with rfl | rfl <;> rfl

theorem eqQuote_sound {s r : Str} {q : Nat} (h : eqQuote s = some (q, r)) :
    ∃ sp1 sp2, GSpace sp1 ∧ GSpace sp2 ∧ (q = 34 ∨ q = 39) ∧
      s = sp1 ++ ([61] ++ (sp2 ++ ([q] ++ r))) := by
  obtain ⟨h1, h2, _⟩ := span_sound isS s
  generalize s.takeWhile isS = w1 at h1 h2
  unfold eqQuote at h
  split at h
  · rename_i t ht
    rw [ht] at h1
    obtain ⟨h3, h4, _⟩ := span_sound isS t
    generalize t.takeWhile isS = w2 at h3 h4
    split at h
    · rename_i r' hr
      simp only [Option.some.injEq, Prod.mk.injEq] at h
      obtain ⟨rfl, rfl⟩ := h
      rw [hr] at h3
      exact ⟨_, _, h2, h4, Or.inl rfl, by rw [h1, h3]; simp⟩
    · rename_i r' hr
      simp only [Option.some.injEq, Prod.mk.injEq] at h
      obtain ⟨rfl, rfl⟩ := h
      rw [hr] at h3
      exact ⟨_, _, h2, h4, Or.inr rfl, by rw [h1, h3]; simp⟩
    · cases h
  · cases h

theorem space_not_name {c : Nat} (h : isS c = true) : isNameChar c = false := by
  simp only [isS, Bool.or_eq_true, beq_iff_eq] at h
  rcases h with ((rfl | rfl) | rfl) | rfl <;> decide

/-- A text of spaces, then one that does not start with a name character. -/
theorem stop_space {sp r : Str} (h : GSpace sp) (hr : Stop isNameChar r) : Stop isNameChar (sp ++ r) := by
  cases sp with
  | nil => exact hr
  | cons c sp => exact stop_cons (space_not_name (h c (by simp)))

theorem parseAttribute_ok {name sp1 sp2 v value : Str} {q : Nat} (hn : GName name)
    (h1 : GSpace sp1) (h2 : GSpace sp2) (hq : q = 34 ∨ q = 39) (hv : GAtt q v value) (t : Str) :
    ∃ n, ∀ k, n ≤ k →
      parseAttribute k (name ++ (sp1 ++ ([61] ++ (sp2 ++ ([q] ++ (v ++ ([q] ++ t))))))) =
        .ok (name, value) t := by
  obtain ⟨n, hk⟩ := att_ok hq hv [] t
  refine ⟨n, fun k hkn => ?_⟩
  unfold parseAttribute
  rw [parseName_ok hn (stop_space h1 (stop_app (by decide) :
    Stop isNameChar ([61] ++ (sp2 ++ ([q] ++ (v ++ ([q] ++ t)))))))]
  simp only [need, Out.then]
  rw [eqQuote_ok h1 h2 hq]
  simp only [need, Out.then, List.singleton_append]
  rw [hk k hkn]
  simp

theorem parseAttribute_sound {k : Nat} {s r : Str} {a : Str × Str}
    (h : parseAttribute k s = .ok a r) :
    ∃ sp1 sp2 v q, GName a.1 ∧ GSpace sp1 ∧ GSpace sp2 ∧ (q = 34 ∨ q = 39) ∧ GAtt q v a.2 ∧
      s = a.1 ++ (sp1 ++ ([61] ++ (sp2 ++ ([q] ++ (v ++ ([q] ++ r)))))) := by
  unfold parseAttribute at h
  cases hn : parseName s with
  | none => rw [hn] at h; cases h
  | some p =>
    obtain ⟨name, r1⟩ := p
    rw [hn] at h
    simp only [need, Out.then] at h
    cases he : eqQuote r1 with
    | none => rw [he] at h; cases h
    | some p2 =>
      obtain ⟨q, r2⟩ := p2
      rw [he] at h
      simp only [need, Out.then] at h
      cases ha : attLoop q k [] r2 with
      | bad => rw [ha] at h; cases h
      | more => rw [ha] at h; cases h
      | ok v r3 =>
        rw [ha] at h
        simp only [Out.ok.injEq] at h
        obtain ⟨rfl, rfl⟩ := h
        obtain ⟨rfl, h2, _⟩ := parseName_sound hn
        obtain ⟨sp1, sp2, h3, h4, h5, rfl⟩ := eqQuote_sound he
        obtain ⟨t, val, rfl, rfl, h6⟩ := att_sound k _ _ _ _ ha
        exact ⟨sp1, sp2, t, q, h2, h3, h4, h5, by simpa using h6, by simp⟩

/-- The end of a tag. -/
def tagEnd (b : Bool) : Str := if b then [47, 62] else [62]

theorem stag_ok {atext : Str} {attrs : List (Str × Str)} (h : GAtts atext attrs) :
    ∀ (sp : Str), GSpace sp → ∀ (b : Bool) (acc : List (Str × Str)) (r : Str),
    ((acc ++ attrs).map Prod.fst).Nodup →
    ∃ n, ∀ k, n ≤ k → stagLoop k acc (atext ++ (sp ++ (tagEnd b ++ r))) = .ok (acc ++ attrs, b) r := by
  induction h with
  | nil =>
    intro sp hsp b acc r _
    refine ⟨1, fun k hk => ?_⟩
    obtain ⟨k, rfl⟩ : ∃ j, k = j + 1 := ⟨k - 1, by omega⟩
    unfold stagLoop
    have : Stop isS (tagEnd b ++ r) := by
      cases b
      · exact stop_cons (by decide)
      · exact stop_cons (by decide)
    rw [List.nil_append, (span_eq hsp this).2]
    cases b <;> simp [tagEnd]
  | @cons s0 name sp1 sp2 v value t q attrs h1 h2 h3 h4 h5 h6 h7 h8 ih =>
    intro sp hsp b acc r hnd
    obtain ⟨n1, hn1⟩ := parseAttribute_ok h3 h4 h5 h6 h7 (t ++ (sp ++ (tagEnd b ++ r)))
    obtain ⟨n2, hn2⟩ := ih sp hsp b (acc ++ [(name, value)]) r (by simpa using hnd)
    refine ⟨n1 + n2 + 1, fun k hk => ?_⟩
    obtain ⟨k, rfl⟩ : ∃ j, k = j + 1 := ⟨k - 1, by omega⟩
    obtain ⟨c, nt, rfl⟩ : ∃ c nt, name = c :: nt := by
      cases name with
      | nil => exact absurd h3 id
      | cons c nt => exact ⟨c, nt, rfl⟩
    have hcs : isS c = false := by
      cases hc : isS c with
      | false => rfl
      | true =>
        have h9 := h3.1
        have := space_not_name hc
        unfold isNameChar at this
        rw [h9] at this
        simp at this
    have hc1 : c ≠ 62 := by rintro rfl; exact absurd h3.1 (by decide)
    have hc2 : c ≠ 47 := by rintro rfl; exact absurd h3.1 (by decide)
    have e : (s0 ++ ((c :: nt) ++ (sp1 ++ ([61] ++ (sp2 ++ ([q] ++ (v ++ ([q] ++ t)))))))) ++
          (sp ++ (tagEnd b ++ r)) =
        s0 ++ ((c :: nt) ++ (sp1 ++ ([61] ++ (sp2 ++ ([q] ++ (v ++ ([q] ++
          (t ++ (sp ++ (tagEnd b ++ r)))))))))) := by simp
    rw [e]
    unfold stagLoop
    have hst : Stop isS ((c :: nt) ++ (sp1 ++ ([61] ++ (sp2 ++ ([q] ++ (v ++ ([q] ++
          (t ++ (sp ++ (tagEnd b ++ r)))))))))) := stop_cons hcs
    rw [(span_eq h1 hst).2, (span_eq h1 hst).1]
    have hA := hn1 k (by omega)
    simp only [List.cons_append] at hA ⊢
    split
    · rename_i heq; injection heq with heq _; exact absurd heq hc1
    · rename_i heq; injection heq with heq _; exact absurd heq hc2
    · rename_i heq; injection heq with heq _; exact absurd heq hc2
    · rw [if_neg h2, hA]
      simp only [Out.then]
      have hnin : ¬ (c :: nt) ∈ acc.map Prod.fst := by
        intro hin
        rw [List.map_append, List.nodup_append] at hnd
        exact hnd.2.2 _ hin (c :: nt) (by simp) rfl
      rw [if_neg hnin, hn2 k (by omega)]
      simp

theorem stag_sound : ∀ (k : Nat) (acc : List (Str × Str)) (s : Str) (attrs : List (Str × Str))
    (b : Bool) (r : Str), stagLoop k acc s = .ok (attrs, b) r →
    ∃ atext new sp, s = atext ++ (sp ++ (tagEnd b ++ r)) ∧ attrs = acc ++ new ∧ GAtts atext new ∧
      GSpace sp ∧ ((acc.map Prod.fst).Nodup → ((acc ++ new).map Prod.fst).Nodup)
  | 0, acc, s, attrs, b, r, h => by cases h
  | k + 1, acc, s, attrs, b, r, h => by
    obtain ⟨h1, h2, h3⟩ := span_sound isS s
    unfold stagLoop at h
    split at h
    · rename_i r' heq
      simp only [Out.ok.injEq, Prod.mk.injEq] at h
      obtain ⟨⟨rfl, rfl⟩, rfl⟩ := h
      rw [heq] at h1
      exact ⟨[], [], _, by simpa [tagEnd] using h1, by simp, .nil, h2, by simp⟩
    · rename_i r' heq
      simp only [Out.ok.injEq, Prod.mk.injEq] at h
      obtain ⟨⟨rfl, rfl⟩, rfl⟩ := h
      rw [heq] at h1
      exact ⟨[], [], _, by simpa [tagEnd] using h1, by simp, .nil, h2, by simp⟩
    · cases h
    · by_cases hne : s.takeWhile isS = []
      · rw [if_pos hne] at h; cases h
      · rw [if_neg hne] at h
        cases ha : parseAttribute k (s.dropWhile isS) with
        | bad => rw [ha] at h; cases h
        | more => rw [ha] at h; cases h
        | ok a r1 =>
          rw [ha] at h
          simp only [Out.then] at h
          by_cases hin : a.1 ∈ acc.map Prod.fst
          · rw [if_pos hin] at h; cases h
          · rw [if_neg hin] at h
            obtain ⟨sp1, sp2, v, q, g1, g2, g3, g4, g5, g6⟩ := parseAttribute_sound ha
            obtain ⟨atext, new, sp, rfl, rfl, i3, i4, i5⟩ := stag_sound k _ _ _ _ _ h
            refine ⟨s.takeWhile isS ++ (a.1 ++ (sp1 ++ ([61] ++ (sp2 ++ ([q] ++ (v ++ ([q] ++ atext))))))),
              (a.1, a.2) :: new, sp, ?_, by simp, ?_, i4, ?_⟩
            · rw [g6] at h1
              rw [h1]
              simp only [List.append_assoc]
              congr 1
              rw [← h1]
            · exact .cons h2 hne g1 g2 g3 g4 g5 i3
            · intro hnd
              have := i5 (by
                rw [List.map_append, List.nodup_append]
                refine ⟨hnd, by simp, ?_⟩
                intro x hx y hy hxy
                simp at hy
                subst hxy hy
                exact hin hx)
              simpa using this

end Verif.Xml

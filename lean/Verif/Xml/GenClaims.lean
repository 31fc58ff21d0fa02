import Verif.Xml.GenProps

/-! # Writing and reading elements (C80) -/
namespace Verif.Xml

/-! ## Escaped text -/

/-- Escaped text: characters and references; with a quote that does not occur. -/
inductive GEsc (q : Option Nat) : Str → Str → Prop where
  | nil : GEsc q [] []
  | char {c : Nat} {t v : Str} : c ≠ 60 → c ≠ 38 → c ≠ 62 → c ≠ 13 → some c ≠ q → GEsc q t v →
      GEsc q (c :: t) (c :: v)
  | ref {r : Str} {c : Nat} {t v : Str} : GRef r c → c ≠ 9 → c ≠ 10 → 13 ∉ r → GEsc q t v →
      GEsc q (r ++ t) (c :: v)

theorem esc_no_cr {q : Option Nat} {t v : Str} (h : GEsc q t v) : 13 ∉ t := by
  induction h with
  | nil => simp
  | char _ _ _ h4 _ _ ih => simp only [List.mem_cons, not_or]; exact ⟨fun e => h4 e.symm, ih⟩
  | ref _ _ _ h4 _ ih => simp only [List.mem_append, not_or]; exact ⟨h4, ih⟩

/-- Tabs and line feeds become spaces in attribute values. -/
def attNorm (v : Str) : Str := v.map fun c => if c = 9 ∨ c = 10 then 32 else c

theorem esc_att {q : Nat} {t v : Str} (h : GEsc (some q) t v) : GAtt q t (attNorm v) := by
  induction h with
  | nil => exact GAtt.nil
  | @char c t v h1 h2 h3 h4 h5 _ ih =>
    have e : (if c = 9 ∨ c = 10 then 32 else c) = if isS c then 32 else c := by
      by_cases hs : c = 9 ∨ c = 10
      · rw [if_pos hs]; rcases hs with rfl | rfl <;> decide
      · rw [if_neg hs]
        by_cases h' : isS c = true
        · rw [if_pos h']
          simp only [isS, Bool.or_eq_true, beq_iff_eq] at h'
          simp only [not_or] at hs
          rcases h' with ((h' | h') | h') | h'
          · exact h'
          · exact absurd h' hs.1
          · exact absurd h' hs.2
          · exact absurd h' h4
        · rw [if_neg h']
    have : attNorm (c :: v) = (if isS c then 32 else c) :: attNorm v := by
      rw [← e]; rfl
    rw [this]
    exact GAtt.char (fun e => h5 (by rw [e])) h1 h2 ih
  | @ref r c t v h1 h2 h3 h4 _ ih =>
    have : attNorm (c :: v) = c :: attNorm v := by simp [attNorm, h2, h3]
    rw [this]
    exact GAtt.ref h1 ih

/-! ## Content -/

/-- Put data before children. -/
def prepend (s : Str) : List Kid → List Kid
  | .text s' :: ks => .text (s ++ s') :: ks
  | ks => if s = [] then ks else .text s :: ks

theorem joinData_data (d : Str) (ps : List Piece) : joinData (.data d :: ps) = prepend d (joinData ps) := by
  cases hj : joinData ps with
  | nil => simp [joinData, prepend, hj]
  | cons k ks =>
    cases k with
    | text s => simp [joinData, prepend, hj]
    | elt e => simp [joinData, prepend, hj]

theorem prepend_nil (ks : List Kid) : prepend [] ks = ks := by
  cases ks with
  | nil => rfl
  | cons k ks => cases k <;> simp [prepend]

theorem prepend_append (a b : Str) (ks : List Kid) : prepend (a ++ b) ks = prepend a (prepend b ks) := by
  by_cases hb : b = []
  · subst hb; rw [prepend_nil, List.append_nil]
  · cases ks with
    | nil => simp [prepend, hb]
    | cons k ks => cases k <;> simp [prepend, hb]

/-- Content whose leading data has no `>`. -/
def SafeContent (Skip : Str → Prop) (t : Str) (ks : List Kid) : Prop :=
  ∃ d t' ps, t = d ++ t' ∧ 60 ∉ d ∧ 38 ∉ d ∧ 62 ∉ d ∧ GTail Skip t' ps ∧
    ks = joinData (.data d :: ps)

theorem safe_chardata {d : Str} (h1 : 60 ∉ d) (h2 : 38 ∉ d) (h3 : 62 ∉ d) : GCharData d :=
  ⟨h1, h2, fun ⟨a, b, h⟩ => h3 (by rw [← h]; simp [cdEnd])⟩

theorem safe_content {Skip : Str → Prop} {t : Str} {ks : List Kid} (h : SafeContent Skip t ks) :
    ∃ ps, GContent Skip t ps ∧ ks = joinData ps := by
  obtain ⟨d, t', ps, rfl, h1, h2, h3, h4, rfl⟩ := h
  exact ⟨_, GContent.mk (safe_chardata h1 h2 h3) h4, rfl⟩

theorem safe_tail {Skip : Str → Prop} {t : Str} {ps : List Piece} (h : GTail Skip t ps) :
    SafeContent Skip t (joinData ps) :=
  ⟨[], t, ps, rfl, by simp, by simp, by simp, h, by rw [joinData_data, prepend_nil]⟩

theorem safe_nil (Skip : Str → Prop) : SafeContent Skip [] [] := safe_tail GTail.nil

theorem safe_text {Skip : Str → Prop} {t v : Str} (h : GEsc none t v) {u : Str} {ks : List Kid}
    (hu : SafeContent Skip u ks) : SafeContent Skip (t ++ u) (prepend v ks) := by
  induction h with
  | nil => rw [prepend_nil]; exact hu
  | @char c t v h1 h2 h3 _ _ _ ih =>
    obtain ⟨d, t', ps, e, g1, g2, g3, g4, g5⟩ := ih
    refine ⟨c :: d, t', ps, by rw [List.cons_append, e]; rfl, ?_, ?_, ?_, g4, ?_⟩
    · simp only [List.mem_cons, not_or]; exact ⟨fun e => h1 e.symm, g1⟩
    · simp only [List.mem_cons, not_or]; exact ⟨fun e => h2 e.symm, g2⟩
    · simp only [List.mem_cons, not_or]; exact ⟨fun e => h3 e.symm, g3⟩
    · rw [joinData_data] at g5 ⊢
      rw [show c :: v = [c] ++ v from rfl, prepend_append, g5, ← prepend_append]
      rfl
  | @ref r c t v h1 _ _ _ _ ih =>
    obtain ⟨ps, g1, g2⟩ := safe_content ih
    have := safe_tail (GTail.ref h1 g1)
    rw [joinData_data, ← g2, ← prepend_append] at this
    rw [List.append_assoc]
    exact this

theorem safe_elt {Skip : Str → Prop} {i : Str} {e : Elt} (h : GElement Skip i e) {u : Str}
    {ks : List Kid} (hu : SafeContent Skip u ks) : SafeContent Skip (i ++ u) (.elt e :: ks) := by
  obtain ⟨ps, g1, rfl⟩ := safe_content hu
  exact safe_tail (GTail.elt h g1)

/-! ## Escape functions -/

/-- An escape function gives escaped text, for text of `ok` characters. -/
def EscOk (esc : Bool → Str → Str) (ok : Nat → Prop) : Prop :=
  (∀ s, (∀ c ∈ s, ok c) → GEsc none (esc false s) s) ∧
  (∀ s, (∀ c ∈ s, ok c) → ∃ q t, (q = 34 ∨ q = 39) ∧ esc true s = [q] ++ t ++ [q] ∧
    GEsc (some q) t s)

theorem flatMap_esc {q : Option Nat} {f : Nat → Str} (s : Str)
    (h : ∀ c ∈ s, ∀ t v, GEsc q t v → GEsc q (f c ++ t) (c :: v)) : GEsc q (s.flatMap f) s := by
  induction s with
  | nil => exact GEsc.nil
  | cons c s ih =>
    rw [List.flatMap_cons]
    exact h c (by simp) _ _ (ih fun d hd => h d (by simp [hd]))

theorem ref_cr : GRef [38, 35, 120, 68, 59] 13 := GRef.hex [68] (by simp) (by decide) (by decide)

theorem escChar_ok {q : Option Nat} (c : Nat) (hc : some c ≠ q) (t v : Str) (h : GEsc q t v) :
    GEsc q (escChar c ++ t) (c :: v) := by
  unfold escChar
  split
  · rename_i e; subst e; exact GEsc.ref GRef.amp (by decide) (by decide) (by decide) h
  split
  · rename_i e; subst e; exact GEsc.ref GRef.lt (by decide) (by decide) (by decide) h
  split
  · rename_i e; subst e; exact GEsc.ref GRef.gt (by decide) (by decide) (by decide) h
  split
  · rename_i e; subst e; exact GEsc.ref ref_cr (by decide) (by decide) (by decide) h
  · rename_i h1 h2 h3 h4
    exact GEsc.char h2 h1 h3 h4 hc h

theorem escape_ok : EscOk escape fun _ => True := by
  constructor
  · intro s _
    exact flatMap_esc s fun c _ t v h => escChar_ok c (by simp) t v h
  · intro s _
    unfold escape
    rw [if_pos rfl]
    split
    · refine ⟨39, s.flatMap escApos, Or.inr rfl, rfl, flatMap_esc s fun c _ t v h => ?_⟩
      unfold escApos
      split
      · rename_i e; subst e; exact GEsc.ref GRef.apos (by decide) (by decide) (by decide) h
      · rename_i e; exact escChar_ok c (by simpa using e) t v h
    · refine ⟨34, s.flatMap escQuot, Or.inl rfl, rfl, flatMap_esc s fun c _ t v h => ?_⟩
      unfold escQuot
      split
      · rename_i e; subst e; exact GEsc.ref GRef.quot (by decide) (by decide) (by decide) h
      · rename_i e; exact escChar_ok c (by simpa using e) t v h

theorem hexChar_digit {d : Nat} (h : d < 16) : hexDigit (hexChar d) = some d := by
  unfold hexChar hexDigit
  split
  · rw [if_pos (by omega)]; simp
  · rw [if_neg (by omega), if_neg (by omega), if_pos (by omega)]; simp

theorem hexN_digits (n : Nat) : ∀ v, ∀ c ∈ hexN n v, (hexDigit c).isSome = true ∧ c ≠ 13 := by
  induction n with
  | zero => intro v c h; simp [hexN] at h
  | succ n ih =>
    intro v c h
    simp only [hexN, List.mem_append, List.mem_singleton] at h
    rcases h with h | rfl
    · exact ih _ c h
    · have := hexChar_digit (Nat.mod_lt v (by omega : 16 > 0))
      refine ⟨by rw [this]; rfl, ?_⟩
      unfold hexChar
      split <;> omega

theorem hexN_val (n : Nat) : ∀ v, v < 16 ^ n → digitsVal hexDigit 16 (hexN n v) = v := by
  induction n with
  | zero => intro v h; simp at h; subst h; rfl
  | succ n ih =>
    intro v h
    have h1 : v / 16 < 16 ^ n := by
      rw [Nat.div_lt_iff_lt_mul (by omega)]
      rw [Nat.pow_succ] at h
      exact h
    have := ih _ h1
    unfold digitsVal at this ⊢
    simp only [hexN, List.foldl_append, this, List.foldl_cons, List.foldl_nil]
    rw [hexChar_digit (Nat.mod_lt v (by omega : 16 > 0))]
    simp
    omega

theorem hexN_ne (n v : Nat) : hexN (n + 1) v ≠ [] := by simp [hexN]

theorem hexN_ref {n c : Nat} (hn : n ≠ 0) (hc : c < 16 ^ n) (hch : isChar c = true) :
    GRef ([38, 35, 120] ++ hexN n c ++ [59]) c := by
  obtain ⟨n, rfl⟩ : ∃ m, n = m + 1 := ⟨n - 1, by omega⟩
  have hv := hexN_val (n + 1) c hc
  have := GRef.hex (hexN (n + 1) c) (hexN_ne n c) (fun d hd => (hexN_digits _ _ d hd).1)
    (by rw [hv]; exact hch)
  rw [hv] at this
  exact this

/-- A character above ASCII is escaped only if it is a character of XML. -/
def Ok7 (c : Nat) : Prop := c > 0x7F → isChar c = true

theorem escChar7_ok {q : Option Nat} {qstr : Str} (hq : ∀ c, q = some c → GRef qstr c ∧ 13 ∉ qstr ∧ c ≠ 9 ∧ c ≠ 10)
    (c : Nat) (hc : Ok7 c) (t v : Str) (h : GEsc q t v) : GEsc q (escChar7 q qstr c ++ t) (c :: v) := by
  unfold escChar7
  split
  · rename_i h7
    have hch := hc h7
    have key : ∀ n, n ≠ 0 → c < 16 ^ n →
        GEsc q (([38, 35, 120] ++ hexN n c ++ [59]) ++ t) (c :: v) := by
      intro n hn hlt
      refine GEsc.ref (hexN_ref hn hlt hch) (by omega) (by omega) ?_ h
      simp only [List.mem_append, not_or]
      refine ⟨⟨by decide, fun hm => (hexN_digits n c 13 hm).2 rfl⟩, by decide⟩
    have hmax : c ≤ 0x10FFFF := by
      simp only [isChar, Bool.or_eq_true, beq_iff_eq, Bool.and_eq_true, decide_eq_true_eq] at hch
      omega
    by_cases h1 : c > 0xFF
    · rw [if_pos h1]
      by_cases h2 : c > 0xFFFF
      · rw [if_pos h2, if_neg (by omega)]
        exact key 6 (by decide) (by omega)
      · rw [if_neg h2]
        exact key 4 (by decide) (by omega)
    · rw [if_neg h1]
      exact key 2 (by decide) (by omega)
  split
  · rename_i e; subst e; exact GEsc.ref GRef.lt (by decide) (by decide) (by decide) h
  split
  · rename_i e; subst e; exact GEsc.ref GRef.amp (by decide) (by decide) (by decide) h
  split
  · rename_i e; subst e; exact GEsc.ref GRef.gt (by decide) (by decide) (by decide) h
  split
  · rename_i e; subst e; exact GEsc.ref ref_cr (by decide) (by decide) (by decide) h
  split
  · rename_i e
    obtain ⟨g1, g2, g3, g4⟩ := hq c e.symm
    exact GEsc.ref g1 g3 g4 g2 h
  · rename_i h1 h2 h3 h4 h5
    exact GEsc.char h1 h2 h3 h4 h5 h

theorem ref_quot : GRef [38, 35, 120, 50, 50, 59] 34 := GRef.hex [50, 50] (by simp) (by decide) (by decide)
theorem ref_apos : GRef [38, 35, 120, 50, 55, 59] 39 := GRef.hex [50, 55] (by simp) (by decide) (by decide)

theorem escape7_ok : EscOk escape7 Ok7 := by
  constructor
  · intro s hs
    exact flatMap_esc s fun c hc t v h => escChar7_ok (by simp) c (hs c hc) t v h
  · intro s hs
    have k34 : GEsc (some 34) (s.flatMap (escChar7 (some 34) [38, 35, 120, 50, 50, 59])) s :=
      flatMap_esc s fun c hc t v h => escChar7_ok (by
        intro c hc; injection hc with hc; subst hc
        exact ⟨ref_quot, by decide, by decide, by decide⟩) c (hs c hc) t v h
    have k39 : GEsc (some 39) (s.flatMap (escChar7 (some 39) [38, 35, 120, 50, 55, 59])) s :=
      flatMap_esc s fun c hc t v h => escChar7_ok (by
        intro c hc; injection hc with hc; subst hc
        exact ⟨ref_apos, by decide, by decide, by decide⟩) c (hs c hc) t v h
    unfold escape7
    rw [if_pos rfl]
    split
    · exact ⟨34, _, Or.inl rfl, rfl, k34⟩
    split
    · exact ⟨39, _, Or.inr rfl, rfl, k39⟩
    · exact ⟨34, _, Or.inl rfl, rfl, k34⟩

/-! ## Elements -/

/-- The attributes as they are read back. -/
def backAttrs (attrs : List (Str × Str)) : List (Str × Str) :=
  (sortAttrs attrs).map fun a => (a.1, attNorm a.2)

mutual
/-- The element that is read back. -/
def back (p : Bool) : Elt → Elt
  | .mk name attrs kids =>
    .mk name (backAttrs attrs) ((canonKids (presOf p attrs) (backKids (presOf p attrs) kids)).map toKid)
/-- The children that are read back, before their canonical form is taken. -/
def backKids (p : Bool) : List Kid → List (Str ⊕ Elt)
  | [] => []
  | .text s :: ks => .inl s :: backKids p ks
  | .elt e :: ks => .inr (back p e) :: backKids p ks
end

theorem goodKids_back {ok : Nat → Prop} (p : Bool) : ∀ ks, GoodKids ok ks → GoodItems ok (backKids p ks)
  | [], _ => by simp [backKids, GoodItems]
  | .text s :: ks, h => by
    simp only [GoodKids] at h
    simp only [backKids, GoodItems]
    refine ⟨h.1, h.2.1, ?_, goodKids_back p ks h.2.2.2⟩
    intro s' ks' he
    cases ks with
    | nil => simp [backKids] at he
    | cons k ks =>
      cases k with
      | text s2 => exact h.2.2.1 s2 ks rfl
      | elt e => simp [backKids] at he
  | .elt e :: ks, h => by
    simp only [GoodKids] at h
    simp only [backKids, GoodItems]
    exact goodKids_back p ks h.2

theorem attrs_ok {esc : Bool → Str → Str} {ok : Nat → Prop} (he : EscOk esc ok) :
    ∀ attrs : List (Str × Str), (∀ a ∈ attrs, GName a.1 ∧ ∀ c ∈ a.2, ok c) →
    GAtts (attrs.flatMap fun a => [32] ++ a.1 ++ [61] ++ esc true a.2)
      (attrs.map fun a => (a.1, attNorm a.2))
  | [], _ => GAtts.nil
  | a :: attrs, h => by
    obtain ⟨h1, h2⟩ := h a (by simp)
    obtain ⟨q, t, hq, e, hg⟩ := he.2 a.2 h2
    have ih := attrs_ok he attrs fun b hb => h b (by simp [hb])
    rw [List.flatMap_cons, List.map_cons, e]
    have := GAtts.cons (sp := [32]) (sp1 := []) (sp2 := []) (by intro c hc; simp at hc; subst hc; decide)
      (by simp) h1 (by simp [GSpace]) (by simp [GSpace]) hq (esc_att hg) ih
    simpa using this

/-- Text and the element it stands for. -/
def Gives (Skip : Str → Prop) (t : Str) (e : Elt) : Prop := GElement Skip t e

theorem kids_ok {esc : Bool → Str → Str} {ok : Nat → Prop} (he : EscOk esc ok) {Skip : Str → Prop}
    {xs : List (Str ⊕ Str)} {ys : List (Str ⊕ Elt)} (h : List.Forall₂ (Rel (Gives Skip)) xs ys) :
    GoodItems ok ys → SafeContent Skip (xs.flatMap (kidText esc)) (ys.map toKid) := by
  induction h with
  | nil => intro _; exact safe_nil Skip
  | @cons x y xs ys hxy _ ih =>
    intro hg
    cases hxy with
    | inl s =>
      obtain ⟨h1, h2, h3, h4⟩ := hg
      have := safe_text (he.1 s h2) (ih h4)
      have hp : prepend s (ys.map toKid) = .text s :: ys.map toKid := by
        cases ys with
        | nil => simp [prepend, h1]
        | cons z zs =>
          cases z with
          | inl s' => exact absurd rfl (h3 s' zs)
          | inr e => simp [prepend, toKid, h1]
      rw [hp] at this
      exact this
    | inr hr => exact safe_elt hr (ih hg)

theorem sorted_good {ok : Nat → Prop} {attrs : List (Str × Str)}
    (h : ∀ a ∈ attrs, GName a.1 ∧ ∀ c ∈ a.2, ok c) :
    ∀ a ∈ sortAttrs attrs, GName a.1 ∧ ∀ c ∈ a.2, ok c :=
  fun a ha => h a ((sortAttrs_perm attrs).mem_iff.1 ha)

theorem back_names (attrs : List (Str × Str)) (h : (attrs.map Prod.fst).Nodup) :
    ((backAttrs attrs).map Prod.fst).Nodup := by
  unfold backAttrs
  rw [List.map_map]
  exact ((sortAttrs_perm attrs).map Prod.fst).nodup_iff.2 h

mutual
theorem gen_ok {esc : Bool → Str → Str} {ok : Nat → Prop} (he : EscOk esc ok) (h32 : ok 32)
    (Skip : Str → Prop) (p : Bool) : ∀ e, GoodElt ok e → GElement Skip (gen esc p e) (back p e)
  | .mk name attrs kids, h => by
    simp only [GoodElt] at h
    obtain ⟨h1, h2, h3, h4⟩ := h
    have hatt := attrs_ok he _ (sorted_good h2)
    have hrel := canon_rel (presOf p attrs) (genKids_ok he h32 Skip (presOf p attrs) kids h4)
    have hgood := canonKids_good h32 (presOf p attrs) _ (goodKids_back (presOf p attrs) kids h4)
    have hsafe := kids_ok he hrel hgood
    simp only [gen, back]
    cases hc : canonKids (presOf p attrs) (genKids esc (presOf p attrs) kids) with
    | nil =>
      rw [hc, List.forall₂_nil_left_iff] at hrel
      rw [hrel]
      have := GElement.tag (Skip := Skip) (sp := []) h1 hatt (back_names attrs h3) (by simp [GSpace])
      simpa [attrText, backAttrs] using this
    | cons k ks =>
      rw [hc] at hsafe
      obtain ⟨ps, g1, g2⟩ := safe_content hsafe
      have := GElement.full (Skip := Skip) (sp := []) (sp2 := []) h1 hatt (back_names attrs h3)
        (by simp [GSpace]) g1 (by simp [GSpace])
      rw [← g2] at this
      simpa [attrText, backAttrs] using this
theorem genKids_ok {esc : Bool → Str → Str} {ok : Nat → Prop} (he : EscOk esc ok) (h32 : ok 32)
    (Skip : Str → Prop) (p : Bool) : ∀ ks, GoodKids ok ks →
    List.Forall₂ (Rel (Gives Skip)) (genKids esc p ks) (backKids p ks)
  | [], _ => by simp only [genKids, backKids]; exact .nil
  | .text s :: ks, h => by
    simp only [GoodKids] at h
    simp only [genKids, backKids]
    exact .cons (.inl s) (genKids_ok he h32 Skip p ks h.2.2.2)
  | .elt e :: ks, h => by
    simp only [GoodKids] at h
    simp only [genKids, backKids]
    exact .cons (.inr (gen_ok he h32 Skip p e h.1)) (genKids_ok he h32 Skip p ks h.2)
end

/-! ### No carriage returns are written -/

theorem name_no_cr {n : Str} (h : GName n) : 13 ∉ n := by
  cases n with
  | nil => simp
  | cons c t =>
    intro hm
    rcases List.mem_cons.1 hm with rfl | hm
    · exact absurd h.1 (by decide)
    · exact absurd (h.2 13 hm) (by decide)

theorem normLines_id : ∀ s : Str, 13 ∉ s → normLines s = s
  | [], _ => by simp [normLines]
  | c :: t, h => by
    simp only [List.mem_cons, not_or] at h
    have hc : c ≠ 13 := fun e => h.1 e.symm
    rw [normLines.eq_3]
    · rw [normLines_id t h.2]
    · intro t' e; exact absurd e hc
    · intro e; exact absurd e hc

theorem attrs_no_cr {esc : Bool → Str → Str} {ok : Nat → Prop} (he : EscOk esc ok)
    {attrs : List (Str × Str)} (h : ∀ a ∈ attrs, GName a.1 ∧ ∀ c ∈ a.2, ok c) :
    13 ∉ attrText esc attrs := by
  unfold attrText
  intro hm
  rw [List.mem_flatMap] at hm
  obtain ⟨a, ha, hm⟩ := hm
  obtain ⟨h1, h2⟩ := sorted_good h a ha
  obtain ⟨q, t, hq, e, hg⟩ := he.2 a.2 h2
  rw [e] at hm
  simp only [List.mem_append, List.mem_singleton] at hm
  have := name_no_cr h1
  have := esc_no_cr hg
  rcases hm with ((h | h) | h) | ((h | h) | h)
  · omega
  · exact absurd h ‹13 ∉ a.1›
  · omega
  · omega
  · exact absurd h ‹13 ∉ t›
  · omega

theorem kids_no_cr {esc : Bool → Str → Str} {ok : Nat → Prop} (he : EscOk esc ok)
    {xs : List (Str ⊕ Str)} (hx : ∀ t, .inr t ∈ xs → 13 ∉ t) (hg : GoodItems ok xs) :
    13 ∉ xs.flatMap (kidText esc) := by
  induction xs with
  | nil => simp
  | cons x xs ih =>
    rw [List.flatMap_cons, List.mem_append]
    rintro (h | h)
    · cases x with
      | inl s => exact esc_no_cr (he.1 s hg.2.1) h
      | inr t => exact hx t (by simp) h
    · refine ih (fun t ht => hx t (by simp [ht])) ?_ h
      cases x with
      | inl s => exact hg.2.2.2
      | inr t => exact hg

theorem canon_inr {α : Type} (p : Bool) (P : α → Prop) {xs : List (Str ⊕ α)}
    (h : ∀ a, .inr a ∈ xs → P a) : ∀ a, .inr a ∈ canonKids p xs → P a := by
  have hr : List.Forall₂ (Rel fun a b => a = b ∧ P a) xs xs := by
    induction xs with
    | nil => exact .nil
    | cons x xs ih =>
      refine .cons ?_ (ih fun a ha => h a (by simp [ha]))
      cases x with
      | inl s => exact .inl s
      | inr a => exact .inr ⟨rfl, h a (by simp)⟩
  have := canon_rel p hr
  intro a ha
  generalize canonKids p xs = ys at this ha
  induction ys with
  | nil => simp at ha
  | cons y ys ih =>
    cases this with
    | cons hy hys =>
      rcases List.mem_cons.1 ha with rfl | ha
      · cases hy with
        | inr hp => exact hp.2
      · exact ih hys ha

theorem goodKids_gen {ok : Nat → Prop} (esc : Bool → Str → Str) (p : Bool) :
    ∀ ks, GoodKids ok ks → GoodItems ok (genKids esc p ks)
  | [], _ => by simp [genKids, GoodItems]
  | .text s :: ks, h => by
    simp only [GoodKids] at h
    simp only [genKids, GoodItems]
    refine ⟨h.1, h.2.1, ?_, goodKids_gen esc p ks h.2.2.2⟩
    intro s' ks' he
    cases ks with
    | nil => simp [genKids] at he
    | cons k ks =>
      cases k with
      | text s2 => exact h.2.2.1 s2 ks rfl
      | elt e => simp [genKids] at he
  | .elt e :: ks, h => by
    simp only [GoodKids] at h
    simp only [genKids, GoodItems]
    exact goodKids_gen esc p ks h.2

mutual
theorem gen_no_cr {esc : Bool → Str → Str} {ok : Nat → Prop} (he : EscOk esc ok) (h32 : ok 32)
    (p : Bool) : ∀ e, GoodElt ok e → 13 ∉ gen esc p e
  | .mk name attrs kids, h => by
    simp only [GoodElt] at h
    obtain ⟨h1, h2, h3, h4⟩ := h
    have hn := name_no_cr h1
    have ha := attrs_no_cr he h2
    have hk := kids_no_cr he
      (canon_inr (presOf p attrs) (fun t => 13 ∉ t) (genKids_no_cr he h32 (presOf p attrs) kids h4))
      (canonKids_good h32 (presOf p attrs) _ (goodKids_gen esc (presOf p attrs) kids h4))
    simp only [gen]
    split
    · simp [hn, ha]
    · rename_i ks
      simp only [List.mem_append, not_or]
      exact ⟨⟨⟨⟨⟨⟨⟨by decide, hn⟩, ha⟩, by decide⟩, hk⟩, by decide⟩, hn⟩, by decide⟩
theorem genKids_no_cr {esc : Bool → Str → Str} {ok : Nat → Prop} (he : EscOk esc ok) (h32 : ok 32)
    (p : Bool) : ∀ ks, GoodKids ok ks → ∀ t, .inr t ∈ genKids esc p ks → 13 ∉ t
  | [], _ => by simp [genKids]
  | .text s :: ks, h => by
    simp only [GoodKids] at h
    simp only [genKids]
    intro t ht
    exact genKids_no_cr he h32 p ks h.2.2.2 t (by simpa using ht)
  | .elt e :: ks, h => by
    simp only [GoodKids] at h
    simp only [genKids]
    intro t ht
    rcases List.mem_cons.1 ht with ht | ht
    · injection ht with ht; subst ht; exact gen_no_cr he h32 p e h.1
    · exact genKids_no_cr he h32 p ks h.2 t ht
end

/-! ### Attribute values without tab and line feed -/

mutual
/-- No attribute value has a tab or a line feed. -/
def NoTabs : Elt → Prop
  | .mk _ attrs kids => (∀ a ∈ attrs, 9 ∉ a.2 ∧ 10 ∉ a.2) ∧ NoTabsKids kids
/-- The same for children. -/
def NoTabsKids : List Kid → Prop
  | [] => True
  | .text _ :: ks => NoTabsKids ks
  | .elt e :: ks => NoTabs e ∧ NoTabsKids ks
end

theorem attNorm_id {v : Str} (h : 9 ∉ v ∧ 10 ∉ v) : attNorm v = v := by
  unfold attNorm
  rw [List.map_congr_left (g := id)]
  · simp
  · intro c hc
    have h1 : c ≠ 9 := by rintro rfl; exact h.1 hc
    have h2 : c ≠ 10 := by rintro rfl; exact h.2 hc
    simp [h1, h2]

mutual
theorem back_key (p : Bool) : ∀ e, NoTabs e → back p e = key p e
  | .mk name attrs kids, h => by
    simp only [NoTabs] at h
    have : backAttrs attrs = sortAttrs attrs := by
      unfold backAttrs
      rw [List.map_congr_left (g := id)]
      · simp
      · intro a ha
        rw [attNorm_id (h.1 a ((sortAttrs_perm attrs).mem_iff.1 ha))]
        rfl
    simp only [back, key]
    rw [this, backKids_key _ kids h.2]
theorem backKids_key (p : Bool) : ∀ ks, NoTabsKids ks → backKids p ks = keyKids p ks
  | [], _ => by simp [backKids, keyKids]
  | .text s :: ks, h => by
    simp only [NoTabsKids] at h
    simp only [backKids, keyKids]
    rw [backKids_key p ks h]
  | .elt e :: ks, h => by
    simp only [NoTabsKids] at h
    simp only [backKids, keyKids]
    rw [back_key p e h.1, backKids_key p ks h.2]
end

theorem doc_gen {esc : Bool → Str → Str} {ok : Nat → Prop} (he : EscOk esc ok) (h32 : ok 32) (e : Elt)
    (hg : GoodElt ok e) : Parses (normLines (genDoc esc e)) (back false e) := by
  have hn : 13 ∉ genDoc esc e := by
    unfold genDoc
    simp only [List.mem_cons, not_or]
    exact ⟨by decide, gen_no_cr he h32 false e hg⟩
  rw [normLines_id _ hn]
  apply C79_complete_partial
  have := GDocument.mk (Skip := GSkipEven) (m1 := [10]) (m2 := [])
    (GMisc.space (by decide) GMisc.nil) (gen_ok he h32 _ false e hg) GMisc.nil
  simpa [genDoc] using this

/-! ## C80 -/

/-- An element that is written with `escape_char_data` and read again compares equal; missing are
attribute values with tabs or line feeds (see `C80_tab_violated`) and empty data
(`C80_empty_violated`). -/
theorem C80_roundtrip_partial (e : Elt) (hg : GoodElt (fun _ => True) e) (ht : NoTabs e) :
    ∃ e', Parses (normLines (genDoc escape e)) e' ∧ EqElt e' e := by
  refine ⟨back false e, doc_gen escape_ok trivial e hg, ?_⟩
  unfold EqElt
  rw [back_key false e ht]
  exact key_idem false e hg

/-- The same for `escape_char_data7`; the characters above ASCII have to be characters of XML. -/
theorem C80_roundtrip7_partial (e : Elt) (hg : GoodElt Ok7 e) (ht : NoTabs e) :
    ∃ e', Parses (normLines (genDoc escape7 e)) e' ∧ EqElt e' e := by
  refine ⟨back false e, doc_gen escape7_ok (fun h => absurd h (by decide)) e hg, ?_⟩
  unfold EqElt
  rw [back_key false e ht]
  exact key_idem false e hg

/-- The output of `escape_char_data7` is ASCII. -/
theorem C80_escape7_ascii (quote : Bool) (s : Str) : ∀ c ∈ escape7 quote s, c ≤ 0x7F := by
  have hhex : ∀ n v, ∀ c ∈ hexN n v, c ≤ 0x7F := by
    intro n
    induction n with
    | zero => intro v c h; simp [hexN] at h
    | succ n ih =>
      intro v c h
      simp only [hexN, List.mem_append, List.mem_singleton] at h
      rcases h with h | rfl
      · exact ih _ c h
      · have := Nat.mod_lt v (by omega : 16 > 0)
        unfold hexChar; split <;> omega
  have hch : ∀ (q : Option Nat) (qstr : Str), (∀ c ∈ qstr, c ≤ 0x7F) → ∀ d, ∀ c ∈ escChar7 q qstr d,
      c ≤ 0x7F := by
    intro q qstr hq d c hc
    unfold escChar7 at hc
    split at hc
    · simp only [List.mem_append] at hc
      rcases hc with (hc | hc) | hc
      · simp at hc; omega
      · split at hc
        · split at hc
          · split at hc
            · exact hhex _ _ c hc
            · exact hhex _ _ c hc
          · exact hhex _ _ c hc
        · exact hhex _ _ c hc
      · simp at hc; omega
    · rename_i hd
      repeat' split at hc
      all_goals first
        | exact hq c hc
        | (simp at hc; omega)
  have hfm : ∀ (q : Option Nat) (qstr : Str), (∀ c ∈ qstr, c ≤ 0x7F) →
      ∀ c ∈ s.flatMap (escChar7 q qstr), c ≤ 0x7F := by
    intro q qstr hq c hc
    rw [List.mem_flatMap] at hc
    obtain ⟨d, _, hc⟩ := hc
    exact hch q qstr hq d c hc
  intro c hc
  unfold escape7 at hc
  split at hc
  · split at hc
    · simp only [List.mem_append, List.mem_singleton] at hc
      rcases hc with (rfl | hc) | rfl
      · omega
      · exact hfm _ _ (by decide) c hc
      · omega
    · split at hc
      · simp only [List.mem_append, List.mem_singleton] at hc
        rcases hc with (rfl | hc) | rfl
        · omega
        · exact hfm _ _ (by decide) c hc
        · omega
      · simp only [List.mem_append, List.mem_singleton] at hc
        rcases hc with (rfl | hc) | rfl
        · omega
        · exact hfm _ _ (by decide) c hc
        · omega
  · exact hfm _ _ (by simp) c hc

/-- Any text can be the value of an element in which space is preserved: it is read back as it is. -/
theorem C80_value (name s : Str) (hn : GName name) (hs : s ≠ []) :
    Parses (normLines (genDoc escape (.mk name [(xmlSpace, preserveVal)] [.text s])))
      (.mk name [(xmlSpace, preserveVal)] [.text s]) := by
  have := doc_gen escape_ok trivial (.mk name [(xmlSpace, preserveVal)] [.text s]) (by
    simp only [GoodElt, GoodKids]
    refine ⟨hn, ?_, by simp, hs, by simp, by simp, trivial⟩
    intro a ha
    simp at ha
    subst ha
    exact ⟨⟨by decide, by decide⟩, by simp⟩)
  have e : back false (.mk name [(xmlSpace, preserveVal)] [.text s]) =
      .mk name [(xmlSpace, preserveVal)] [.text s] := by
    have h1 : presOf false [(xmlSpace, preserveVal)] = true := by decide
    have h2 : backAttrs [(xmlSpace, preserveVal)] = [(xmlSpace, preserveVal)] := by decide
    simp only [back, h1, h2, backKids]
    simp [canonKids, toKid]
  rw [e] at this
  exact this

/-- With `xml:space="preserve"` the comparison distinguishes all text. -/
theorem C80_space_preserved (name s s' : Str) :
    EqElt (.mk name [(xmlSpace, preserveVal)] [.text s])
      (.mk name [(xmlSpace, preserveVal)] [.text s']) ↔ s = s' := by
  have h1 : presOf false [(xmlSpace, preserveVal)] = true := by decide
  simp only [EqElt, key, h1, keyKids]
  simp [canonKids, toKid]

/-- Otherwise a space after a space makes no difference. -/
theorem C80_space_ignored (name v a b : Str) (x y : Nat) (attrs : List (Str × Str))
    (ha : attrs = [] ∨ attrs = [(xmlSpace, v)]) (hv : v ≠ preserveVal) (hx : isS x = true)
    (hy : isS y = true) :
    EqElt (.mk name attrs [.text (a ++ ([x, y] ++ b))]) (.mk name attrs [.text (a ++ ([x] ++ b))]) := by
  have h1 : presOf false attrs = false := by
    rcases ha with rfl | rfl
    · rfl
    · simp [presOf, List.lookup, hv]
  have h2 : ∀ m, squeeze m ([x, y] ++ b) = squeeze m ([x] ++ b) := by
    intro m
    cases m <;> simp [squeeze, hx, hy]
  have h3 : collapse true (a ++ ([x, y] ++ b)) = collapse true (a ++ ([x] ++ b)) := by
    unfold collapse
    rw [squeeze_append a ([x, y] ++ b), squeeze_append a ([x] ++ b), h2]
  simp only [EqElt, key, h1, keyKids]
  simp only [canonKids, Bool.false_eq_true, if_false, h3]

/-! ### Where the round trip fails -/

/-- `<a b="…"/>` with a tab as value of the attribute -/
def tabElt : Elt := .mk [97] [([98], [9])] []

/-- A tab in an attribute value is read back as a space. -/
theorem C80_tab_violated : Parses (normLines (genDoc escape tabElt)) (.mk [97] [([98], [32])] []) ∧
    ¬ EqElt (.mk [97] [([98], [32])] []) tabElt := by
  constructor
  · have := doc_gen escape_ok trivial tabElt (by
      simp only [tabElt, GoodElt, GoodKids]
      refine ⟨⟨by decide, by simp⟩, ?_, by simp, trivial⟩
      intro a ha
      simp at ha
      subst ha
      exact ⟨⟨by decide, by simp⟩, by simp⟩)
    have e : back false tabElt = .mk [97] [([98], [32])] [] := by
      have h2 : backAttrs [([98], [9])] = [([98], [32])] := by decide
      simp only [tabElt, back, h2, backKids]
      simp [canonKids, presOf, xmlSpace]
    rwa [e] at this
  · intro h
    simp only [EqElt, tabElt, key, sortAttrs] at h
    injection h with _ h
    simp at h

/-- An element with empty data, as `set_value("")` makes it. -/
def emptyElt : Elt := .mk [97] [] [.text []]

/-- Empty data is written as a space. -/
theorem C80_empty_violated : gen escape false emptyElt = [60, 97, 62, 32, 60, 47, 97, 62] ∧
    Parses (normLines (genDoc escape emptyElt)) (.mk [97] [] [.text [32]]) := by
  have h : gen escape false emptyElt = gen escape false (.mk [97] [] [.text [32]]) := by
    simp [emptyElt, gen, genKids, canonKids, presOf, collapse, squeeze, isS]
  constructor
  · simp [emptyElt, gen, genKids, canonKids, presOf, collapse, squeeze, kidText, escape, attrText,
      sortAttrs, escChar]
  · have := doc_gen escape_ok trivial (.mk [97] [] [.text [32]]) (by
      simp only [GoodElt, GoodKids]
      exact ⟨⟨by decide, by simp⟩, by simp, by simp, by simp, by simp, by simp, trivial⟩)
    have e : back false (.mk [97] [] [.text [32]]) = .mk [97] [] [.text [32]] := by
      simp [back, backAttrs, sortAttrs, backKids, canonKids, presOf, collapse, squeeze, isS, toKid]
    rw [e] at this
    unfold genDoc at this ⊢
    rwa [h]

/-! ### CDATA sections -/

theorem splitCd_spec : ∀ (acc s : Str), ¬ cdEnd <:+: acc.reverse →
    (∀ t, s = t → ∀ a b, acc.reverse ++ s = a ++ (cdEnd ++ b) → acc.length ≤ a.length) →
    ∃ d ds, splitCd acc s = d :: ds ∧ (∀ x ∈ d :: ds, ¬ cdEnd <:+: x) ∧
      acc.reverse ++ s = d ++ ds.flatMap (fun x => cdEnd ++ x)
  | acc, [], h1, _ => ⟨acc.reverse, [], by simp [splitCd], by simpa using h1, by simp⟩
  | acc, c :: t, h1, h2 => by
    by_cases hc : ∃ u, c :: t = 93 :: 93 :: 62 :: u
    · obtain ⟨u, hu⟩ := hc
      injection hu with hc ht
      subst hc ht
      obtain ⟨d, ds, e1, e2, e3⟩ := splitCd_spec [] u (by simp [cdEnd]) (by simp)
      refine ⟨acc.reverse, d :: ds, by simp [splitCd, e1], ?_, ?_⟩
      · intro x hx
        rcases List.mem_cons.1 hx with rfl | hx
        · exact h1
        · exact e2 x hx
      · simp only [List.reverse_nil, List.nil_append] at e3
        rw [List.flatMap_cons, e3]
        simp [cdEnd]
    · have hs : splitCd acc (c :: t) = splitCd (c :: acc) t := by
        rw [splitCd]
        intro u hc' ht'
        exact hc ⟨u, by rw [hc', ht']⟩
      have key : ∀ a b, (c :: acc).reverse ++ t = a ++ (cdEnd ++ b) → (c :: acc).length ≤ a.length := by
        intro a b hab
        have hab' : acc.reverse ++ (c :: t) = a ++ (cdEnd ++ b) := by simpa using hab
        have hle := h2 _ rfl a b hab'
        rcases Nat.lt_or_ge acc.length a.length with h | h
        · simp only [List.length_cons]; omega
        · exfalso
          have hl : acc.reverse.length = a.length := by simp; omega
          obtain ⟨_, he⟩ := List.append_inj hab' hl
          exact hc ⟨b, by rw [he]; rfl⟩
      have hno : ¬ cdEnd <:+: (c :: acc).reverse := by
        rintro ⟨a, b, hab⟩
        have := key a (b ++ t) (by rw [← hab]; simp)
        have hl := congrArg List.length hab
        simp [cdEnd] at hl this
        omega
      obtain ⟨d, ds, e1, e2, e3⟩ := splitCd_spec (c :: acc) t hno (fun _ _ => key)
      exact ⟨d, ds, by rw [hs, e1], e2, by simpa using e3⟩
  termination_by acc s => s.length

/-- The pieces of `escape_cdsect`. -/
theorem cd_tail {Skip : Str → Prop} {u : Str} {ks : List Kid} (hu : SafeContent Skip u ks) :
    ∀ (ds : List Str) (d : Str), (∀ x ∈ d :: ds, ¬ cdEnd <:+: x) →
    SafeContent Skip (cdStart ++ (d ++ (ds.flatMap
        (fun d => cdEnd ++ [93, 93, 38, 103, 116, 59] ++ cdStart ++ d) ++ (cdEnd ++ u))))
      (prepend (d ++ ds.flatMap (fun x => cdEnd ++ x)) ks)
  | [], d, h => by
    obtain ⟨ps, g1, rfl⟩ := safe_content hu
    have := safe_tail (GTail.cd (h d (by simp)) g1)
    rw [joinData_data] at this
    simpa using this
  | x :: ds, d, h => by
    have ih := cd_tail hu ds x (fun y hy => h y (by simp at hy ⊢; tauto))
    have hb : GEsc none [93, 93, 38, 103, 116, 59] cdEnd :=
      GEsc.char (by decide) (by decide) (by decide) (by decide) (by simp)
        (GEsc.char (by decide) (by decide) (by decide) (by decide) (by simp)
          (GEsc.ref (r := [38, 103, 116, 59]) (t := []) GRef.gt (by decide) (by decide) (by decide)
            GEsc.nil))
    obtain ⟨ps, g1, g2⟩ := safe_content (safe_text hb ih)
    have := safe_tail (GTail.cd (h d (by simp)) g1)
    rw [joinData_data, ← g2, ← prepend_append, ← prepend_append] at this
    simpa using this

/-- `escape_cdsect`: the content of an element made of it is the text, when it has no carriage
return. -/
theorem C80_cdsect_partial (name s : Str) (hn : GName name) (hs : s ≠ []) (hcr : 13 ∉ s) :
    Parses (normLines ([60] ++ name ++ [62] ++ escapeCd s ++ [60, 47] ++ name ++ [62]))
      (.mk name [] [.text s]) := by
  obtain ⟨d, ds, e1, e2, e3⟩ := splitCd_spec [] s (by simp [cdEnd]) (by simp)
  simp only [List.reverse_nil, List.nil_append] at e3
  have hsafe := cd_tail (Skip := GSkipEven) (safe_nil _) ds d e2
  rw [← e3] at hsafe
  have hp : prepend s [] = [.text s] := by simp [prepend, hs]
  rw [hp] at hsafe
  obtain ⟨ps, g1, g2⟩ := safe_content hsafe
  have hel := GElement.full (Skip := GSkipEven) (sp := []) (sp2 := []) hn GAtts.nil (by simp)
    (by simp [GSpace]) g1 (by simp [GSpace])
  rw [← g2] at hel
  have hdoc := GDocument.mk (m1 := []) (m2 := []) GMisc.nil hel GMisc.nil
  have hcr' : 13 ∉ [60] ++ name ++ [62] ++ escapeCd s ++ [60, 47] ++ name ++ [62] := by
    have h1 := name_no_cr hn
    have h2 : 13 ∉ escapeCd s := by
      unfold escapeCd
      rw [e1]
      have hd : 13 ∉ d := fun h => hcr (by rw [e3]; simp [h])
      have hds : ∀ x ∈ ds, 13 ∉ x := fun x hx h => hcr (by
        rw [e3, List.mem_append, List.mem_flatMap]
        exact Or.inr ⟨x, hx, by simp [h]⟩)
      simp only [List.mem_append, List.mem_flatMap, not_or]
      refine ⟨⟨⟨by decide, hd⟩, ?_⟩, by decide⟩
      rintro ⟨x, hx, h⟩
      rcases h with ((h | h) | h) | h
      · exact absurd h (by decide)
      · exact absurd h (by decide)
      · exact absurd h (by decide)
      · exact hds x hx h
    simp only [List.mem_append, not_or]
    exact ⟨⟨⟨⟨⟨⟨by decide, h1⟩, by decide⟩, h2⟩, by decide⟩, h1⟩, by decide⟩
  rw [normLines_id _ hcr']
  apply C79_complete_partial
  have e4 : escapeCd s = cdStart ++ (d ++ (ds.flatMap
        (fun d => cdEnd ++ [93, 93, 38, 103, 116, 59] ++ cdStart ++ d) ++ (cdEnd ++ []))) := by
    unfold escapeCd; rw [e1]; simp
  rw [e4]
  simpa using hdoc

/-- A carriage return in `escape_cdsect` is read back as a line feed. -/
theorem C80_cdsect_violated :
    Parses (normLines ([60, 97, 62] ++ escapeCd [13] ++ [60, 47, 97, 62])) (.mk [97] [] [.text [10]]) := by
  have e : normLines ([60, 97, 62] ++ escapeCd [13] ++ [60, 47, 97, 62]) =
      normLines ([60] ++ [97] ++ [62] ++ escapeCd [10] ++ [60, 47] ++ [97] ++ [62]) := by decide
  rw [e]
  exact C80_cdsect_partial [97] [10] ⟨by decide, by simp⟩ (by simp) (by decide)

/-! ### Non-vacuity -/

/-- `<a x="&lt;'" b='"'> t &amp; <b/> u </a>`, before writing -/
def writeTree : Elt :=
  .mk [97] [([120], [60, 39]), ([98], [34])]
    [.text [32, 116, 32, 32, 38], .elt (.mk [98] [] []), .text [32, 117, 13]]

example : GoodElt (fun _ => True) writeTree ∧ NoTabs writeTree := by
  simp only [writeTree, GoodElt, GoodKids, NoTabs, NoTabsKids]
  refine ⟨⟨⟨by decide, by simp⟩, ?_, by decide, by simp, by simp, by simp, ⟨⟨by decide, by simp⟩, by simp,
    by simp, trivial⟩, by simp, by simp, by simp, trivial⟩, by decide, ⟨by simp, trivial⟩, trivial⟩
  intro a ha
  simp at ha
  rcases ha with rfl | rfl <;> exact ⟨⟨by decide, by simp⟩, by simp⟩

/-- The text written for it. -/
example : gen escape false writeTree =
    [60, 97, 32, 98, 61, 39, 34, 39, 32, 120, 61, 34, 38, 108, 116, 59, 39, 34, 62, 116, 32, 38, 97, 109,
     112, 59, 60, 98, 47, 62, 32, 117, 60, 47, 97, 62] := by
  simp [writeTree, gen, genKids, canonKids, canonLoop, presOf, collapse, squeeze, isS, kidText, escape,
    attrText, sortAttrs, escChar, escApos, escQuot, nameLe, xmlSpace, List.orderedInsert, List.lookup]

end Verif.Xml

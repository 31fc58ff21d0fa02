import Verif.Uri.UriSpec
import Verif.Uri.PathProps
/-!
# URI parsing: C21
-/
namespace Verif.Uri

/-! ### The component parsers -/

theorem slice_mid (pre mid tl : Str) : slice (pre ++ mid ++ tl) pre.length (pre.length + mid.length) = mid := by
  unfold slice
  rw [← List.length_append, List.take_left]
  simp

theorem loop_query (pre mid rest : Str) (p : Parts) :
    partsLoop (pre ++ mid ++ rest) (.query pre.length) (pre.length + mid.length) rest p =
      { p with query := some (mid ++ rest) } := by
  induction rest generalizing mid with
  | nil =>
    simp only [partsLoop, List.append_nil]
    congr 2; have := slice_mid pre mid []; simpa using this
  | cons c r ih =>
    simp only [partsLoop]
    have := ih (mid ++ [c])
    simp only [List.length_append, List.length_cons, List.length_nil, List.append_assoc, List.singleton_append] at this
    simpa [Nat.add_assoc] using this

theorem loop_query' (pre rest : Str) (p : Parts) :
    partsLoop (pre ++ rest) (.query pre.length) pre.length rest p = { p with query := some rest } := by
  have := loop_query pre [] rest p
  simpa using this

theorem query_after (s x y : Str) (p : Parts) (h : s = x ++ 63 :: y) :
    partsLoop s (.query (x.length + 1)) (x.length + 1) y p = { p with query := some y } := by
  have := loop_query' (x ++ [63]) y p
  rw [h]
  simpa using this

/-- The text after a path: nothing or a query. -/
def queryText (q : Option Str) : Str := match q with | some q => 63 :: q | none => []

theorem loop_path (pre mid x : Str) (hx : 63 ∉ x) (q : Option Str) (p : Parts) (hq : p.query = none) :
    partsLoop (pre ++ mid ++ (x ++ queryText q)) (.path pre.length) (pre.length + mid.length) (x ++ queryText q) p =
      { p with absPath := some (mid ++ x), query := q } := by
  induction x generalizing mid with
  | nil =>
    cases q with
    | none => simp only [queryText, List.append_nil, partsLoop, ← hq]; congr 2; have := slice_mid pre mid []; simpa using this
    | some q =>
      simp only [queryText, List.nil_append, partsLoop, if_true, List.append_nil]
      rw [slice_mid]
      have := query_after (pre ++ mid ++ 63 :: q) (pre ++ mid) q { p with absPath := some mid } (by simp)
      simpa using this
  | cons c r ih =>
    have hc : c ≠ 63 := fun h => hx (by simp [h])
    simp only [List.cons_append, partsLoop, if_neg hc]
    have := ih (mid ++ [c]) (fun h => hx (by simp [h]))
    simp only [List.length_append, List.length_cons, List.length_nil, List.append_assoc, List.singleton_append] at this
    simpa [Nat.add_assoc] using this

theorem loop_rel (pre mid x : Str) (hx : 63 ∉ x) (q : Option Str) (p : Parts) (hq : p.query = none) :
    partsLoop (pre ++ mid ++ (x ++ queryText q)) (.rel pre.length) (pre.length + mid.length) (x ++ queryText q) p =
      { p with relPath := some (mid ++ x), query := q } := by
  induction x generalizing mid with
  | nil =>
    cases q with
    | none => simp only [queryText, List.append_nil, partsLoop, ← hq]; congr 2; have := slice_mid pre mid []; simpa using this
    | some q =>
      simp only [queryText, List.nil_append, partsLoop, if_true, List.append_nil]
      rw [slice_mid]
      have := query_after (pre ++ mid ++ 63 :: q) (pre ++ mid) q { p with relPath := some mid } (by simp)
      simpa using this
  | cons c r ih =>
    have hc : c ≠ 63 := fun h => hx (by simp [h])
    simp only [List.cons_append, partsLoop, if_neg hc]
    have := ih (mid ++ [c]) (fun h => hx (by simp [h]))
    simp only [List.length_append, List.length_cons, List.length_nil, List.append_assoc, List.singleton_append] at this
    simpa [Nat.add_assoc] using this

/-- The text after an authority. -/
def pathText (a : Option Str) : Str := match a with | some a => a | none => []

theorem loop_auth (pre mid x : Str) (hx : 47 ∉ x ∧ 63 ∉ x) (ap : Option Str) (hap : ∀ a, ap = some a → AbsPathOk a)
    (q : Option Str) :
    partsLoop (pre ++ mid ++ (x ++ (pathText ap ++ queryText q))) (.auth pre.length) (pre.length + mid.length)
      (x ++ (pathText ap ++ queryText q)) {} =
      { authority := some (mid ++ x), absPath := ap, query := q } := by
  induction x generalizing mid with
  | nil =>
    cases ap with
    | none =>
      cases q with
      | none => simp only [pathText, queryText, List.append_nil, partsLoop]; congr 2; have := slice_mid pre mid []; simpa using this
      | some q =>
        have c1 : ¬ ((63 : Nat) = 47) := by decide
        simp only [pathText, queryText, List.nil_append, partsLoop, if_true, List.append_nil, if_neg c1]
        rw [slice_mid]
        have := query_after (pre ++ mid ++ 63 :: q) (pre ++ mid) q { authority := some mid } (by simp)
        simpa using this
    | some a =>
      obtain ⟨⟨r, rfl⟩, ha⟩ := hap a rfl
      have hr : 63 ∉ r := fun h => ha (by simp [h])
      simp only [pathText, List.nil_append, List.cons_append, partsLoop, if_true, List.append_nil]
      rw [slice_mid]
      have := loop_path (pre ++ mid) [47] r hr q { authority := some mid } rfl
      simpa [Nat.add_assoc] using this
  | cons c r ih =>
    have hc : c ≠ 63 := fun h => hx.2 (by simp [h])
    have hc' : c ≠ 47 := fun h => hx.1 (by simp [h])
    simp only [List.cons_append, partsLoop, if_neg hc, if_neg hc']
    have := ih (mid ++ [c]) ⟨fun h => hx.1 (by simp [h]), fun h => hx.2 (by simp [h])⟩
    simp only [List.length_append, List.length_cons, List.length_nil, List.append_assoc, List.singleton_append] at this
    simpa [Nat.add_assoc] using this

/-- '//' and the authority. -/
def authText (a : Option Str) : Str := match a with | some a => [47, 47] ++ a | none => []

/-- The mode '/' on hierarchical text. -/
theorem loop_slash (p : Parts) (h : p.Hierarchical) :
    ∃ r, p.text = 47 :: r ∧ partsLoop p.text .slash 1 r {} = p := by
  rcases p with ⟨op, au, ap, rp, q⟩
  obtain ⟨h1, h2, h3, h4, h5, h6⟩ := h
  dsimp only at h1 h2 h3 h4 h5 h6
  subst h1 h2
  have eq : Parts.text ⟨none, au, ap, none, q⟩ =
      authText au ++ (pathText ap ++ queryText q) := by
    simp only [Parts.text, List.nil_append, List.append_nil, List.append_assoc]; rfl
  rw [eq]
  cases au with
  | some a =>
    refine ⟨47 :: (a ++ (pathText ap ++ queryText q)), rfl, ?_⟩
    simp only [authText, List.cons_append, List.nil_append, partsLoop, if_true]
    have := loop_auth [47, 47] [] a (h4 a rfl) ap h5 q
    simpa using this
  | none =>
    cases ap with
    | none => simp at h3
    | some a =>
      obtain ⟨⟨r, rfl⟩, ha⟩ := h5 a rfl
      have hr : 63 ∉ r := fun h => ha (by simp [h])
      refine ⟨r ++ queryText q, by simp [pathText, authText], ?_⟩
      simp only [authText, List.nil_append, pathText, List.cons_append]
      cases r with
      | nil =>
        cases q with
        | none => simp [queryText, partsLoop]
        | some q =>
          simp only [queryText, List.nil_append, partsLoop, if_true, show ¬ ((63 : Nat) = 47) from by decide, if_false]
          have := query_after (47 :: 63 :: q) [47] q { absPath := some [47] } (by simp)
          simpa using this
      | cons c r =>
        have hc : c ≠ 47 := fun e => h6 rfl _ rfl ⟨r, by rw [e]⟩
        have hc' : c ≠ 63 := fun e => hr (by simp [e])
        simp only [List.cons_append, partsLoop, if_neg hc, if_neg hc']
        have := loop_path [] [47, c] r (fun h => hr (by simp [h])) q {} rfl
        simpa using this

/-- Parsing the text of components gives the components back. -/
theorem parse_ssp_text (p : Parts) (h : p.AfterScheme) : parseSchemeSpecificPart p.text = p := by
  rcases h with rfl | ⟨c, r, hc, rfl⟩ | h
  · rfl
  · simp [Parts.text, parseSchemeSpecificPart, hc]
  · obtain ⟨r, e, hl⟩ := loop_slash p h
    rw [e] at hl ⊢
    simp only [parseSchemeSpecificPart, if_true]
    exact hl

theorem parse_rel_text (p : Parts) (h : p.Relative) : parseRelativeUri p.text = p := by
  rcases h with h | ⟨r, q, ⟨h1, h2⟩, rfl⟩
  · obtain ⟨r, e, hl⟩ := loop_slash p h
    rw [e] at hl ⊢
    simp only [parseRelativeUri, if_true]
    exact hl
  · have e : Parts.text { relPath := some r, query := q } = r ++ queryText q := by
      simp only [Parts.text, List.nil_append]; rfl
    rw [e]
    cases r with
    | nil =>
      cases q with
      | none => rfl
      | some q =>
        simp only [queryText, List.nil_append, parseRelativeUri, if_true, show ¬ ((63 : Nat) = 47) from by decide, if_false]
        have := query_after (63 :: q) [] q { relPath := some [] } (by simp)
        simpa using this
    | cons c r =>
      have hc : c ≠ 47 := fun e => h1 ⟨r, by rw [e]⟩
      have hc' : c ≠ 63 := fun e => h2 (by simp [e])
      simp only [List.cons_append, parseRelativeUri, if_neg hc, if_neg hc']
      have := loop_rel [] [c] r (fun h => h2 (by simp [h])) q {} rfl
      simpa using this

/-! ### Every text is the text of components -/

theorem split_query (s : Str) : ∃ x q, s = x ++ queryText q ∧ 63 ∉ x := by
  cases h : s.findIdx? (· == 63) with
  | none => exact ⟨s, none, by simp [queryText], find_none 63 s h⟩
  | some i =>
    obtain ⟨-, h2, h3⟩ := splitOn_some 63 s i h
    exact ⟨s.take i, some (s.drop (i + 1)), h2, h3⟩

theorem split_auth (s : Str) (hs : 63 ∉ s) : ∃ a ap, s = a ++ pathText ap ∧ AuthorityOk a ∧ (∀ x, ap = some x → AbsPathOk x) := by
  cases h : s.findIdx? (· == 47) with
  | none => exact ⟨s, none, by simp [pathText], ⟨find_none 47 s h, hs⟩, by simp⟩
  | some i =>
    obtain ⟨-, h2, h3⟩ := splitOn_some 47 s i h
    refine ⟨s.take i, some (47 :: s.drop (i + 1)), h2, ⟨h3, ?_⟩, ?_⟩
    · exact fun hm => hs (List.mem_of_mem_take hm)
    · intro x hx
      simp only [Option.some.injEq] at hx
      subst hx
      refine ⟨⟨_, rfl⟩, ?_⟩
      simp only [List.mem_cons, not_or]
      exact ⟨by decide, fun hm => hs (List.mem_of_mem_drop hm)⟩

theorem hier_of_slash (r : Str) : ∃ p : Parts, p.Hierarchical ∧ p.text = 47 :: r := by
  obtain ⟨x, q, e, hx⟩ := split_query r
  subst e
  by_cases h : ∃ y, x = 47 :: y
  · obtain ⟨y, rfl⟩ := h
    obtain ⟨a, ap, e2, h1, h2⟩ := split_auth y (fun hm => hx (by simp [hm]))
    subst e2
    refine ⟨{ authority := some a, absPath := ap, query := q }, ⟨rfl, rfl, .inl rfl, ?_, h2, by simp⟩, ?_⟩
    · intro b hb; simp only [Option.some.injEq] at hb; subst hb; exact h1
    · simp only [Parts.text, List.nil_append, List.append_nil, List.cons_append, List.append_assoc]; rfl
  · refine ⟨{ absPath := some (47 :: x), query := q }, ⟨rfl, rfl, .inr rfl, by simp, ?_, ?_⟩, ?_⟩
    · intro b hb
      simp only [Option.some.injEq] at hb
      subst hb
      exact ⟨⟨_, rfl⟩, by simp [hx]⟩
    · intro _ b hb
      simp only [Option.some.injEq] at hb
      subst hb
      rintro ⟨y, hy⟩
      exact h ⟨y, by simpa using hy⟩
    · simp only [Parts.text, List.nil_append, List.append_nil, List.cons_append]; rfl

theorem ssp_exists (s : Str) : ∃ p : Parts, p.AfterScheme ∧ p.text = s := by
  cases s with
  | nil => exact ⟨{}, .inl rfl, rfl⟩
  | cons c r =>
    by_cases hc : c = 47
    · subst hc
      obtain ⟨p, h1, h2⟩ := hier_of_slash r
      exact ⟨p, .inr (.inr h1), h2⟩
    · exact ⟨{ opaquePart := some (c :: r) }, .inr (.inl ⟨c, r, hc, rfl⟩), by simp [Parts.text]⟩

theorem rel_exists (s : Str) : ∃ p : Parts, p.Relative ∧ p.text = s := by
  by_cases h : ∃ r, s = 47 :: r
  · obtain ⟨r, rfl⟩ := h
    obtain ⟨p, h1, h2⟩ := hier_of_slash r
    exact ⟨p, .inl h1, h2⟩
  · obtain ⟨x, q, e, hx⟩ := split_query s
    subst e
    refine ⟨{ relPath := some x, query := q }, .inr ⟨x, q, ⟨?_, hx⟩, rfl⟩, ?_⟩
    · rintro ⟨y, rfl⟩; exact h ⟨y ++ queryText q, rfl⟩
    · simp only [Parts.text, List.nil_append]; rfl

theorem ssp_text (s : Str) : (parseSchemeSpecificPart s).AfterScheme ∧ (parseSchemeSpecificPart s).text = s := by
  obtain ⟨p, h1, rfl⟩ := ssp_exists s
  rw [parse_ssp_text p h1]; exact ⟨h1, rfl⟩

theorem rel_text (s : Str) : (parseRelativeUri s).Relative ∧ (parseRelativeUri s).text = s := by
  obtain ⟨p, h1, rfl⟩ := rel_exists s
  rw [parse_rel_text p h1]; exact ⟨h1, rfl⟩

/-! ### The scheme -/

theorem schemeLoop_chars (o x : Str) (hx : ∀ c ∈ x, isSchemeChar c = true) (pos : Nat) (hp : pos ≠ 0) (r : Str) :
    schemeLoop o pos (x ++ r) = schemeLoop o (pos + x.length) r := by
  induction x generalizing pos with
  | nil => simp
  | cons c x ih =>
    have hc := hx c (by simp)
    simp only [List.cons_append, schemeLoop, hp, ne_eq, not_false_eq_true, hc, and_self, true_or, if_true]
    rw [ih (fun d hd => hx d (by simp [hd])) (pos + 1) (by omega)]
    simp; congr 1; omega

theorem alpha_scheme {c : Nat} (h : isAlpha c = true) : isSchemeChar c = true := by
  simp only [isAlpha, Bool.or_eq_true] at h
  simp only [isSchemeChar, isAlnum, Bool.or_eq_true]
  exact .inl (.inl (.inl (.inl h)))

/-- `_parse_scheme` finds a scheme followed by ':'. -/
theorem parseScheme_text (s r : Str) (h : SchemeOk s) : parseScheme (s ++ 58 :: r) = some s := by
  have hcolon : ∀ pos o, schemeLoop o pos (58 :: r) = some (o.take pos) := by
    intro pos o
    simp only [schemeLoop, show isSchemeChar 58 = false from by decide, show isAlpha 58 = false from by decide]
    simp
  unfold parseScheme
  rcases h with rfl | ⟨c, t, rfl, hc, ht⟩
  · rw [List.nil_append, hcolon]; rfl
  · rw [List.cons_append, schemeLoop, if_pos (.inr hc), schemeLoop_chars _ t ht _ (by omega), hcolon]
    congr 1
    rw [← List.cons_append, show 0 + 1 + t.length = (c :: t).length by simp; omega, List.take_left]

theorem schemeLoop_some (o : Str) (pre rest : Str) (ho : o = pre ++ rest) (hpre : SchemeOk pre) (s : Str)
    (h : schemeLoop o pre.length rest = some s) : ∃ r, o = s ++ 58 :: r ∧ SchemeOk s := by
  induction rest generalizing pre with
  | nil => simp [schemeLoop] at h
  | cons c r ih =>
    unfold schemeLoop at h
    split at h
    · rename_i hc
      have := ih (pre ++ [c]) (by simp [ho]) ?_ (by simpa using h)
      · exact this
      · rcases hpre with rfl | ⟨d, t, rfl, hd, ht⟩
        · right
          refine ⟨c, [], rfl, ?_, by simp⟩
          rcases hc with hc | hc
          · simp at hc
          · exact hc
        · right
          refine ⟨d, t ++ [c], by simp, hd, ?_⟩
          intro x hx
          rcases List.mem_append.1 hx with hx | hx
          · exact ht x hx
          · simp at hx; subst hx
            rcases hc with hc | hc
            · exact hc.2
            · exact alpha_scheme hc
    · split at h
      · rename_i hc
        simp only [Option.some.injEq] at h
        subst h
        rw [ho, List.take_left]
        exact ⟨r, by rw [hc], hpre⟩
      · simp at h

/-- The scheme found is a prefix followed by ':', and of the right form. -/
theorem parseScheme_some (o s : Str) (h : parseScheme o = some s) : ∃ r, o = s ++ 58 :: r ∧ SchemeOk s :=
  schemeLoop_some o [] o rfl (.inl rfl) s h

/-! ### C21 -/

/-- C21: after the fragment is removed, scheme and components reassemble to the text. -/
theorem mkURI_text (o : Str) (f : Option Str) :
    schemeText (mkURI o f).scheme ++ (mkURI o f).parts.text = o ∧ (mkURI o f).octets = o ∧ (mkURI o f).fragment = f ∧
    (∀ s, (mkURI o f).scheme = some s → SchemeOk s ∧ (mkURI o f).parts.AfterScheme) ∧
    ((mkURI o f).scheme = none → (mkURI o f).parts.Relative ∧ ¬ ∃ s r, SchemeOk s ∧ o = s ++ 58 :: r) := by
  unfold mkURI
  cases h : parseScheme o with
  | none =>
    dsimp only
    obtain ⟨h1, h2⟩ := rel_text o
    refine ⟨by rw [h2]; rfl, rfl, rfl, by simp, fun _ => ⟨h1, ?_⟩⟩
    rintro ⟨s, r, hs, rfl⟩
    rw [parseScheme_text s r hs] at h
    cases h
  | some s =>
    dsimp only
    obtain ⟨r, h1, h2⟩ := parseScheme_some o s h
    obtain ⟨h3, h4⟩ := ssp_text (o.drop (s.length + 1))
    refine ⟨?_, rfl, rfl, ?_, by simp⟩
    · rw [h4, h1]; simp [schemeText]
    · intro s' hs'
      simp only [Option.some.injEq] at hs'
      subst hs'
      exact ⟨h2, h3⟩

theorem hash_not_item (p : Nat → Bool) (hp : p 35 = false) (i : Item) (hi : i.Ok p) (t : Str) : ¬ i.text <+: 35 :: t := by
  cases i with
  | lit c =>
    simp only [Item.text, List.cons_prefix_cons]
    rintro ⟨rfl, -⟩
    rw [hi.1] at hp; cases hp
  | esc h l =>
    simp only [Item.text, List.cons_prefix_cons]
    rintro ⟨h, -⟩
    cases h

theorem parseUric_uric (s rest : Str) (h : Uric isAllowed s) (hr : ∀ i : Item, i.Ok isAllowed → ¬ i.text <+: rest) :
    parseUric (s ++ rest) = s.length := by
  obtain ⟨is, h1, rfl⟩ := h
  obtain ⟨js, k1, rest', k2, k3, k4⟩ := uricLoop_spec isAllowed rfl rest 0
  have hj : js = [] := by
    cases js with
    | nil => rfl
    | cons j js => exact absurd ⟨textOf js ++ rest', by rw [k2]; simp [textOf]⟩ (hr j (k1 j (by simp)))
  subst hj
  rw [parseUric, List.drop_zero, uricLoop_textOf isAllowed rfl is h1]
  have : ∀ n, uricLoop isAllowed .none n rest = n := by
    intro n
    obtain ⟨js, k1, rest', k2, k3, k4⟩ := uricLoop_spec isAllowed rfl rest n
    have hj : js = [] := by
      cases js with
      | nil => rfl
      | cons j js => exact absurd ⟨textOf js ++ rest', by rw [k2]; simp [textOf]⟩ (hr j (k1 j (by simp)))
    subst hj
    simpa [textOf] using k3
  rw [this]; omega

theorem nil_not_item (i : Item) : ¬ i.text <+: [] := by cases i <;> simp [Item.text]

theorem init_plain (s : Str) (h : Uric isAllowed s) : URI.init s = some (mkURI s none) := by
  have := parseUric_uric s [] h (fun i _ => nil_not_item i)
  rw [List.append_nil] at this
  unfold URI.init
  rw [this]
  simp

theorem init_fragment (s f : Str) (h : Uric isAllowed s) (hf : Uric isAllowed f) :
    URI.init (s ++ 35 :: f) = some (mkURI s (some f)) := by
  have h1 := parseUric_uric s (35 :: f) h (fun i hi => hash_not_item _ (by decide) i hi f)
  have h2 := parseUric_uric f [] hf (fun i _ => nil_not_item i)
  rw [List.append_nil] at h2
  have h3 : parseUric (s ++ 35 :: f) (s.length + 1) = f.length := by
    unfold parseUric at h2 ⊢
    rw [List.drop_zero] at h2
    rw [show (s ++ 35 :: f).drop (s.length + 1) = f by simp]
    exact h2
  unfold URI.init
  rw [h1]
  have e : (s ++ 35 :: f).drop s.length = 35 :: f := by simp
  simp only [e, if_true, h3]
  have e2 : ((s ++ 35 :: f).drop (s.length + 1)).take f.length = f := by simp
  rw [if_neg (by simp; omega), e2, List.take_left]

/-- C21: the constructor accepts exactly the runs of URI characters with at most one fragment. -/
theorem C21_accepts (s : Str) :
    (URI.init s).isSome ↔ Uric isAllowed s ∨ ∃ a f, s = a ++ 35 :: f ∧ Uric isAllowed a ∧ Uric isAllowed f := by
  constructor
  · intro h
    obtain ⟨h1, h2⟩ := C39_parse_uric_run s 0 isAllowed rfl
    rw [List.drop_zero] at h1
    unfold URI.init at h
    dsimp only at h
    cases hd : s.drop (parseUric s) with
    | nil =>
      left
      have : s.take (parseUric s) = s := by
        have := List.take_append_drop (parseUric s) s
        rwa [hd, List.append_nil] at this
      rwa [this] at h1
    | cons c r =>
      rw [hd] at h
      dsimp only at h
      split at h
      · rename_i hc
        split at h
        · simp at h
        · rename_i hlen
          obtain ⟨h3, -⟩ := C39_parse_uric_run s (parseUric s + 1) isAllowed rfl
          have hr : s.drop (parseUric s + 1) = r := by rw [← List.drop_drop, hd]; rfl
          have e := List.take_append_drop (parseUric s) s
          rw [hd, hc] at e
          have e2 : r.take (parseUric s (parseUric s + 1)) = r := by
            apply List.take_of_length_le
            have : s.length = (s.take (parseUric s)).length + (r.length + 1) := by
              conv => lhs; rw [← e]
              simp
            have l3 : parseUric s < s.length := by
              apply Nat.lt_of_not_le
              intro hle
              rw [List.drop_eq_nil_of_le hle] at hd
              cases hd
            have l2 : (s.take (parseUric s)).length = parseUric s := by rw [List.length_take]; omega
            omega
          right
          rw [hr, e2] at h3
          exact ⟨_, r, e.symm, h1, h3⟩
      · simp at h
  · rintro (h | ⟨a, f, rfl, h1, h2⟩)
    · rw [init_plain s h]; rfl
    · rw [init_fragment a f h1 h2]; rfl

/-- C21: `str()` of the URI is the text it was made from; scheme, components and fragment reassemble to it, and the
components have the syntax of RFC 2396 (the scheme may be empty). -/
theorem C21_lossless (s : Str) (u : URI) (h : URI.init s = some u) :
    u.str = s ∧
    schemeText u.scheme ++ u.parts.text ++ (match u.fragment with | some f => 35 :: f | none => []) = s ∧
    (∀ x, u.scheme = some x → SchemeOk x ∧ u.parts.AfterScheme) ∧
    (u.scheme = none → u.parts.Relative ∧ ¬ ∃ x r, SchemeOk x ∧ u.octets = x ++ 58 :: r) := by
  have hs : (URI.init s).isSome := by rw [h]; rfl
  rcases (C21_accepts s).1 hs with hu | ⟨a, f, rfl, h1, h2⟩
  · rw [init_plain s hu] at h
    simp only [Option.some.injEq] at h
    subst h
    obtain ⟨k1, k2, k3, k4, k5⟩ := mkURI_text s none
    refine ⟨by simp [URI.str, k2, k3], by simp [k1, k3], k4, ?_⟩
    rw [k2]; exact k5
  · rw [init_fragment a f h1 h2] at h
    simp only [Option.some.injEq] at h
    subst h
    obtain ⟨k1, k2, k3, k4, k5⟩ := mkURI_text a (some f)
    refine ⟨by simp [URI.str, k2, k3], by simp [k1, k3], k4, ?_⟩
    rw [k2]; exact k5

/-- C21, the other way: components in the syntax of RFC 2396 are found again in their text. -/
theorem C21_components (sch : Str) (p : Parts) (f : Option Str) (hs : SchemeOk sch) (hp : p.AfterScheme) :
    mkURI (schemeText (some sch) ++ p.text) f = ⟨schemeText (some sch) ++ p.text, f, some sch, some p.text, p⟩ := by
  have e : schemeText (some sch) ++ p.text = sch ++ 58 :: p.text := by simp [schemeText]
  unfold mkURI
  rw [e, parseScheme_text sch p.text hs]
  dsimp only
  have : (sch ++ 58 :: p.text).drop (sch.length + 1) = p.text := by simp
  rw [this, parse_ssp_text p hp]

theorem C21_components_relative (p : Parts) (f : Option Str) (hp : p.Relative)
    (hs : ¬ ∃ s r, SchemeOk s ∧ p.text = s ++ 58 :: r) : mkURI p.text f = ⟨p.text, f, none, none, p⟩ := by
  unfold mkURI
  cases h : parseScheme p.text with
  | none => dsimp only; rw [parse_rel_text p hp]
  | some s =>
    obtain ⟨r, h1, h2⟩ := parseScheme_some _ s h
    exact absurd ⟨s, r, h2, h1⟩ hs

/-- "http://h/p?q#f" -/
example : URI.init [104, 116, 116, 112, 58, 47, 47, 104, 47, 112, 63, 113, 35, 102] =
    some ⟨[104, 116, 116, 112, 58, 47, 47, 104, 47, 112, 63, 113], some [102], some [104, 116, 116, 112],
      some [47, 47, 104, 47, 112, 63, 113],
      { authority := some [104], absPath := some [47, 112], query := some [113] }⟩ := by decide +kernel

/-- An empty scheme is accepted: ":x" is an absolute URI for the code. -/
theorem C21_empty_scheme : (URI.init [58, 120]).map (·.scheme) = some (some []) := by decide +kernel

end Verif.Uri

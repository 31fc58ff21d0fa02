import Verif.Uri.Relative
/-!
# C42: `resolve` follows RFC 2396 section 5.2; C22: `relative` is undone by `resolve`
-/
namespace Verif.Uri

/-! ### URI objects from their components -/

/-- Every component is a run of URI characters. -/
structure Parts.Chars (p : Parts) : Prop where
  opaquePart : ∀ x, p.opaquePart = some x → Uric isAllowed x
  authority : ∀ x, p.authority = some x → Uric isAllowed x
  absPath : ∀ x, p.absPath = some x → Uric isAllowed x
  relPath : ∀ x, p.relPath = some x → Uric isAllowed x
  query : ∀ x, p.query = some x → Uric isAllowed x

theorem quest_ok : (Item.lit 63).Ok isAllowed := by simp [Item.Ok]; decide
theorem colon_ok : (Item.lit 58).Ok isAllowed := by simp [Item.Ok]; decide

theorem Parts.Chars.text {p : Parts} (h : p.Chars) : Uric isAllowed p.text := by
  unfold Parts.text
  refine Uric.append (Uric.append (Uric.append (Uric.append ?_ ?_) ?_) ?_) ?_
  · cases e : p.opaquePart with
    | none => exact .nil _
    | some x => exact h.opaquePart x e
  · cases e : p.authority with
    | none => exact .nil _
    | some x => exact .cons slash_ok (.cons slash_ok (h.authority x e))
  · cases e : p.absPath with
    | none => exact .nil _
    | some x => exact h.absPath x e
  · cases e : p.relPath with
    | none => exact .nil _
    | some x => exact h.relPath x e
  · cases e : p.query with
    | none => exact .nil _
    | some x => exact .cons quest_ok (h.query x e)

theorem uric_query (x : Str) (q : Option Str) (h : Uric isAllowed (x ++ queryText q)) :
    Uric isAllowed x ∧ ∀ y, q = some y → Uric isAllowed y := by
  cases q with
  | none => simp only [queryText, List.append_nil] at h; exact ⟨h, by simp⟩
  | some q =>
    obtain ⟨h1, h2, -⟩ := Uric.split 63 (by decide) (by decide) _ _ h
    exact ⟨h1, by simpa using h2⟩

theorem hier_chars (p : Parts) (hp : p.Hierarchical) (h : Uric isAllowed p.text) : p.Chars := by
  rcases p with ⟨op, au, ap, rp, q⟩
  obtain ⟨h1, h2, h3, h4, h5, h6⟩ := hp
  dsimp only at h1 h2 h3 h4 h5 h6
  subst h1 h2
  have eq : Parts.text ⟨none, au, ap, none, q⟩ = authText au ++ pathText ap ++ queryText q := by
    simp only [Parts.text, List.nil_append, List.append_nil]; rfl
  rw [eq] at h
  obtain ⟨k1, k2⟩ := uric_query _ _ h
  have k3 : (∀ x, au = some x → Uric isAllowed x) ∧ (∀ x, ap = some x → Uric isAllowed x) := by
    cases au with
    | none =>
      refine ⟨by simp, ?_⟩
      rintro x rfl
      simpa [authText, pathText] using k1
    | some a =>
      have e0 : authText (some a) ++ pathText ap = [] ++ 47 :: ([] ++ 47 :: (a ++ pathText ap)) := by simp [authText]
      rw [e0] at k1
      obtain ⟨-, k1, -⟩ := Uric.split 47 (by decide) (by decide) _ _ k1
      obtain ⟨-, k1, -⟩ := Uric.split 47 (by decide) (by decide) _ _ k1
      cases ap with
      | none =>
        refine ⟨?_, by simp⟩
        rintro x hx; cases hx
        simpa [pathText] using k1
      | some b =>
        obtain ⟨⟨r, rfl⟩, -⟩ := h5 b rfl
        obtain ⟨j1, j2, -⟩ := Uric.split 47 (by decide) (by decide) _ _ k1
        refine ⟨?_, ?_⟩
        · rintro x hx; cases hx; exact j1
        · rintro x hx; cases hx; exact .cons slash_ok j2
  exact ⟨by simp, k3.1, k3.2, by simp, k2⟩

theorem after_chars (p : Parts) (hp : p.AfterScheme) (h : Uric isAllowed p.text) : p.Chars := by
  rcases hp with rfl | ⟨c, r, hc, rfl⟩ | hp
  · exact ⟨by simp, by simp, by simp, by simp, by simp⟩
  · refine ⟨?_, by simp, by simp, by simp, by simp⟩
    intro x hx; cases hx
    simpa [Parts.text] using h
  · exact hier_chars p hp h

theorem rel_chars (p : Parts) (hp : p.Relative) (h : Uric isAllowed p.text) : p.Chars := by
  rcases hp with hp | ⟨r, q, hr, rfl⟩
  · exact hier_chars p hp h
  · have e : Parts.text { relPath := some r, query := q } = r ++ queryText q := by
      simp only [Parts.text, List.nil_append]; rfl
    rw [e] at h
    obtain ⟨k1, k2⟩ := uric_query _ _ h
    refine ⟨by simp, by simp, by simp, ?_, k2⟩
    intro x hx; cases hx; exact k1

/-- Scheme and components fit together. -/
def Fits (sch : Option Str) (p : Parts) : Prop :=
  (∀ x, sch = some x → SchemeOk x ∧ p.AfterScheme) ∧
  (sch = none → p.Relative ∧ ¬ ∃ x r, SchemeOk x ∧ p.text = x ++ 58 :: r)

/-- '#' and the fragment -/
def fragText (f : Option Str) : Str := match f with | some f => 35 :: f | none => []

theorem scheme_chars (x : Str) (h : SchemeOk x) : Uric isAllowed x := by
  have hall : ∀ c, isSchemeChar c = true → (Item.lit c).Ok isAllowed := by
    intro c hc
    simp only [isSchemeChar, isAlnum, isUpper, isLower, isDigit, Bool.or_eq_true, Bool.and_eq_true, decide_eq_true_eq,
      beq_iff_eq] at hc
    have h127 : c < 128 := by omega
    have : ∀ c, c < 128 → isSchemeChar c = true → isAllowed c = true ∧ c ≠ 37 := by decide
    refine this c h127 ?_
    simp only [isSchemeChar, isAlnum, isUpper, isLower, isDigit, Bool.or_eq_true, Bool.and_eq_true, decide_eq_true_eq,
      beq_iff_eq]
    omega
  rcases h with rfl | ⟨c, r, rfl, hc, hr⟩
  · exact .nil _
  · refine .cons (hall c (alpha_scheme hc)) ?_
    clear hc
    induction r with
    | nil => exact .nil _
    | cons d r ih => exact .cons (hall d (hr d (by simp))) (ih (fun x hx => hr x (by simp [hx])))

/-- The object for given components. -/
def ofParts (sch : Option Str) (p : Parts) (f : Option Str) : URI :=
  ⟨schemeText sch ++ p.text, f, sch, sch.map fun _ => p.text, p⟩

/-- Components that fit, written out and parsed, are the components of the object. -/
theorem init_ofParts (sch : Option Str) (p : Parts) (f : Option Str) (h : Fits sch p) (hp : p.Chars)
    (hf : ∀ x, f = some x → Uric isAllowed x) :
    URI.init (schemeText sch ++ p.text ++ fragText f) = some (ofParts sch p f) := by
  have hmk : mkURI (schemeText sch ++ p.text) f = ofParts sch p f := by
    cases sch with
    | none =>
      obtain ⟨h1, h2⟩ := h.2 rfl
      have := C21_components_relative p f h1 h2
      simpa [schemeText, ofParts] using this
    | some x =>
      obtain ⟨h1, h2⟩ := h.1 x rfl
      exact C21_components x p f h1 h2
  have hu : Uric isAllowed (schemeText sch ++ p.text) := by
    cases sch with
    | none => simpa [schemeText] using hp.text
    | some x =>
      have : schemeText (some x) ++ p.text = x ++ 58 :: p.text := by simp [schemeText]
      rw [this]
      exact (scheme_chars x (h.1 x rfl).1).append (.cons colon_ok hp.text)
  cases f with
  | none => rw [fragText, List.append_nil, init_plain _ hu, hmk]
  | some f => rw [fragText, init_fragment _ f hu (hf f rfl), hmk]

/-- Every object made by the constructor is given by its components, which fit. -/
theorem init_valid (s : Str) (u : URI) (h : URI.init s = some u) :
    s = schemeText u.scheme ++ u.parts.text ++ fragText u.fragment ∧ Fits u.scheme u.parts ∧ u.parts.Chars ∧
    (∀ x, u.fragment = some x → Uric isAllowed x) ∧ u = ofParts u.scheme u.parts u.fragment := by
  obtain ⟨-, h2, h3, h4⟩ := C21_lossless s u h
  have key : ∀ o f, Uric isAllowed o → (∀ x, f = some x → Uric isAllowed x) → u = mkURI o f →
      u.octets = o ∧ u.fragment = f ∧ schemeText u.scheme ++ u.parts.text = o ∧ u.parts.Chars := by
    intro o f ho hf e
    subst e
    obtain ⟨k1, k2, k3, k4, k5⟩ := mkURI_text o f
    refine ⟨k2, k3, k1, ?_⟩
    cases hs : (mkURI o f).scheme with
    | none =>
      rw [hs] at k1
      simp only [schemeText, List.nil_append] at k1
      exact rel_chars _ (k5 hs).1 (by rw [k1]; exact ho)
    | some x =>
      rw [hs] at k1
      have e : schemeText (some x) ++ (mkURI o f).parts.text = x ++ 58 :: (mkURI o f).parts.text := by simp [schemeText]
      rw [e] at k1
      rw [← k1] at ho
      exact after_chars _ (k4 x hs).2 (Uric.split 58 (by decide) (by decide) _ _ ho).2.1
  have key2 : ∃ o f, Uric isAllowed o ∧ (∀ x, f = some x → Uric isAllowed x) ∧ u = mkURI o f := by
    have hs : (URI.init s).isSome := by rw [h]; rfl
    rcases (C21_accepts s).1 hs with hu | ⟨a, f, rfl, h1, h2⟩
    · rw [init_plain s hu] at h
      exact ⟨s, none, hu, by simp, by simpa using h.symm⟩
    · rw [init_fragment a f h1 h2] at h
      exact ⟨a, some f, h1, by simpa using h2, by simpa using h.symm⟩
  obtain ⟨o, f, ho, hf, e⟩ := key2
  obtain ⟨k1, k2, k3, k4⟩ := key o f ho hf e
  have hfits : Fits u.scheme u.parts := by
    refine ⟨h3, fun hn => ?_⟩
    obtain ⟨a1, a2⟩ := h4 hn
    refine ⟨a1, ?_⟩
    rw [k1, ← k3, hn] at a2
    simpa [schemeText] using a2
  refine ⟨h2.symm, hfits, k4, by rw [k2]; exact hf, ?_⟩
  rcases u with ⟨uo, uf, us, ussp, up⟩
  dsimp only [ofParts] at *
  subst k1
  rw [← k3]
  have : ussp = us.map fun _ => up.text := by
    unfold mkURI at e
    cases hs : parseScheme uo with
    | none => rw [hs] at e; simp only [URI.mk.injEq] at e; rw [e.2.2.1, e.2.2.2.1]; rfl
    | some x =>
      rw [hs] at e; simp only [URI.mk.injEq] at e
      obtain ⟨-, -, e1, e2, e3⟩ := e
      rw [e1, e2, e3, (ssp_text _).2]; rfl
  rw [this]

/-! ### Resolving: specification (RFC 2396 section 5.2) -/

/-- The components of the target of a reference `r`, with scheme none, against a base with an absolute path:
an authority or absolute path in the reference replaces the base's; a relative path is followed from the base's
directory; the query is the reference's. -/
def targetParts (r b : Parts) (bsegs rsegs : List Str) : Parts :=
  match r.authority, r.absPath with
  | some a, ap => { authority := some a, absPath := ap, query := r.query }
  | none, some ap => { authority := b.authority, absPath := some ap, query := r.query }
  | none, none =>
    { authority := b.authority
      absPath := some (47 :: joinWith 47 (location (bsegs.dropLast ++ rsegs)).segments)
      query := r.query }

theorem Fits.hier {sch : Option Str} {p : Parts} (hs : ∀ x, sch = some x → SchemeOk x) (h : p.Hierarchical) : Fits sch p := by
  refine ⟨fun x hx => ⟨hs x hx, .inr (.inr h)⟩, fun _ => ⟨.inl h, ?_⟩⟩
  rintro ⟨x, r, hx, e⟩
  obtain ⟨t, ht, -⟩ := loop_slash p h
  rw [ht] at e
  rcases hx with rfl | ⟨c, y, rfl, hc, -⟩
  · simp at e
  · simp only [List.cons_append, List.cons.injEq] at e
    rw [← e.1] at hc
    exact absurd hc (by decide)

theorem Fits.scheme {sch : Option Str} {p : Parts} (h : Fits sch p) (x : Str) (hx : sch = some x) : SchemeOk x := (h.1 x hx).1

/-- With an absolute path or an authority the components are hierarchical. -/
theorem Fits.hierarchical {sch : Option Str} {p : Parts} (h : Fits sch p) (hp : p.absPath.isSome ∨ p.authority.isSome) :
    p.Hierarchical := by
  cases sch with
  | none =>
    rcases (h.2 rfl).1 with h1 | ⟨r, q, -, rfl⟩
    · exact h1
    · simp at hp
  | some x =>
    rcases (h.1 x rfl).2 with rfl | ⟨c, r, -, rfl⟩ | h1
    · simp at hp
    · simp at hp
    · exact h1

theorem splitAbsPath_eq (ap : Str) (segs : List Str) (h : splitAbsPath ap = some segs) (hne : ap ≠ []) :
    ap = 47 :: joinWith 47 segs ∧ segs ≠ [] ∧ ∀ w ∈ segs, 47 ∉ w := by
  cases ap with
  | nil => exact absurd rfl hne
  | cons c r =>
    dsimp only [splitAbsPath] at h
    split at h
    · rename_i hc; subst hc
      simp only [Option.some.injEq] at h
      rw [splitOn, if_pos rfl, List.tail_cons] at h
      subst h
      obtain ⟨h1, h2⟩ := joinWith_splitOn 47 r
      exact ⟨by rw [h1], splitOn_ne_nil 47 r, h2⟩
    · simp at h

theorem splitRelPath_eq (rp : Str) : rp = joinWith 47 (splitRelPath rp) ∧ splitRelPath rp ≠ [] ∧
    ∀ w ∈ splitRelPath rp, 47 ∉ w := by
  cases rp with
  | nil => simp [splitRelPath, joinWith]
  | cons c r =>
    obtain ⟨h1, h2⟩ := joinWith_splitOn 47 (c :: r)
    exact ⟨h1.symm, splitOn_ne_nil _ _, h2⟩

theorem mem_joinWith (c x : Nat) (ws : List Str) (h : x ∈ joinWith c ws) : x = c ∨ ∃ w ∈ ws, x ∈ w := by
  induction ws with
  | nil => simp [joinWith] at h
  | cons w r ih =>
    cases r with
    | nil => exact .inr ⟨w, by simp, h⟩
    | cons v r =>
      rw [joinWith_cons c w _ (by simp)] at h
      rcases List.mem_append.1 h with h | h
      · exact .inr ⟨w, by simp, h⟩
      · rcases List.mem_cons.1 h with h | h
        · exact .inl h
        · rcases ih h with h | ⟨y, hy, h⟩
          · exact .inl h
          · exact .inr ⟨y, by simp [hy], h⟩

theorem joinWith_mem (c : Nat) (ws : List Str) (w : Str) (h : w ∈ ws) (x : Nat) (hx : x ∈ w) : x ∈ joinWith c ws := by
  induction ws with
  | nil => simp at h
  | cons v r ih =>
    cases r with
    | nil => simp only [List.mem_singleton] at h; subst h; simpa [joinWith] using hx
    | cons y r =>
      rw [joinWith_cons c v _ (by simp)]
      rcases List.mem_cons.1 h with rfl | h
      · simp [hx]
      · simp [ih h]

/-- The segments of a location come from the path walked, or are '..' or empty. -/
theorem location_mem (segs : List Str) (x : Str) (h : x ∈ (location segs).segments) :
    x = dotdot ∨ x = [] ∨ x ∈ segs := by
  have hstep : ∀ (l : Location) y x, x ∈ (l.step y).names → x ∈ l.names ∨ x = y := by
    intro l y x hx
    unfold Location.step at hx
    split at hx
    · exact .inl hx
    · split at hx
      · split at hx
        · exact .inl hx
        · exact .inl ((List.dropLast_sublist _).subset hx)
      · rcases List.mem_append.1 hx with hx | hx
        · exact .inl hx
        · exact .inr (by simpa using hx)
  have hleaf : ∀ (l : Location) x, (l.step x).leaf = l.leaf := by
    intro l x; unfold Location.step; split <;> (try split) <;> (try split) <;> rfl
  have hwalk : ∀ segs (l : Location), (∀ x ∈ (l.walk segs).names, x ∈ l.names ∨ x ∈ segs) ∧
      ((l.walk segs).leaf = l.leaf ∨ (l.walk segs).leaf = [] ∨ (l.walk segs).leaf ∈ segs) := by
    intro segs
    induction segs with
    | nil => intro l; exact ⟨fun x hx => .inl hx, .inl rfl⟩
    | cons y r ih =>
      intro l
      cases r with
      | nil =>
        simp only [Location.walk]
        split
        · refine ⟨?_, .inr (.inl rfl)⟩
          intro x hx
          rcases hstep l y x hx with h | h
          · exact .inl h
          · exact .inr (by simp [h])
        · exact ⟨fun x hx => .inl hx, .inr (.inr (by simp))⟩
      | cons z zs =>
        simp only [Location.walk]
        obtain ⟨h1, h2⟩ := ih (l.step y)
        refine ⟨?_, ?_⟩
        · intro x hx
          rcases h1 x hx with h | h
          · rcases hstep l y x h with h | h
            · exact .inl h
            · exact .inr (by simp [h])
          · exact .inr (List.mem_cons_of_mem _ h)
        · rw [hleaf] at h2
          rcases h2 with h | h | h
          · exact .inl h
          · exact .inr (.inl h)
          · exact .inr (.inr (List.mem_cons_of_mem _ h))
  obtain ⟨h1, h2⟩ := hwalk segs ⟨0, [], []⟩
  simp only [Location.segments, List.mem_append, List.mem_singleton] at h
  rcases h with (h | h) | h
  · exact .inl (List.eq_of_mem_replicate h)
  · rcases h1 x h with h | h
    · simp at h
    · exact .inr (.inr h)
  · subst h
    rcases h2 with h | h | h
    · exact .inr (.inl h)
    · exact .inr (.inl h)
    · exact .inr (.inr h)

theorem dotdot_chars : 47 ∉ dotdot ∧ 63 ∉ dotdot := by decide

theorem queryFragment_eq (q f : Option Str) : queryFragment q f = queryText q ++ fragText f := by
  cases q <;> cases f <;> rfl

theorem relParts_cases {p : Parts} (h : p.Relative) (h1 : p.authority = none) (h2 : p.absPath = none) :
    ∃ r, p = { relPath := some r, query := p.query } ∧ RelPathOk r := by
  rcases h with h | ⟨r, q, hr, rfl⟩
  · rcases h.2.2.1 with h | h
    · rw [h1] at h; cases h
    · rw [h2] at h; cases h
  · exact ⟨r, rfl, hr⟩

/-- The merged path: segments come from base and reference, so the text is well formed. -/
theorem merged_ok (b r : List Str) (hb : ∀ w ∈ b, 47 ∉ w ∧ 63 ∉ w ∧ Uric isAllowed w)
    (hr : ∀ w ∈ r, 47 ∉ w ∧ 63 ∉ w ∧ Uric isAllowed w) :
    AbsPathOk (47 :: joinWith 47 (location (b.dropLast ++ r)).segments) ∧
    Uric isAllowed (47 :: joinWith 47 (location (b.dropLast ++ r)).segments) := by
  have hmem : ∀ x ∈ (location (b.dropLast ++ r)).segments, 63 ∉ x ∧ Uric isAllowed x := by
    intro x hx
    rcases location_mem _ x hx with rfl | rfl | h
    · exact ⟨dotdot_chars.2, dotdot_uric⟩
    · exact ⟨by simp, .nil _⟩
    · rcases List.mem_append.1 h with h | h
      · exact (hb x ((List.dropLast_sublist _).subset h)).2
      · exact (hr x h).2
  refine ⟨⟨⟨_, rfl⟩, ?_⟩, .cons slash_ok (uric_joinWith _ (fun w hw => (hmem w hw).2))⟩
  intro h
  rcases List.mem_cons.1 h with h | h
  · exact absurd h (by decide)
  · rcases mem_joinWith _ _ _ h with h | ⟨w, hw, h⟩
    · exact absurd h (by decide)
    · exact (hmem w hw).1 h

/-- C42: a reference with nothing but a fragment is the base document itself. -/
theorem C42_same_document (r b : URI) (sr sb : Str) (hr : URI.init sr = some r) (hb : URI.init sb = some b)
    (hempty : r.octets = []) :
    ∃ t, r.resolve b = some t ∧ t.octets = b.octets ∧ t.scheme = b.scheme ∧ t.parts = b.parts ∧ t.fragment = r.fragment := by
  obtain ⟨-, hfit, -, hrf, er⟩ := init_valid sr r hr
  obtain ⟨-, hbfit, hbch, -, eb⟩ := init_valid sb b hb
  have hr' : r.scheme = none ∧ r.parts = { relPath := some [] } := by
    have e := hempty
    rw [er] at e
    simp only [ofParts] at e
    cases hs : r.scheme with
    | some x => rw [hs] at e; simp [schemeText] at e
    | none =>
      rw [hs] at e
      simp only [schemeText, List.nil_append] at e
      refine ⟨rfl, ?_⟩
      have := parse_rel_text _ (hfit.2 hs).1
      rw [e] at this
      exact this.symm
  have hres : r.resolve b = fromOctets (b.octets ++ fragText r.fragment) := by
    unfold URI.resolve
    rw [if_pos (by rw [hr'.1, hr'.2]; simp)]
    cases r.fragment <;> simp [fragText]
  have hoct : b.octets = schemeText b.scheme ++ b.parts.text := by rw [eb]; rfl
  refine ⟨ofParts b.scheme b.parts r.fragment, ?_, hoct.symm, rfl, rfl, rfl⟩
  rw [hres, fromOctets, hoct]
  exact init_ofParts _ _ _ hbfit hbch hrf

/-- C42: a reference with a scheme is its own target. -/
theorem C42_absolute (r b : URI) (sr : Str) (hr : URI.init sr = some r) (hs : r.scheme.isSome) : r.resolve b = some r := by
  obtain ⟨h1, -⟩ := C21_lossless sr r hr
  unfold URI.resolve
  rw [if_neg (by intro h; rw [h.2.1] at hs; cases hs), if_pos hs, fromOctets, h1, hr]

/-- C42: any other reference, against a base with an absolute path (segments `bsegs`; not needed if the reference has
an authority or an absolute path), resolves to the target given by RFC 2396: the
base's scheme and the components `targetParts`.  If the base has no authority the target's path must not start
with '//' (it cannot be written then). -/
theorem C42_resolve (r b : URI) (sr sb : Str) (hr : URI.init sr = some r) (hb : URI.init sb = some b)
    (hs : r.scheme = none) (hne : r.octets ≠ [])
    (bsegs : List Str) (hbase : r.parts.authority = none → r.parts.absPath = none →
      ∃ bp, b.parts.absPath = some bp ∧ splitAbsPath bp = some bsegs)
    (hba : r.parts.authority = none → b.parts.authority = none →
      ∀ a, (targetParts r.parts b.parts bsegs (splitRelPath (r.parts.relPath.getD []))).absPath = some a →
        ¬ ∃ x, a = 47 :: 47 :: x) :
    r.resolve b = some (ofParts b.scheme (targetParts r.parts b.parts bsegs (splitRelPath (r.parts.relPath.getD []))) r.fragment) := by
  obtain ⟨-, hfit, hrch, hrf, er⟩ := init_valid sr r hr
  obtain ⟨-, hbfit, hbch, -, eb⟩ := init_valid sb b hb
  have hbauth : ∀ a, b.parts.authority = some a → AuthorityOk a := fun a ha =>
    (hbfit.hierarchical (.inr (by rw [ha]; rfl))).2.2.2.1 a ha
  obtain ⟨hrel, -⟩ := hfit.2 hs
  have hrt : r.octets = r.parts.text := by rw [er]; simp [ofParts, hs, schemeText]
  have hcond : ¬ ((r.parts.absPath.getD [] = [] ∧ r.parts.relPath.getD [] = []) ∧ r.scheme = none ∧
      r.parts.authority = none ∧ r.parts.query = none) := by
    rintro ⟨⟨a, b⟩, -, c, d⟩
    rcases hrel with h | ⟨x, q, -, e⟩
    · rcases h.2.2.1 with k | k
      · rw [c] at k; cases k
      · cases hap : r.parts.absPath with
        | none => rw [hap] at k; cases k
        | some y =>
          obtain ⟨⟨z, rfl⟩, -⟩ := h.2.2.2.2.1 y hap
          rw [hap] at a; simp at a
    · rw [e] at b d
      simp only [Option.getD_some] at b d
      subst b d
      rw [hrt, e] at hne
      exact hne rfl
  -- the target is well formed
  have htarget : (targetParts r.parts b.parts bsegs (splitRelPath (r.parts.relPath.getD []))).Hierarchical ∧
      (targetParts r.parts b.parts bsegs (splitRelPath (r.parts.relPath.getD []))).Chars := by
    unfold targetParts at hba ⊢
    cases ha : r.parts.authority with
    | some a =>
      have hh := hfit.hierarchical (.inr (by rw [ha]; rfl))
      dsimp only
      refine ⟨⟨rfl, rfl, .inl rfl, ?_, hh.2.2.2.2.1, by simp⟩, by simp, ?_, hrch.absPath, by simp, hrch.query⟩
      · intro x hx; cases hx; exact hh.2.2.2.1 a ha
      · intro x hx; cases hx; exact hrch.authority a ha
    | none =>
      cases hp : r.parts.absPath with
      | some ap =>
        have hh := hfit.hierarchical (.inl (by rw [hp]; rfl))
        dsimp only
        refine ⟨⟨rfl, rfl, .inr rfl, hbauth, ?_, ?_⟩, by simp, hbch.authority, ?_, by simp, hrch.query⟩
        · intro x hx; cases hx; exact hh.2.2.2.2.1 ap hp
        · have hba := hba ha; rw [ha, hp] at hba; exact hba
        · intro x hx; cases hx; exact hrch.absPath ap hp
      | none =>
        dsimp only
        obtain ⟨rp, erp, hrp⟩ := relParts_cases hrel ha hp
        have hrpc : r.parts.relPath = some rp := by rw [erp]
        rw [hrpc, Option.getD_some]
        obtain ⟨s1, s2, s3⟩ := splitRelPath_eq rp
        have hR : ∀ w ∈ splitRelPath rp, 47 ∉ w ∧ 63 ∉ w ∧ Uric isAllowed w := by
          intro w hw
          refine ⟨s3 w hw, fun h => ?_, joinWith_uric _ (by rw [← s1]; exact hrch.relPath rp hrpc) w hw⟩
          apply hrp.2
          rw [s1]; exact joinWith_mem _ _ w hw _ h
        obtain ⟨bp, hbp, hbs⟩ := hbase ha hp
        have hbh := hbfit.hierarchical (.inl (by rw [hbp]; rfl))
        have hbpne : bp ≠ [] := by obtain ⟨⟨z, rfl⟩, -⟩ := hbh.2.2.2.2.1 bp hbp; simp
        obtain ⟨hbeq, hbsne, hbs47⟩ := splitAbsPath_eq bp bsegs hbs hbpne
        have hB : ∀ w ∈ bsegs, 47 ∉ w ∧ 63 ∉ w ∧ Uric isAllowed w := by
          intro w hw
          have hbu := hbch.absPath bp hbp
          have hb63 := (hbh.2.2.2.2.1 bp hbp).2
          rw [hbeq] at hbu hb63
          refine ⟨hbs47 w hw, fun h => hb63 (List.mem_cons_of_mem _ (joinWith_mem _ _ w hw _ h)), ?_⟩
          exact joinWith_uric _ (Uric.split 47 (by decide) (by decide) [] _ hbu).2.1 w hw
        obtain ⟨m1, m2⟩ := merged_ok bsegs (splitRelPath rp) hB hR
        refine ⟨⟨rfl, rfl, .inr rfl, hbauth, ?_, ?_⟩, by simp, hbch.authority, ?_, by simp, hrch.query⟩
        · intro x hx; cases hx; exact m1
        · have hba := hba ha; rw [ha, hp, hrpc, Option.getD_some] at hba; exact hba
        · intro x hx; cases hx; exact m2
  rw [← init_ofParts b.scheme _ r.fragment (.hier (fun x hx => hbfit.scheme x hx) htarget.1) htarget.2 hrf]
  unfold URI.resolve
  dsimp only
  rw [if_neg hcond, if_neg (by rw [hs]; simp)]
  unfold targetParts
  cases ha : r.parts.authority with
  | some a =>
    have hh := hfit.hierarchical (.inr (by rw [ha]; rfl))
    dsimp only [bind, Option.bind]
    unfold fromOctets Parts.text schemeText
    simp only [queryFragment_eq, List.nil_append, List.append_nil, List.append_assoc]
    cases r.parts.absPath <;> rfl
  | none =>
    cases hp : r.parts.absPath with
    | some ap =>
      dsimp only [bind, Option.bind]
      unfold fromOctets Parts.text schemeText
      simp only [queryFragment_eq, List.nil_append, List.append_nil, List.append_assoc]
      rfl
    | none =>
      obtain ⟨bp, hbp, hbs⟩ := hbase ha hp
      rw [hbp]
      dsimp only
      rw [hbs]
      dsimp only [bind, Option.bind, pure]
      rw [C20_normalize _ (by simp [(splitRelPath_eq (r.parts.relPath.getD [])).2.1])]
      unfold fromOctets Parts.text schemeText
      simp only [queryFragment_eq, List.nil_append, List.append_nil, List.append_assoc]
      rfl

/-- Text to codes, for the examples. -/
def codes (s : String) : Str := s.toList.map Char.toNat

/-- "http://h/a/b" and "../c?q#f" -/
example : (do let b ← URI.init (codes "http://h/a/b"); let r ← URI.init (codes "../c?q#f"); r.resolve b).map URI.str =
    some (codes "http://h/c?q#f") := by decide +kernel

/-- C42 fails for a base with an authority and no path: the reference "x" to "http://h" gives "http://hx". -/
theorem C42_no_path_violation :
    (do let b ← URI.init (codes "http://h"); let r ← URI.init (codes "x"); r.resolve b).map (fun t : URI => t.parts.authority) =
      some (some (codes "hx")) := by decide +kernel

/-- C42: without authority a target path that starts with '//' is taken for an authority: "..//x" to "file:/a/b". -/
theorem C42_double_slash_violation :
    (do let b ← URI.init (codes "file:/a/b"); let r ← URI.init (codes "..//x"); r.resolve b).map (fun t : URI => t.parts.authority) =
      some (some (codes "x")) := by decide +kernel

/-! ### C22 -/

/-- No ':' in the segments. -/
def NoColon (segs : List Str) : Prop := ∀ w ∈ segs, 58 ∉ w
/-- Only the last segment may be empty. -/
def NoInnerEmpty (segs : List Str) : Prop := ∀ A t, segs = A ++ [] :: t → t = []

theorem schemeChar_ne {c : Nat} (h : isSchemeChar c = true) : c ≠ 47 ∧ c ≠ 63 := by
  refine ⟨?_, ?_⟩ <;> rintro rfl <;> exact absurd h (by decide)

theorem scheme_no (s : Str) (h : SchemeOk s) : 47 ∉ s ∧ 63 ∉ s := by
  rcases h with rfl | ⟨c, r, rfl, hc, hr⟩
  · simp
  · have : ∀ x ∈ c :: r, isSchemeChar x = true := by
      intro x hx
      rcases List.mem_cons.1 hx with rfl | hx
      · exact alpha_scheme hc
      · exact hr x hx
    exact ⟨fun h => (schemeChar_ne (this _ h)).1 rfl, fun h => (schemeChar_ne (this _ h)).2 rfl⟩

theorem no_scheme (x y : Str) (hx : 58 ∉ x) (hy : y = [] ∨ ∃ c t, y = c :: t ∧ (c = 47 ∨ c = 63)) :
    ¬ ∃ s r, SchemeOk s ∧ x ++ y = s ++ 58 :: r := by
  rintro ⟨s, r, hs, e⟩
  obtain ⟨h47, h63⟩ := scheme_no s hs
  rcases List.append_eq_append_iff.1 e with ⟨a, h1, h2⟩ | ⟨a, h1, h2⟩
  · rcases hy with rfl | ⟨c, t, rfl, hc⟩
    · simp at h2
    · cases a with
      | nil =>
        simp only [List.nil_append, List.cons.injEq] at h2
        rcases hc with hc | hc <;> rw [hc] at h2 <;> exact absurd h2.1 (by decide)
      | cons d a =>
        simp only [List.cons_append, List.cons.injEq] at h2
        obtain ⟨rfl, -⟩ := h2
        have hm : c ∈ s := by rw [h1]; simp
        rcases hc with rfl | rfl
        · exact h47 hm
        · exact h63 hm
  · cases a with
    | nil =>
      simp only [List.nil_append] at h2
      rcases hy with rfl | ⟨c, t, rfl, hc⟩
      · simp at h2
      · simp only [List.cons.injEq] at h2
        rcases hc with hc | hc <;> rw [hc] at h2 <;> exact absurd h2.1 (by decide)
    | cons d a =>
      simp only [List.cons_append, List.cons.injEq] at h2
      apply hx; rw [h1, ← h2.1]; simp

/-- C22 (partial): for URIs with the same scheme and authority and normalized absolute paths `P` and `B`, resolving
`u.relative(b)` against `b` gives back `u`, provided no segment of `u` contains ':' and only its last one is empty;
`u`'s path is not a proper prefix of `b`'s; and if the paths are the same then neither has a query, or `u` has one
and the path ends in '/'.  The violations below show that each of these conditions is needed. -/
theorem C22_relative_resolve_partial (su sb : Str) (u b : URI) (hu : URI.init su = some u) (hb : URI.init sb = some b)
    (hsch : u.scheme = b.scheme) (hauth : u.parts.authority = b.parts.authority)
    (up bp : Str) (hup : u.parts.absPath = some up) (hbp : b.parts.absPath = some bp)
    (P B : List Str) (hP : splitAbsPath up = some P) (hB : splitAbsPath bp = some B) (hPp : Plain P) (hBp : Plain B)
    (hcolon : NoColon P) (hempty : NoInnerEmpty P) (hprefix : ¬ (P <+: B ∧ P ≠ B))
    (hsame : P = B → (u.parts.query = none ∧ b.parts.query = none) ∨ (u.parts.query.isSome ∧ P.getLast? = some [])) :
    ∃ r, u.relative b = some r ∧ r.resolve b = some u := by
  obtain ⟨hsu, hufit, huch, huf, eu⟩ := init_valid su u hu
  obtain ⟨hsb, hbfit, hbch, hbf, eb⟩ := init_valid sb b hb
  have huh := hufit.hierarchical (.inl (by rw [hup]; rfl))
  have hbh := hbfit.hierarchical (.inl (by rw [hbp]; rfl))
  have hupne : up ≠ [] := by obtain ⟨⟨z, rfl⟩, -⟩ := huh.2.2.2.2.1 up hup; simp
  have hbpne : bp ≠ [] := by obtain ⟨⟨z, rfl⟩, -⟩ := hbh.2.2.2.2.1 bp hbp; simp
  obtain ⟨p1, p2, p3⟩ := splitAbsPath_eq up P hP hupne
  obtain ⟨b1, b2, b3⟩ := splitAbsPath_eq bp B hB hbpne
  have hPu : ∀ w ∈ P, 63 ∉ w ∧ Uric isAllowed w := by
    intro w hw
    have k1 := huch.absPath up hup
    have k2 := (huh.2.2.2.2.1 up hup).2
    rw [p1] at k1 k2
    exact ⟨fun h => k2 (List.mem_cons_of_mem _ (joinWith_mem _ _ w hw _ h)),
      joinWith_uric _ (Uric.split 47 (by decide) (by decide) [] _ k1).2.1 w hw⟩
  have hspec := relativize_spec P B hPp hBp p2 b2 hprefix
  generalize hR : relativizeSegments P B = R at hspec
  have hmk : makeRelPathAbs up bp = some (joinWith 47 R) := by
    unfold makeRelPathAbs
    rw [hP, hB]
    dsimp only [bind, Option.bind, pure]
    rw [normalize_plain P hPp p2, normalize_plain B hBp b2, hR]
  -- the relative path is a good one
  have hRmem : ∀ x ∈ R, x = dot ∨ x = dotdot ∨ x ∈ P := by
    rcases hspec with ⟨-, h⟩ | ⟨-, -, -, h, -⟩
    · rw [h]; simp
    · exact h
  have hRchars : ∀ x ∈ R, 47 ∉ x ∧ 63 ∉ x ∧ 58 ∉ x ∧ Uric isAllowed x := by
    intro x hx
    rcases hRmem x hx with rfl | rfl | h
    · exact ⟨by decide, by decide, by decide, dot_uric⟩
    · exact ⟨by decide, by decide, by decide, dotdot_uric⟩
    · exact ⟨p3 x h, (hPu x h).1, hcolon x h, (hPu x h).2⟩
  have hfirst : R = [] ∨ ∃ x t, R = x :: t ∧ x ≠ [] := by
    rcases hspec with ⟨-, h⟩ | ⟨-, -, -, -, x, r, h, -, h2⟩
    · exact .inl h
    · refine .inr ⟨x, r, h, fun hx => ?_⟩
      obtain ⟨A, t, e, ht⟩ := h2 hx
      rw [hx] at e
      exact ht (hempty A t e)
  have hrel : RelPathOk (joinWith 47 R) := by
    refine ⟨?_, ?_⟩
    · rintro ⟨z, hz⟩
      rcases hfirst with h | ⟨x, t, h, hx⟩
      · rw [h] at hz; simp [joinWith] at hz
      · obtain ⟨c, x', rfl⟩ : ∃ c x', x = c :: x' := by cases x with | nil => exact absurd rfl hx | cons c x' => exact ⟨c, x', rfl⟩
        have hc := (hRchars (c :: x') (by rw [h]; simp)).1
        have : ∃ y, joinWith 47 R = c :: y := by
          rw [h]
          cases t with
          | nil => exact ⟨x', rfl⟩
          | cons y ys => exact ⟨x' ++ 47 :: joinWith 47 (y :: ys), rfl⟩
        obtain ⟨y, hy⟩ := this
        rw [hy] at hz
        simp only [List.cons.injEq] at hz
        exact hc (by simp [hz.1])
    · intro h
      rcases mem_joinWith _ _ _ h with h | ⟨w, hw, h⟩
      · exact absurd h (by decide)
      · exact (hRchars w hw).2.1 h
  have htext : Parts.text { relPath := some (joinWith 47 R), query := u.parts.query } =
      joinWith 47 R ++ queryText u.parts.query := by simp only [Parts.text, List.nil_append]; rfl
  have hq63 : ∀ y, queryText u.parts.query = y → (y = [] ∨ ∃ c t, y = c :: t ∧ (c = 47 ∨ c = 63)) := by
    rintro y rfl
    cases u.parts.query with
    | none => exact .inl rfl
    | some q => exact .inr ⟨63, q, rfl, .inr rfl⟩
  have hnos : ¬ ∃ s r, SchemeOk s ∧ joinWith 47 R ++ queryText u.parts.query = s ++ 58 :: r := by
    cases hRR : R with
    | nil => exact no_scheme [] _ (by simp) (hq63 _ rfl)
    | cons x t =>
      have hx := (hRchars x (by rw [hRR]; simp)).2.2.1
      cases t with
      | nil => exact no_scheme x _ hx (hq63 _ rfl)
      | cons y ys =>
        rw [joinWith_cons 47 x _ (by simp), List.append_assoc]
        exact no_scheme x _ hx (.inr ⟨47, _, rfl, .inl rfl⟩)
  have hfits : Fits none { relPath := some (joinWith 47 R), query := u.parts.query } := by
    refine ⟨by simp, fun _ => ⟨.inr ⟨_, _, hrel, rfl⟩, ?_⟩⟩
    rw [htext]; exact hnos
  have hch : Parts.Chars { relPath := some (joinWith 47 R), query := u.parts.query } := by
    refine ⟨by simp, by simp, by simp, ?_, huch.query⟩
    intro x hx; cases hx
    exact uric_joinWith _ (fun w hw => (hRchars w hw).2.2.2)
  have hinit := init_ofParts none _ u.fragment hfits hch huf
  have hrelative : u.relative b = some (ofParts none { relPath := some (joinWith 47 R), query := u.parts.query } u.fragment) := by
    rw [← hinit]
    unfold URI.relative
    dsimp only
    rw [if_neg (by rw [huh.1]; simp), hsch]
    have hgo : (if b.scheme.map lower ≠ b.scheme.map lower then fromOctets u.str
        else if u.parts.authority = none ∧ b.parts.authority.isSome then none
        else if u.parts.authority ≠ b.parts.authority then
          fromOctets ((match u.parts.authority with | some a => [47, 47] ++ a | none => []) ++
            (match u.parts.absPath with | some a => a | none => (match u.parts.relPath with | some r => r | none => [])) ++
            queryFragment u.parts.query u.fragment)
        else match u.parts.absPath with
          | none =>
            if b.parts.absPath.isSome then none
            else match u.parts.relPath with
              | none => none
              | some r => match b.parts.relPath with
                | none => fromOctets ([] ++ r ++ queryFragment u.parts.query u.fragment)
                | some br => do fromOctets ([] ++ (← makeRelPathRel r br) ++ queryFragment u.parts.query u.fragment)
          | some ap => match b.parts.absPath with
            | none => fromOctets u.str
            | some bp => do fromOctets ([] ++ (← makeRelPathAbs ap bp) ++ queryFragment u.parts.query u.fragment)) =
        fromOctets (joinWith 47 R ++ queryFragment u.parts.query u.fragment) := by
      rw [if_neg (by simp), if_neg, if_neg (by rw [hauth]; simp), hup, hbp]
      · dsimp only
        rw [hmk]
        rfl
      · rintro ⟨h1, h2⟩; rw [← hauth, h1] at h2; cases h2
    have e2 : fromOctets (joinWith 47 R ++ queryFragment u.parts.query u.fragment) =
        URI.init (schemeText none ++ Parts.text { relPath := some (joinWith 47 R), query := u.parts.query } ++ fragText u.fragment) := by
      rw [htext, queryFragment_eq]; simp [schemeText, fromOctets]
    rw [← e2, ← hgo]
    cases b.scheme <;> rfl
  refine ⟨_, hrelative, ?_⟩
  -- resolving
  by_cases hoct : joinWith 47 R = [] ∧ u.parts.query = none
  · -- the same document
    have hPB : P = B := by
      rcases hspec with ⟨h, -⟩ | ⟨-, hne, -⟩
      · exact h
      · rcases hfirst with h | ⟨x, t, h, hx⟩
        · exact absurd h hne
        · exfalso
          rw [h] at hoct
          cases t with
          | nil => exact hx hoct.1
          | cons y ys => rw [joinWith_cons _ _ _ (by simp)] at hoct; simp at hoct
    obtain ⟨t, ht, -, h2, h3, h4⟩ := C42_same_document _ b _ sb hinit hb (by simp only [ofParts]; rw [htext]; simp [schemeText, hoct.1, hoct.2, queryText])
    rw [ht]
    have hbq : b.parts.query = none := by
      rcases hsame hPB with h | h
      · exact h.2
      · rw [hoct.2] at h; simp at h
    have hparts : u.parts = b.parts := by
      have hpath : up = bp := by rw [p1, b1, hPB]
      rcases hup' : u.parts with ⟨o1, a1, ap1, r1, q1⟩
      rcases hbp' : b.parts with ⟨o2, a2, ap2, r2, q2⟩
      rw [hup'] at huh hauth hup hoct
      rw [hbp'] at hbh hauth hbp hbq
      have e1 := huh.1; have e2 := huh.2.1; have e3 := hbh.1; have e4 := hbh.2.1
      have e5 := hoct.2
      dsimp only at e1 e2 e3 e4 e5 hauth hup hbp hbq
      rw [e1, e2, e3, e4, e5, hauth, hup, hbp, hbq, hpath]
    have htv : ∃ st, URI.init st = some t := by
      unfold URI.resolve at ht
      rw [if_pos ⟨⟨rfl, by simp [ofParts, hoct.1]⟩, rfl, rfl, hoct.2⟩] at ht
      dsimp only [ofParts] at ht
      cases hf : u.fragment with
      | none => rw [hf] at ht; exact ⟨_, ht⟩
      | some f => rw [hf] at ht; exact ⟨_, ht⟩
    obtain ⟨st, hst⟩ := htv
    obtain ⟨-, -, -, -, et⟩ := init_valid st t hst
    rw [et, eu, h2, h3, h4, hsch, hparts]
    rfl
  · -- a relative path
    have hsplit : normalizeSegments (B.dropLast ++ splitRelPath (joinWith 47 R)) = P := by
      rcases hspec with ⟨hPB, h⟩ | ⟨-, hne, h, -⟩
      · rw [h] at hoct ⊢
        have hq : u.parts.query ≠ none := fun hn => hoct ⟨rfl, hn⟩
        have hl : P.getLast? = some [] := by
          rcases hsame hPB with h | h
          · exact absurd h.1 hq
          · exact h.2
        have : B.dropLast ++ splitRelPath (joinWith 47 []) = P := by
          rw [← hPB]
          obtain ⟨ns, e⟩ := List.getLast?_eq_some_iff.1 hl
          rw [e]; simp [joinWith, splitRelPath]
        rw [this]
        exact normalize_plain P hPp p2
      · have : splitRelPath (joinWith 47 R) = R := by
          have := splitOn_joinWith 47 R hne (fun w hw => (hRchars w hw).1)
          cases hj : joinWith 47 R with
          | nil => rw [hj] at this; rw [← this]; rfl
          | cons c t => rw [hj] at this; exact this
        rw [this]; exact h
    have htarget : targetParts { relPath := some (joinWith 47 R), query := u.parts.query } b.parts B
        (splitRelPath (joinWith 47 R)) = u.parts := by
      simp only [targetParts]
      rw [← C20_normalize _ (by simp [(splitRelPath_eq (joinWith 47 R)).2.1]), hsplit, ← p1, ← hauth]
      rcases hup' : u.parts with ⟨o1, a1, ap1, r1, q1⟩
      rw [hup'] at huh hup
      have e1 := huh.1; have e2 := huh.2.1
      dsimp only at e1 e2 hup
      rw [e1, e2, hup]
    have := C42_resolve _ b _ sb hinit hb rfl (by
      simp only [ofParts]; rw [htext]
      intro h
      simp only [schemeText, List.nil_append, List.append_eq_nil_iff] at h
      refine hoct ⟨h.1, ?_⟩
      cases hq : u.parts.query with
      | none => rfl
      | some q => rw [hq] at h; simp [queryText] at h) B (fun _ _ => ⟨bp, hbp, hB⟩) (by
      intro _ hn a ha
      simp only [ofParts, Option.getD_some] at ha
      rw [htarget] at ha
      exact huh.2.2.2.2.2 (by rw [hauth]; exact hn) a ha)
    rw [this]
    simp only [ofParts, Option.getD_some]
    rw [htarget]
    conv => rhs; rw [eu]
    simp only [ofParts, hsch]

/-- C22: a URI with another scheme is its own relative form. -/
theorem C22_other_scheme (su : Str) (u b : URI) (hu : URI.init su = some u) (x : Str) (hx : u.scheme = some x)
    (hd : ∀ y, b.scheme = some y → lower x ≠ lower y) : u.relative b = some u ∧ u.resolve b = some u := by
  obtain ⟨h1, -⟩ := C21_lossless su u hu
  have h2 : fromOctets u.str = some u := by rw [fromOctets, h1, hu]
  refine ⟨?_, C42_absolute u b su hu (by rw [hx]; rfl)⟩
  unfold URI.relative
  dsimp only
  split
  · exact h2
  · rw [hx]
    cases hb : b.scheme with
    | none => exact h2
    | some y =>
      dsimp only
      rw [if_pos (by simpa using hd y hb)]
      exact h2

/-- C22: with the same scheme and another authority the relative form keeps the authority and resolves back. -/
theorem C22_other_authority (su sb : Str) (u b : URI) (hu : URI.init su = some u) (hb : URI.init sb = some b)
    (hsch : u.scheme = b.scheme) (a : Str) (ha : u.parts.authority = some a) (hauth : b.parts.authority ≠ some a) :
    ∃ r, u.relative b = some r ∧ r.scheme = none ∧ r.parts = u.parts ∧ r.resolve b = some u := by
  obtain ⟨hsu, hufit, huch, huf, eu⟩ := init_valid su u hu
  have huh := hufit.hierarchical (.inr (by rw [ha]; rfl))
  have hfits : Fits none u.parts := .hier (by simp) huh
  have hinit := init_ofParts none u.parts u.fragment hfits huch huf
  refine ⟨ofParts none u.parts u.fragment, ?_, rfl, rfl, ?_⟩
  · rw [← hinit]
    unfold URI.relative
    dsimp only
    rw [if_neg (by rw [huh.1]; simp), hsch]
    have e : fromOctets ((match u.parts.authority with | some a => [47, 47] ++ a | none => []) ++
            (match u.parts.absPath with | some a => a | none => (match u.parts.relPath with | some r => r | none => [])) ++
            queryFragment u.parts.query u.fragment) =
        URI.init (schemeText none ++ u.parts.text ++ fragText u.fragment) := by
      have e1 := huh.1
      have e2 := huh.2.1
      unfold fromOctets Parts.text
      rw [e1, e2]
      simp only [queryFragment_eq, schemeText, List.nil_append, List.append_nil, List.append_assoc]
      cases u.parts.absPath <;> rfl
    cases b.scheme with
    | none =>
      dsimp only
      rw [if_neg (by simp), if_neg (by rw [ha]; simp), if_pos (by rw [ha]; exact fun h => hauth h.symm)]
      exact e
    | some y =>
      dsimp only
      rw [if_neg (by simp), if_neg (by rw [ha]; simp), if_pos (by rw [ha]; exact fun h => hauth h.symm)]
      exact e
  · have ht : targetParts u.parts b.parts [] (splitRelPath (u.parts.relPath.getD [])) = u.parts := by
      rcases hup' : u.parts with ⟨o1, a1, ap1, r1, q1⟩
      rw [hup'] at huh ha
      have e1 := huh.1; have e2 := huh.2.1
      dsimp only at e1 e2 ha
      rw [e1, e2, ha]; rfl
    have := C42_resolve _ b _ sb hinit hb rfl (by
      obtain ⟨t, ht, -⟩ := loop_slash _ huh
      simp [ofParts, schemeText, ht]) [] (by intro h; simp only [ofParts] at h; rw [ha] at h; cases h)
      (by intro h; simp only [ofParts] at h; rw [ha] at h; cases h)
    rw [this, show (ofParts none u.parts u.fragment).parts = u.parts from rfl, ht]
    conv => rhs; rw [eu]
    simp only [ofParts, hsch]

/-- http://h/a/b/c?q relative to http://h/a/x/y is ../b/c?q, and resolves back. -/
example : (do let u ← URI.init (codes "http://h/a/b/c?q"); let b ← URI.init (codes "http://h/a/x/y")
              let r ← u.relative b; let t ← r.resolve b; some (r.str, t == u)) = some (codes "../b/c?q", true) := by
  decide +kernel

/-- Resolving `relative` of two texts. -/
def roundTrip (su sb : Str) : Option Str := do
  let u ← URI.init su
  let b ← URI.init sb
  let r ← u.relative b
  let t ← r.resolve b
  some t.str

/-- C22 fails: a ':' in the first segment of the relative path, an empty one, a path that is a proper prefix of the
base's, and equal paths with a query in either. -/
theorem C22_violations :
    roundTrip (codes "http://h/a:b") (codes "http://h/c") = some (codes "a:b") ∧
    roundTrip (codes "http://h//x") (codes "http://h/c") = some (codes "http://h/x") ∧
    roundTrip (codes "http://h/a") (codes "http://h/a/b") = some (codes "http://h/a/b") ∧
    roundTrip (codes "http://h/a?q") (codes "http://h/a") = some (codes "http://h/?q") ∧
    roundTrip (codes "http://h/a") (codes "http://h/a?q") = some (codes "http://h/a?q") := by decide +kernel

end Verif.Uri

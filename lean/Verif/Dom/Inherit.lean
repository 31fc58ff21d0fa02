import Verif.Uri.Resolve
/-
C171: xml:lang, xml:space and xml:base are inherited (pyslet/xml/structures.py:2516-2685, 673-716).
-/
namespace Verif.Dom.Inherit
open Verif.Uri

/-! ## Model -/

/-- The values of `get_lang`, `get_space` and `get_base` of an element (structures.py:2516-2518,
2628-2630, 2657-2659; namespace.py:413-434): the attributes, `none` if they are missing. -/
structure Node where
  lang : Option Str := none
  space : Option Str := none
  base : Option Str := none
deriving DecidableEq, Repr

/-- The document at the end of the chain of parents: its `lang` and `get_base()`
(structures.py:695-708). -/
structure Doc where
  lang : Option Str := none
  base : Option Str := none
deriving DecidableEq, Repr

/-- The chain of `parent` from an element upwards; an element that is in no document has none at the
end. -/
structure Place where
  chain : List Node
  doc : Option Doc
deriving DecidableEq, Repr

/-- structures.py:2643-2655 `resolve_lang`: the loop over the elements, then the document. -/
def langLoop (doc : Option Doc) : List Node → Option Str
  | [] => match doc with
    | none => none
    | some d => match d.lang with
      | some (c :: s) => some (c :: s)
      | _ => none
  | n :: l => match n.lang with
    | some (c :: s) => some (c :: s)
    | _ => langLoop doc l

def resolveLang (p : Place) : Option Str := langLoop p.doc p.chain

/-- What `resolve_space` does: a result (None is `ok none`), or NotImplementedError. -/
inductive SpaceOut
  | ok (s : Option Str)
  | notImplemented
deriving DecidableEq, Repr

/-- structures.py:2673-2685 `resolve_space`; `Document.get_space` raises NotImplementedError
(710-716).  The argument `space` is not used. -/
def spaceLoop (doc : Option Doc) : List Node → SpaceOut
  | [] => match doc with
    | none => .ok none
    | some _ => .notImplemented
  | n :: l => match n.space with
    | some (c :: s) => .ok (some (c :: s))
    | _ => spaceLoop doc l

def resolveSpace (p : Place) : SpaceOut := spaceLoop p.doc p.chain

/-- structures.py:2544-2556 `resolve_base` with `base_uri` as the accumulator; outer `none` is an
exception of the class URI. -/
def baseLoop : List (Option Str) → Option URI → Option (Option URI)
  | [], acc => some acc
  | o :: l, acc => match o with
    | some (c :: s) => match acc with
      | some u => do
        let b ← fromOctets (c :: s)
        let v ← u.resolve b
        baseLoop l (some v)
      | none => do
        let u ← fromOctets (c :: s)
        baseLoop l (some u)
    | _ => baseLoop l acc

/-- The values of `get_base` along the chain. -/
def bases (p : Place) : List (Option Str) :=
  p.chain.map (·.base) ++ (match p.doc with | none => [] | some d => [d.base])

/-- structures.py:2531-2556 `resolve_base` -/
def resolveBase (p : Place) : Option (Option Str) := (baseLoop (bases p) none).map (·.map URI.str)

/-- structures.py:2559-2590 `resolve_uri` with a string. -/
def resolveUri (p : Place) (ref : Str) : Option URI := do
  let u ← fromOctets ref
  let b ← resolveBase p
  match b with
  | some (c :: s) => do
    let b ← fromOctets (c :: s)
    u.resolve b
  | _ => some u

/-- structures.py:2632-2640 `set_lang` -/
def setLang (n : Node) (l : Option Str) : Node := { n with lang := l }

/-! ## Specification -/

/-- The value in force: that of the nearest element that has the attribute, else `top`. -/
def Nearest (get : Node → Option Str) (top : Option Str) (chain : List Node) (v : Option Str) : Prop :=
  (∃ pre n post, chain = pre ++ n :: post ∧ (∀ m ∈ pre, get m = none) ∧ (get n).isSome ∧ v = get n) ∨
  ((∀ m ∈ chain, get m = none) ∧ v = top)

/-- XML Base: an attribute is a reference, relative to the base in force for the parent. -/
inductive BaseOf : List (Option Str) → Option URI → Prop
  | top : BaseOf [] none
  | skip (o : Option Str) (l : List (Option Str)) (b : Option URI) : o = none ∨ o = some [] → BaseOf l b →
      BaseOf (o :: l) b
  | first (s : Str) (l : List (Option Str)) (u : URI) : s ≠ [] → BaseOf l none → URI.init s = some u →
      BaseOf (some s :: l) (some u)
  | next (s : Str) (l : List (Option Str)) (u b t : URI) : s ≠ [] → BaseOf l (some b) →
      URI.init s = some u → u.resolve b = some t → BaseOf (some s :: l) (some t)

/-- A place where no base is given. -/
def NoBase (l : List (Option Str)) : Prop := ∀ o ∈ l, o = none ∨ o = some []

/-- A list of bases that are URI references (those with nothing in them do not count). -/
def GoodBases (l : List (Option Str)) : Prop := ∀ s, some s ∈ l → ∃ u, URI.init s = some u

/-! ## Language and white space -/

theorem langLoop_skip (doc : Option Doc) : ∀ (pre l : List Node), (∀ m ∈ pre, m.lang = none ∨ m.lang = some []) →
    langLoop doc (pre ++ l) = langLoop doc l := by
  intro pre
  induction pre with
  | nil => intro l _; rfl
  | cons n pre ih =>
    intro l h
    rw [List.cons_append, langLoop]
    rcases h n (by simp) with e | e <;> rw [e] <;> exact ih l (fun m hm => h m (by simp [hm]))

/-- **C171** (language): the language of an element is that of the nearest element, itself included,
that has xml:lang, and that of the document if there is none.  Without empty values of xml:lang. -/
theorem C171_lang_partial (p : Place) (v : Option Str)
    (hne : ∀ m ∈ p.chain, m.lang ≠ some []) (hd : ∀ d, p.doc = some d → d.lang ≠ some []) :
    Nearest (·.lang) (p.doc.bind (·.lang)) p.chain v ↔ resolveLang p = v := by
  obtain ⟨chain, doc⟩ := p
  dsimp only at hne hd ⊢
  have hdoc : langLoop doc [] = doc.bind (·.lang) := by
    cases doc with
    | none => rfl
    | some d =>
      rw [langLoop]
      cases h : d.lang with
      | none => simp [h]
      | some s => cases s with
        | nil => exact absurd h (hd d rfl)
        | cons c s => simp [h]
  have fwd : ∀ w, Nearest (·.lang) (doc.bind (·.lang)) chain w → langLoop doc chain = w := by
    rintro w (⟨pre, n, post, rfl, h1, h2, rfl⟩ | ⟨h1, rfl⟩)
    · dsimp only at h1 h2
      rw [langLoop_skip doc pre _ (fun m hm => .inl (h1 m hm)), langLoop]
      dsimp only
      cases h : n.lang with
      | none => rw [h] at h2; cases h2
      | some s => cases s with
        | nil => exact absurd h (hne n (by simp))
        | cons c s => rfl
    · have := langLoop_skip doc chain [] (fun m hm => .inl (h1 m hm))
      rw [List.append_nil] at this
      rw [this, hdoc]
  constructor
  · exact fwd v
  · intro h
    have ex : ∃ w, Nearest (·.lang) (doc.bind (·.lang)) chain w := by
      clear fwd hne h
      induction chain with
      | nil => exact ⟨_, .inr ⟨by simp, rfl⟩⟩
      | cons n l ih =>
        cases hn : n.lang with
        | some s => exact ⟨_, .inl ⟨[], n, l, rfl, by simp, by simp [hn], rfl⟩⟩
        | none =>
          rcases ih with ⟨w, ⟨pre, m, post, e, h1, h2, h3⟩ | ⟨h1, h3⟩⟩
          · refine ⟨w, .inl ⟨n :: pre, m, post, by rw [e]; rfl, ?_, h2, h3⟩⟩
            intro k hk
            rcases List.mem_cons.mp hk with rfl | hk
            · exact hn
            · exact h1 k hk
          · refine ⟨w, .inr ⟨?_, h3⟩⟩
            intro k hk
            rcases List.mem_cons.mp hk with rfl | hk
            · exact hn
            · exact h1 k hk
    obtain ⟨w, hw⟩ := ex
    have e := fwd w hw
    have : w = v := by rw [← e]; exact h
    rw [← this]; exact hw

/-- **C171** (violation): `xml:lang=""`, which says that the language is not known, is ignored: the
element gets the language of its parent. -/
theorem C171_lang_violation (n m : Node) (post : List Node) (doc : Option Doc) (c : Nat) (s : Str)
    (hn : n.lang = some []) (hm : m.lang = some (c :: s)) :
    Nearest (·.lang) (doc.bind (·.lang)) (n :: m :: post) (some []) ∧
    resolveLang ⟨n :: m :: post, doc⟩ = some (c :: s) := by
  refine ⟨.inl ⟨[], n, _, rfl, by simp, by simp [hn], hn.symm⟩, ?_⟩
  simp [resolveLang, langLoop, hn, hm]

/-- **C171** (setting the language): an element has the language it was given; so has everything in it
down to the elements with a language of their own, and those are not concerned. -/
theorem C171_set_lang (pre post : List Node) (n : Node) (doc : Option Doc) (c : Nat) (s : Str) :
    ((∀ m ∈ pre, m.lang = none) →
      resolveLang ⟨pre ++ setLang n (some (c :: s)) :: post, doc⟩ = some (c :: s)) ∧
    (∀ m ∈ pre, ∀ d t, m.lang = some (d :: t) → ∀ l post',
      resolveLang ⟨pre ++ setLang n l :: post', doc⟩ = resolveLang ⟨pre ++ n :: post, doc⟩) := by
  constructor
  · intro h
    unfold resolveLang
    dsimp only
    rw [langLoop_skip doc pre _ (fun m hm => .inl (h m hm))]
    simp [langLoop, setLang]
  · intro m hm d t ht l post'
    unfold resolveLang
    dsimp only
    induction pre with
    | nil => cases hm
    | cons k pre ih =>
      rw [List.cons_append, List.cons_append, langLoop, langLoop]
      rcases List.mem_cons.mp hm with rfl | hm
      · rw [ht]
      · have := ih hm
        cases hk : k.lang with
        | none => exact this
        | some w => cases w with
          | nil => exact this
          | cons e w => rfl

theorem spaceLoop_skip (doc : Option Doc) : ∀ (pre l : List Node), (∀ m ∈ pre, m.space = none) →
    spaceLoop doc (pre ++ l) = spaceLoop doc l := by
  intro pre
  induction pre with
  | nil => intro l _; rfl
  | cons n pre ih =>
    intro l h
    rw [List.cons_append, spaceLoop, h n (by simp)]
    exact ih l (fun m hm => h m (by simp [hm]))

/-- **C171** (white space): if xml:space is given for the element or one that it is in, or the element
is in no document, then the result is the value in force. -/
theorem C171_space_partial (p : Place) (v : Option Str) (hne : ∀ m ∈ p.chain, m.space ≠ some [])
    (h : (∃ m ∈ p.chain, m.space.isSome) ∨ p.doc = none) (hv : Nearest (·.space) none p.chain v) :
    resolveSpace p = .ok v := by
  obtain ⟨chain, doc⟩ := p
  dsimp only at hne h
  unfold resolveSpace
  dsimp only at hv ⊢
  rcases hv with ⟨pre, n, post, rfl, h1, h2, rfl⟩ | ⟨h1, rfl⟩
  · dsimp only at h1 h2 ⊢
    rw [spaceLoop_skip doc pre _ h1, spaceLoop]
    cases hs : n.space with
    | none => rw [hs] at h2; cases h2
    | some s => cases s with
      | nil => exact absurd hs (hne n (by simp))
      | cons c s => rfl
  · dsimp only at h1
    rcases h with ⟨m, hm, h⟩ | h
    · rw [h1 m hm] at h; cases h
    · have := spaceLoop_skip doc chain [] h1
      rw [List.append_nil] at this
      rw [this, h]; rfl

/-- **C171** (violation): in a document the result without xml:space is not None: NotImplementedError
is raised. -/
theorem C171_space_violation (chain : List Node) (d : Doc) (h : ∀ m ∈ chain, m.space = none) :
    Nearest (·.space) none chain none ∧ resolveSpace ⟨chain, some d⟩ = .notImplemented := by
  refine ⟨.inr ⟨h, rfl⟩, ?_⟩
  have := spaceLoop_skip (some d) chain [] h
  rw [List.append_nil] at this
  unfold resolveSpace
  dsimp only
  rw [this]; rfl

/-! ## Base -/

theorem baseLoop_none (l : List (Option Str)) (acc) : baseLoop (none :: l) acc = baseLoop l acc := by
  rw [baseLoop]; rintro c s ⟨⟩
theorem baseLoop_empty (l : List (Option Str)) (acc) : baseLoop (some [] :: l) acc = baseLoop l acc := by
  rw [baseLoop]; rintro c s ⟨⟩
theorem baseLoop_next (c : Nat) (s : Str) (l : List (Option Str)) (u b v : URI) (hb : URI.init (c :: s) = some b)
    (hv : u.resolve b = some v) : baseLoop (some (c :: s) :: l) (some u) = baseLoop l (some v) := by
  rw [baseLoop, fromOctets, hb]
  simp only [Option.bind_eq_bind, Option.bind_some, hv]
theorem baseLoop_first (c : Nat) (s : Str) (l : List (Option Str)) (b : URI) (hb : URI.init (c :: s) = some b) :
    baseLoop (some (c :: s) :: l) none = baseLoop l (some b) := by
  rw [baseLoop, fromOctets, hb]
  simp only [Option.bind_eq_bind, Option.bind_some]

theorem baseLoop_skip : ∀ (pre l : List (Option Str)) (acc : Option URI), NoBase pre →
    baseLoop (pre ++ l) acc = baseLoop l acc := by
  intro pre
  induction pre with
  | nil => intro l acc _; rfl
  | cons o pre ih =>
    intro l acc h
    rw [List.cons_append]
    rcases h o (by simp) with e | e <;> subst e
    · rw [baseLoop_none]; exact ih l acc (fun m hm => h m (by simp [hm]))
    · rw [baseLoop_empty]; exact ih l acc (fun m hm => h m (by simp [hm]))

theorem init_nil : ∃ u, URI.init [] = some u := ⟨_, rfl⟩

/-- With an absolute URI nothing above matters. -/
theorem baseLoop_absolute (u : URI) (s : Str) (hu : URI.init s = some u) (hs : u.scheme.isSome) :
    ∀ l : List (Option Str), GoodBases l → baseLoop l (some u) = some (some u) := by
  intro l
  induction l with
  | nil => intro _; rfl
  | cons o l ih =>
    intro h
    have h' : GoodBases l := fun s hs => h s (by simp [hs])
    cases o with
    | none => rw [baseLoop_none]; exact ih h'
    | some w => cases w with
      | nil => rw [baseLoop_empty]; exact ih h'
      | cons c w =>
        obtain ⟨b, hb⟩ := h (c :: w) (by simp)
        rw [baseLoop_next c w l u b u hb (C42_absolute u b s hu hs)]
        exact ih h'

theorem str_init {s : Str} {u : URI} (h : URI.init s = some u) : u.str = s := (C21_lossless s u h).1

/-- The values of `BaseOf` are determined. -/
theorem BaseOf.unique {l : List (Option Str)} {a b : Option URI} (h : BaseOf l a) : BaseOf l b → a = b := by
  intro h'
  induction h generalizing b with
  | top => cases h'; rfl
  | skip o l x ho hx ih =>
    cases h' with
    | skip _ _ _ _ hy => exact ih hy
    | first s _ _ hs => rcases ho with e | e <;> cases e; exact absurd rfl hs
    | next s _ _ _ _ hs => rcases ho with e | e <;> cases e; exact absurd rfl hs
  | first s l u hs hl hu ih =>
    cases h' with
    | skip _ _ _ ho _ => rcases ho with e | e <;> cases e; exact absurd rfl hs
    | first _ _ _ _ _ hu' => rw [hu] at hu'; exact hu'
    | next _ _ _ _ _ _ hl' => cases ih hl'
  | next s l u b t hs hl hu ht ih =>
    cases h' with
    | skip _ _ _ ho _ => rcases ho with e | e <;> cases e; exact absurd rfl hs
    | first _ _ _ _ hl' _ => cases ih hl'
    | next _ _ u' b' t' _ hl' hu' ht' =>
      have e1 := ih hl'
      cases e1
      rw [hu] at hu'; cases hu'
      rw [ht] at ht'; exact ht'

theorem BaseOf.pre {pre l : List (Option Str)} {b : Option URI} (h : NoBase pre) (hl : BaseOf l b) : BaseOf (pre ++ l) b := by
  induction pre with
  | nil => exact hl
  | cons o pre ih => exact .skip o _ b (h o (by simp)) (ih fun m hm => h m (by simp [hm]))

theorem noBase_of {l : List (Option Str)} (h : NoBase l) : BaseOf l none := by
  have := BaseOf.pre h .top
  rwa [List.append_nil] at this

/-- **C171** (no base): without any xml:base the result is None. -/
theorem C171_base_none (p : Place) (h : NoBase (bases p)) : BaseOf (bases p) none ∧ resolveBase p = some none := by
  refine ⟨noBase_of h, ?_⟩
  unfold resolveBase
  have := baseLoop_skip (bases p) [] none h
  rw [List.append_nil] at this
  rw [this]; rfl

/-- **C171** (absolute base): if the nearest xml:base is an absolute URI then it is the base, whatever
is given further up. -/
theorem C171_base_absolute_partial (p : Place) (pre post : List (Option Str)) (s : Str) (u : URI)
    (h : bases p = pre ++ some s :: post) (hpre : NoBase pre) (hu : URI.init s = some u)
    (hs : u.scheme.isSome) (hgood : GoodBases post) :
    resolveBase p = some (some s) ∧ (∀ b, BaseOf post b → BaseOf (bases p) (some u)) := by
  have hne : s ≠ [] := by
    rintro rfl
    have : URI.init [] = some u := hu
    have e : u = mkURI [] none := by
      have : URI.init [] = some (mkURI [] none) := rfl
      rw [hu] at this; exact Option.some.inj this
    rw [e] at hs
    exact absurd hs (by decide)
  constructor
  · unfold resolveBase
    rw [h, baseLoop_skip pre _ none hpre]
    cases s with
    | nil => exact absurd rfl hne
    | cons c s =>
      rw [baseLoop_first c s post u hu, baseLoop_absolute u _ hu hs post hgood]
      simp [str_init hu]
  · intro b hb
    rw [h]
    refine BaseOf.pre hpre ?_
    cases b with
    | none => exact .first s post u hne hb hu
    | some b => exact .next s post u b u hne hb hu (C42_absolute u b s hu hs)

/-- **C171** (base of the document): where neither the element nor anything that it is in has xml:base,
the base is that of the document, which is an absolute URI. -/
theorem C171_base_document (chain : List Node) (d : Doc) (w : Str) (u : URI) (h : ∀ m ∈ chain, m.base = none)
    (hd : d.base = some w) (hu : URI.init w = some u) (hs : u.scheme.isSome) :
    resolveBase ⟨chain, some d⟩ = some (some w) := by
  refine (C171_base_absolute_partial ⟨chain, some d⟩ (chain.map (·.base)) [] w u ?_ ?_ hu hs ?_).1
  · simp [bases, hd]
  · intro o ho
    obtain ⟨m, hm, rfl⟩ := List.mem_map.mp ho
    exact .inl (h m hm)
  · intro s hs; cases hs

/-- What `resolve` returns has been read from a text. -/
theorem resolve_init {u b t : URI} (h : u.resolve b = some t) : ∃ s, URI.init s = some t := by
  unfold URI.resolve at h
  dsimp only at h
  split at h
  · split at h <;> exact ⟨_, h⟩
  · split at h
    · exact ⟨_, h⟩
    · simp only [Option.bind_eq_bind] at h
      rw [Option.bind_eq_some_iff] at h
      obtain ⟨⟨a, p, r⟩, -, h⟩ := h
      exact ⟨_, h⟩

/-- The target of a reference without a scheme has the scheme of the base (a base such as
`http://host/path`). -/
theorem resolve_scheme (r b : URI) (sr sb : Str) (hr : URI.init sr = some r) (hb : URI.init sb = some b)
    (hrs : r.scheme = none) (ha : b.parts.authority.isSome) (bp : Str) (bsegs : List Str)
    (hp : b.parts.absPath = some bp) (hsp : splitAbsPath bp = some bsegs) :
    ∃ t, r.resolve b = some t ∧ t.scheme = b.scheme := by
  by_cases he : r.octets = []
  · obtain ⟨t, h1, -, h2, -⟩ := C42_same_document r b sr sb hr hb he
    exact ⟨t, h1, h2⟩
  · refine ⟨_, C42_resolve r b sr sb hr hb hrs he bsegs (fun _ _ => ⟨bp, hp, hsp⟩) ?_, rfl⟩
    intro _ hn
    rw [hn] at ha; cases ha

/-- **C171** (a relative base): a relative xml:base below an absolute one such as `http://host/path` is
resolved against it, and that is the base; what is given further up does not matter.  References are
resolved as RFC 2396 says by C42. -/
theorem C171_base_relative_partial (p : Place) (pre mid post : List (Option Str)) (s w : Str) (r b : URI)
    (h : bases p = pre ++ some s :: (mid ++ some w :: post)) (hpre : NoBase pre) (hmid : NoBase mid)
    (hne : s ≠ []) (hr : URI.init s = some r) (hrs : r.scheme = none)
    (hb : URI.init w = some b) (hbs : b.scheme.isSome) (ha : b.parts.authority.isSome)
    (bp : Str) (bsegs : List Str) (hp : b.parts.absPath = some bp) (hsp : splitAbsPath bp = some bsegs)
    (hgood : GoodBases post) :
    ∃ t, r.resolve b = some t ∧ resolveBase p = some (some t.str) ∧
      (∀ x, BaseOf post x → BaseOf (bases p) (some t)) := by
  obtain ⟨t, ht, hts⟩ := resolve_scheme r b s w hr hb hrs ha bp bsegs hp hsp
  obtain ⟨st, hst⟩ := resolve_init ht
  have hwne : w ≠ [] := by
    rintro rfl
    have : URI.init [] = some (mkURI [] none) := rfl
    rw [hb] at this
    have e := Option.some.inj this
    rw [e] at hbs
    exact absurd hbs (by decide)
  refine ⟨t, ht, ?_, ?_⟩
  · unfold resolveBase
    rw [h, baseLoop_skip pre _ none hpre]
    cases s with
    | nil => exact absurd rfl hne
    | cons c s =>
      rw [baseLoop_first c s _ r hr, baseLoop_skip mid _ _ hmid]
      cases w with
      | nil => exact absurd rfl hwne
      | cons d w =>
        rw [baseLoop_next d w post r b t hb ht, baseLoop_absolute t st hst (by rw [hts]; exact hbs) post hgood]
        rfl
  · intro x hx
    rw [h]
    refine BaseOf.pre hpre (.next s _ r b t hne (BaseOf.pre hmid ?_) hr ht)
    cases x with
    | none => exact .first w post b hwne hx hb
    | some y => exact .next w post b y b hwne hx hb (C42_absolute b y w hb hbs)

/-! ### Chains of relative bases -/

/-- The segments of a relative path that begins with a name and has neither "." nor ".." nor a colon,
such as `chapters/1/`. -/
def RelSegs (R : List Str) : Prop :=
  R.head? ≠ none ∧ R.head? ≠ some [] ∧
  ∀ w ∈ R, w ≠ [46] ∧ w ≠ [46, 46] ∧ 47 ∉ w ∧ 63 ∉ w ∧ 58 ∉ w ∧ Uric isAllowed w

/-- The URI of a relative path. -/
def relUri (R : List Str) : URI := ofParts none { relPath := some (joinWith 47 R) } none

theorem joinWith_cons_ne (c : Nat) (w : Str) (R : List Str) (hw : w ≠ []) :
    ∃ d t, joinWith c (w :: R) = d :: t ∧ d ∈ w := by
  cases w with
  | nil => exact absurd rfl hw
  | cons d w =>
    cases R with
    | nil => exact ⟨d, w, rfl, by simp⟩
    | cons x R => exact ⟨d, _, rfl, by simp⟩

theorem relText {R : List Str} (h : RelSegs R) : ∃ d t, joinWith 47 R = d :: t ∧ d ≠ 47 := by
  obtain ⟨h1, h2, h3⟩ := h
  cases R with
  | nil => exact absurd rfl h1
  | cons w R =>
    have hw : w ≠ [] := fun e => h2 (by simp [e])
    obtain ⟨d, t, e, hd⟩ := joinWith_cons_ne 47 w R hw
    refine ⟨d, t, e, ?_⟩
    rintro rfl
    exact (h3 w (by simp)).2.2.1 hd

theorem init_rel {R : List Str} (h : RelSegs R) : URI.init (joinWith 47 R) = some (relUri R) := by
  obtain ⟨d, t, e, hd⟩ := relText h
  have hno : ∀ c, c = 58 ∨ c = 63 → c ∉ joinWith 47 R := by
    intro c hc hm
    rcases mem_joinWith _ _ _ hm with hx | ⟨w, hw, hx⟩
    · rcases hc with rfl | rfl <;> exact absurd hx (by decide)
    · have := h.2.2 w hw
      rcases hc with rfl | rfl
      · exact this.2.2.2.2.1 hx
      · exact this.2.2.2.1 hx
  have htext : ({ relPath := some (joinWith 47 R) } : Parts).text = joinWith 47 R := by simp [Parts.text]
  have hu : Uric isAllowed (joinWith 47 R) := uric_joinWith R fun w hw => (h.2.2 w hw).2.2.2.2.2
  have := init_ofParts none { relPath := some (joinWith 47 R) } none ?_ ?_ (by simp)
  · rw [htext] at this
    simpa [schemeText, fragText, relUri] using this
  · refine ⟨by simp, fun _ => ⟨.inr ⟨_, none, ⟨?_, hno 63 (.inr rfl)⟩, rfl⟩, ?_⟩⟩
    · rintro ⟨r, hr⟩
      rw [e] at hr
      exact hd (by cases hr; rfl)
    · rw [htext]
      have := no_scheme (joinWith 47 R) [] (hno 58 (.inl rfl)) (.inl rfl)
      rwa [List.append_nil] at this
  · exact ⟨by simp, by simp, by simp, by intro x hx; cases hx; exact hu, by simp⟩

theorem splitRel_join {R : List Str} (h : RelSegs R) : splitRelPath (joinWith 47 R) = R := by
  obtain ⟨d, t, e, -⟩ := relText h
  have : splitRelPath (joinWith 47 R) = splitOn 47 (joinWith 47 R) := by
    rw [e]; rfl
  rw [this]
  exact splitOn_joinWith 47 R (fun e => h.1 (by simp [e])) fun w hw => (h.2.2 w hw).2.2.1

theorem RelSegs.comb {R r : List Str} (hR : RelSegs R) (hr : RelSegs r) : RelSegs (R.dropLast ++ r) := by
  refine ⟨?_, ?_, ?_⟩
  · cases r with
    | nil => exact absurd rfl hr.1
    | cons x r => cases R.dropLast <;> simp
  · cases R with
    | nil => exact absurd rfl hR.1
    | cons x R =>
      cases R with
      | nil => simpa using hr.2.1
      | cons y R => simpa using hR.2.1
  · intro w hw
    rcases List.mem_append.mp hw with hw | hw
    · exact hR.2.2 w (List.dropLast_subset _ hw)
    · exact hr.2.2 w hw

theorem RelSegs.plain {R : List Str} (h : RelSegs R) : Plain R := fun w hw => ⟨(h.2.2 w hw).1, (h.2.2 w hw).2.1⟩

/-- One relative path against another. -/
theorem resolve_rel {R r : List Str} (hR : RelSegs R) (hr : RelSegs r) :
    (relUri r).resolve (relUri R) = some (relUri (R.dropLast ++ r)) := by
  have hc := hR.comb hr
  obtain ⟨d, t, e, -⟩ := relText hr
  obtain ⟨d', t', e', -⟩ := relText hc
  have hn : normalizeSegments (R.dropLast ++ r) = R.dropLast ++ r :=
    normalize_plain _ hc.plain (fun e => hc.1 (by simp [e]))
  unfold URI.resolve
  rw [if_neg (by rintro ⟨⟨-, h⟩, -⟩; simp [relUri, ofParts, e] at h)]
  rw [if_neg (by simp [relUri, ofParts])]
  simp only [relUri, ofParts, Option.getD_some, splitRel_join hR, splitRel_join hr, hn, e', Option.bind_eq_bind,
    Option.bind_some, reduceCtorEq, if_false, queryFragment, List.nil_append, List.append_nil, fromOctets]
  rw [← e']
  exact init_rel hc

/-- The URI with an absolute path that has the scheme and the authority of `b`. -/
def absUri (b : URI) (S : List Str) : URI :=
  ofParts b.scheme { authority := b.parts.authority, absPath := some (47 :: joinWith 47 S) } none

/-- A relative path against a URI with an absolute path. -/
theorem resolve_abs {r T : List Str} (b : URI) (w bp : Str) (hb : URI.init w = some b) (ha : b.parts.authority.isSome)
    (hp : b.parts.absPath = some bp) (hT : splitAbsPath bp = some T) (hplain : Plain T) (hr : RelSegs r) :
    (relUri r).resolve b = some (absUri b (T.dropLast ++ r)) := by
  obtain ⟨d, t, e, -⟩ := relText hr
  have hpl : Plain (T.dropLast ++ r) := by
    intro x hx
    rcases List.mem_append.mp hx with hx | hx
    · exact hplain x (List.dropLast_subset _ hx)
    · exact hr.plain x hx
  have hne : T.dropLast ++ r ≠ [] := by
    intro h
    have := (List.append_eq_nil_iff.mp h).2
    exact hr.1 (by simp [this])
  have hl : (location (T.dropLast ++ r)).segments = T.dropLast ++ r := by
    rw [← C20_normalize _ hne, normalize_plain _ hpl hne]
  rw [C42_resolve (relUri r) b _ w (init_rel hr) hb rfl (by simp [relUri, ofParts, schemeText, Parts.text, e]) T
    (fun _ _ => ⟨bp, hp, hT⟩) (by intro _ hn; rw [hn] at ha; cases ha)]
  simp only [relUri, ofParts, targetParts, Option.getD_some, splitRel_join hr, hl, absUri]

/-- Top-down: the segments of the base in force below `T`. -/
def downSegs (T : List Str) : List (Option (List Str)) → List Str
  | [] => T
  | none :: l => downSegs T l
  | some R :: l => (downSegs T l).dropLast ++ R

/-- Bottom-up: the relative path put together. -/
def upSegs (r : List Str) : List (Option (List Str)) → List Str
  | [] => r
  | none :: l => upSegs r l
  | some R :: l => upSegs (R.dropLast ++ r) l

theorem up_down (T : List Str) : ∀ (l : List (Option (List Str))) (r : List Str), (∀ R, some R ∈ l → RelSegs R) →
    (downSegs T l).dropLast ++ r = T.dropLast ++ upSegs r l := by
  intro l
  induction l with
  | nil => intro r _; rfl
  | cons o l ih =>
    intro r h
    have h' : ∀ R, some R ∈ l → RelSegs R := fun R hR => h R (by simp [hR])
    cases o with
    | none => exact ih r h'
    | some R =>
      have hne : R ≠ [] := fun e => (h R (by simp)).1 (by simp [e])
      rw [downSegs, upSegs, ← ih _ h', List.dropLast_append_of_ne_nil hne, List.append_assoc]

theorem upSegs_rel : ∀ (l : List (Option (List Str))) (r : List Str), RelSegs r → (∀ R, some R ∈ l → RelSegs R) →
    RelSegs (upSegs r l) := by
  intro l
  induction l with
  | nil => intro r hr _; exact hr
  | cons o l ih =>
    intro r hr h
    have h' : ∀ R, some R ∈ l → RelSegs R := fun R hR => h R (by simp [hR])
    cases o with
    | none => exact ih r hr h'
    | some R => exact ih _ ((h R (by simp)).comb hr) h'

/-- The values of xml:base for the paths. -/
def texts (l : List (Option (List Str))) : List (Option Str) := l.map (·.map (joinWith 47))

theorem baseLoop_up (rest : List (Option Str)) : ∀ (l : List (Option (List Str))) (r : List Str), RelSegs r →
    (∀ R, some R ∈ l → RelSegs R) →
    baseLoop (texts l ++ rest) (some (relUri r)) = baseLoop rest (some (relUri (upSegs r l))) := by
  intro l
  induction l with
  | nil => intro r _ _; rfl
  | cons o l ih =>
    intro r hr h
    have h' : ∀ R, some R ∈ l → RelSegs R := fun R hR => h R (by simp [hR])
    cases o with
    | none =>
      have : texts (none :: l) ++ rest = none :: (texts l ++ rest) := rfl
      rw [this, baseLoop_none]; exact ih r hr h'
    | some R =>
      have hR := h R (by simp)
      have : texts (some R :: l) ++ rest = some (joinWith 47 R) :: (texts l ++ rest) := rfl
      obtain ⟨d, t, e, -⟩ := relText hR
      have hi := init_rel hR
      rw [this]
      rw [e] at hi ⊢
      rw [baseLoop_next d t _ _ _ _ hi (resolve_rel hR hr)]
      exact ih _ (hR.comb hr) h'

/-- **C171** (chains of relative bases): with any number of bases that are relative paths without "."
and "..", below an absolute one such as `http://host/path`, the base is what XML Base says: every
xml:base is resolved against the base in force for the parent, from the top down. -/
theorem C171_base_chain_partial (p : Place) (l : List (Option (List Str))) (w : Str) (post : List (Option Str))
    (b : URI) (h : bases p = texts l ++ some w :: post) (hl : ∀ R, some R ∈ l → RelSegs R)
    (hb : URI.init w = some b) (hbs : b.scheme.isSome) (ha : b.parts.authority.isSome)
    (bp : Str) (T : List Str) (hp : b.parts.absPath = some bp) (hT : splitAbsPath bp = some T) (hTne : T ≠ [])
    (hplain : Plain T) (hgood : GoodBases post) (x : Option URI) (hx : BaseOf post x) :
    ∃ t, BaseOf (bases p) (some t) ∧ resolveBase p = some (some t.str) := by
  have hwne : w ≠ [] := by
    rintro rfl
    have : URI.init [] = some (mkURI [] none) := rfl
    rw [hb] at this
    have e := Option.some.inj this
    rw [e] at hbs
    exact absurd hbs (by decide)
  have hbase : BaseOf (some w :: post) (some b) := by
    cases x with
    | none => exact .first w post b hwne hx hb
    | some y => exact .next w post b y b hwne hx hb (C42_absolute b y w hb hbs)
  -- top-down
  have down : ∀ (l : List (Option (List Str))) (_ : ∀ R, some R ∈ l → RelSegs R) (r : List Str) (_ : RelSegs r),
      ∃ c, BaseOf (texts l ++ some w :: post) (some c) ∧ (relUri r).resolve c = some (absUri b ((downSegs T l).dropLast ++ r)) := by
    intro l
    induction l with
    | nil => intro _ r hr; exact ⟨b, hbase, resolve_abs b w bp hb ha hp hT hplain hr⟩
    | cons o l ih =>
      intro hl r hr
      have h' : ∀ R, some R ∈ l → RelSegs R := fun R hR => hl R (by simp [hR])
      cases o with
      | none =>
        obtain ⟨c, h1, h2⟩ := ih h' r hr
        exact ⟨c, .skip none _ _ (.inl rfl) h1, h2⟩
      | some R =>
        have hR := hl R (by simp)
        obtain ⟨c, h1, h2⟩ := ih h' R hR
        obtain ⟨d, t, e, -⟩ := relText hR
        refine ⟨_, .next (joinWith 47 R) _ (relUri R) c _ (by rw [e]; simp) h1 (init_rel hR) h2, ?_⟩
        rw [up_down T l R h']
        have hu := upSegs_rel l R hR h'
        obtain ⟨st, hst⟩ := resolve_init h2
        rw [up_down T l R h'] at hst
        have hsplit : splitAbsPath (47 :: joinWith 47 (T.dropLast ++ upSegs R l)) = some (T.dropLast ++ upSegs R l) := by
          have hmem : ∀ x ∈ T, 47 ∉ x := by
            have hsp : bp = [] ∨ T = (splitOn 47 bp).tail := by
              unfold splitAbsPath at hT
              split at hT
              · exact .inl rfl
              · split at hT
                · exact .inr (Option.some.inj hT).symm
                · cases hT
            rcases hsp with rfl | rfl
            · simp [splitAbsPath] at hT; exact absurd hT.symm (by simpa using hTne)
            · intro x hx
              exact (joinWith_splitOn 47 bp).2 x (List.mem_of_mem_tail hx)
          have hs := splitOn_joinWith 47 ([] :: (T.dropLast ++ upSegs R l)) (by simp) (by
            intro x hx
            rcases List.mem_cons.mp hx with rfl | hx
            · simp
            · rcases List.mem_append.mp hx with hx | hx
              · exact hmem x (List.dropLast_subset _ hx)
              · exact (hu.2.2 x hx).2.2.1)
          have hne : T.dropLast ++ upSegs R l ≠ [] := by
            intro e
            exact hu.1 (by simp [(List.append_eq_nil_iff.mp e).2])
          have hj : joinWith 47 ([] :: (T.dropLast ++ upSegs R l)) = 47 :: joinWith 47 (T.dropLast ++ upSegs R l) := by
            cases hq : T.dropLast ++ upSegs R l with
            | nil => exact absurd hq hne
            | cons y ys => rfl
          rw [hj] at hs
          rw [splitAbsPath, if_pos rfl, hs]
          rfl
        have hpl : Plain (T.dropLast ++ upSegs R l) := by
          intro x hx
          rcases List.mem_append.mp hx with hx | hx
          · exact hplain x (List.dropLast_subset _ hx)
          · exact hu.plain x hx
        have := resolve_abs (absUri b (T.dropLast ++ upSegs R l)) st _ hst (by simpa [absUri, ofParts] using ha) rfl hsplit hpl hr
        rw [this, downSegs, up_down T l R h']
        rfl
  -- bottom-up
  rw [h]
  have split : (∀ o ∈ l, o = none) ∨ ∃ pre r l', l = pre ++ some r :: l' ∧ ∀ o ∈ pre, o = none := by
    clear hl h down
    induction l with
    | nil => exact .inl (by simp)
    | cons o l ih =>
      cases o with
      | some r => exact .inr ⟨[], r, l, rfl, by simp⟩
      | none =>
        rcases ih with ih | ⟨pre, r, l', rfl, ih⟩
        · refine .inl ?_
          intro o ho
          rcases List.mem_cons.mp ho with rfl | ho
          · rfl
          · exact ih o ho
        · refine .inr ⟨none :: pre, r, l', rfl, ?_⟩
          intro o ho
          rcases List.mem_cons.mp ho with rfl | ho
          · rfl
          · exact ih o ho
  have nob : ∀ pre : List (Option (List Str)), (∀ o ∈ pre, o = none) → NoBase (texts pre) := by
    intro pre hpre o ho
    obtain ⟨q, hq, rfl⟩ := List.mem_map.mp ho
    rw [hpre q hq]; exact .inl rfl
  rcases split with hn | ⟨pre, r, l', rfl, hpre⟩
  · refine ⟨b, BaseOf.pre (nob l hn) hbase, ?_⟩
    unfold resolveBase
    rw [h, baseLoop_skip _ _ _ (nob l hn)]
    cases w with
    | nil => exact absurd rfl hwne
    | cons c w =>
      rw [baseLoop_first c w post b hb, baseLoop_absolute b _ hb hbs post hgood]
      rfl
  · have hr := hl r (by simp)
    have hl' : ∀ R, some R ∈ l' → RelSegs R := fun R hR => hl R (by simp [hR])
    obtain ⟨c, hc1, hc2⟩ := down l' hl' r hr
    obtain ⟨st, hst⟩ := resolve_init hc2
    have htx : texts (pre ++ some r :: l') ++ some w :: post =
        texts pre ++ some (joinWith 47 r) :: (texts l' ++ some w :: post) := by simp [texts]
    obtain ⟨d, t, e, -⟩ := relText hr
    refine ⟨absUri b ((downSegs T l').dropLast ++ r), ?_, ?_⟩
    · rw [htx]
      exact BaseOf.pre (nob pre hpre) (.next _ _ (relUri r) c _ (by rw [e]; simp) hc1 (init_rel hr) hc2)
    · unfold resolveBase
      have hi := init_rel hr
      rw [h, htx, baseLoop_skip _ _ _ (nob pre hpre)]
      rw [e] at hi ⊢
      rw [baseLoop_first d t _ _ hi, baseLoop_up _ l' r hr hl']
      rw [up_down T l' r hl'] at hst ⊢
      cases w with
      | nil => exact absurd rfl hwne
      | cons c w =>
        rw [baseLoop_next c w post _ b _ hb (resolve_abs b _ bp hb ha hp hT hplain (upSegs_rel l' r hr hl')),
          baseLoop_absolute _ st hst (by simpa [absUri, ofParts] using hbs) post hgood]
        rfl

/-- "http://h/p/q/r" -/
def wTop : Str := [104, 116, 116, 112, 58, 47, 47, 104, 47, 112, 47, 113, 47, 114]
/-- "http://h/p/a" -/
def wRight : Str := [104, 116, 116, 112, 58, 47, 47, 104, 47, 112, 47, 97]
/-- "http://h/p/q/a" -/
def wWrong : Str := [104, 116, 116, 112, 58, 47, 47, 104, 47, 112, 47, 113, 47, 97]

/-- The text that top-down resolution of three bases gives. -/
def topDown (a b c : Str) : Option Str := do
  let a ← URI.init a
  let b ← URI.init b
  let c ← URI.init c
  let bc ← b.resolve c
  let r ← a.resolve bc
  pure r.str

/-- **C171** (violation): two relative bases are put together first, and `a` in `..` is not seen to be
in the parent directory: the base of `a` in `..` in `http://h/p/q/r` should be `http://h/p/a`, and
`http://h/p/q/a` is returned. -/
theorem C171_base_violation :
    resolveBase ⟨[{ base := some [97] }, { base := some [46, 46] }], some { base := some wTop }⟩ = some (some wWrong) ∧
    topDown [97] [46, 46] wTop = some wRight ∧ wRight ≠ wWrong := by decide +kernel

/-- **C171** (absolute references): an absolute URI is not changed by any base. -/
theorem C171_uri_absolute (p : Place) (s : Str) (u : URI) (hu : URI.init s = some u) (hs : u.scheme.isSome)
    (b : Str) (bu : URI) (hb : resolveBase p = some (some b)) (hbu : URI.init b = some bu) :
    resolveUri p s = some u := by
  unfold resolveUri
  rw [fromOctets, hu]
  simp only [Option.bind_eq_bind, Option.bind_some, hb]
  cases b with
  | nil => rfl
  | cons c b =>
    dsimp only
    rw [fromOctets, hbu]
    exact C42_absolute u bu s hu hs

/-- **C171** (references): a reference in the element is resolved against the base of the element; if
there is none it is not changed. -/
theorem C171_uri (p : Place) (ref : Str) (u : URI) (hu : URI.init ref = some u) :
    (resolveBase p = some none → resolveUri p ref = some u) ∧
    (∀ b bu, resolveBase p = some (some b) → b ≠ [] → URI.init b = some bu → resolveUri p ref = u.resolve bu) := by
  constructor
  · intro h
    unfold resolveUri
    rw [fromOctets, hu]
    simp [h]
  · intro b bu hb hne hbu
    unfold resolveUri
    rw [fromOctets, hu]
    simp only [Option.bind_eq_bind, Option.bind_some, hb]
    cases b with
    | nil => exact absurd rfl hne
    | cons c b =>
      dsimp only
      rw [fromOctets, hbu]
      rfl

/-- `<a xml:lang="en"><b xml:base="x/"/></a>` in a document at http://h/p/q/r -/
def sample : Place :=
  ⟨[{ base := some [120, 47] }, { lang := some [101, 110], space := some [112] }], some { base := some wTop }⟩

example : resolveLang sample = some [101, 110] ∧ resolveSpace sample = .ok (some [112]) ∧
    resolveBase sample = some (some [104, 116, 116, 112, 58, 47, 47, 104, 47, 112, 47, 113, 47, 120, 47]) := by
  decide +kernel

example : bases sample = [] ++ some [120, 47] :: ([none] ++ some wTop :: []) ∧ NoBase [none] ∧
    (∃ r, URI.init [120, 47] = some r ∧ r.scheme = none) ∧
    ∃ b, URI.init wTop = some b ∧ b.scheme.isSome ∧ b.parts.authority.isSome ∧
      b.parts.absPath = some [47, 112, 47, 113, 47, 114] ∧
      (splitAbsPath [47, 112, 47, 113, 47, 114]).isSome :=
  ⟨rfl, by simp [NoBase], ⟨_, rfl, by decide +kernel⟩, ⟨_, rfl, by decide +kernel⟩⟩

/-- "a/b" in "c/" in http://h/p/q/r -/
example : RelSegs [[97], [98]] ∧ RelSegs [[99], []] ∧
    resolveBase ⟨[{ base := some [97, 47, 98] }, {}, { base := some [99, 47] }], some { base := some wTop }⟩ =
      some (some [104, 116, 116, 112, 58, 47, 47, 104, 47, 112, 47, 113, 47, 99, 47, 97, 47, 98]) := by
  have u : ∀ c, isAllowed c = true ∧ c ≠ 37 → Uric isAllowed [c] := fun c h => ⟨[.lit c], by simpa [Item.Ok] using h, rfl⟩
  refine ⟨⟨by simp, by simp, ?_⟩, ⟨by simp, by simp, ?_⟩, by decide +kernel⟩
  · intro w hw
    simp only [List.mem_cons, List.not_mem_nil, or_false] at hw
    rcases hw with rfl | rfl
    · exact ⟨by decide, by decide, by decide, by decide, by decide, u 97 (by decide)⟩
    · exact ⟨by decide, by decide, by decide, by decide, by decide, u 98 (by decide)⟩
  · intro w hw
    simp only [List.mem_cons, List.not_mem_nil, or_false] at hw
    rcases hw with rfl | rfl
    · exact ⟨by decide, by decide, by decide, by decide, by decide, u 99 (by decide)⟩
    · exact ⟨by decide, by decide, by decide, by decide, by decide, .nil _⟩

end Verif.Dom.Inherit

import Verif.Xml.Attrs
import Mathlib.Data.List.Nodup
import Mathlib.Data.List.Induction
/-!
# C149: theorems about attributes and their declarations
-/
namespace Verif.Xml.Attrs

/-! ## Specification -/

/-- The maximal runs of characters other than spaces. -/
def words : Str → List Str
  | [] => []
  | c :: cs => if c = 32 then words cs else (c :: cs.takeWhile (· ≠ 32)) :: words (cs.dropWhile (· ≠ 32))
termination_by s => s.length
decreasing_by
  · simp
  · have := (List.dropWhile_sublist (fun x : Nat => decide (x ≠ 32)) (l := cs)).length_le
    simp only [List.length_cons]
    omega

/-- Normalised: the words, separated by single spaces. -/
def normal (s : Str) : Str := List.intercalate [32] (words s)

/-- Production [5] Name. -/
def Name (E : Env) (s : Str) : Prop := ∃ c cs, s = c :: cs ∧ E.nameStart c = true ∧ ∀ x ∈ cs, E.nameChar x = true

/-- Production [7] Nmtoken. -/
def Nmtoken (E : Env) (s : Str) : Prop := s ≠ [] ∧ ∀ x ∈ s, E.nameChar x = true

/-- The declared default value. -/
def dflt (d : AttDef) : Str := if d.ty = .cdata then d.lit else normal d.lit

/-- The attribute has a declaration with a type other than CDATA. -/
def Tokenized (alist : List AttDef) (a : Str) : Prop := ∃ d ∈ alist, d.name = a ∧ d.ty ≠ .cdata

instance (alist : List AttDef) (a : Str) : Decidable (Tokenized alist a) := by unfold Tokenized; infer_instance

/-- The attributes the application is to see: those given, with normalised values unless they are of type CDATA, and the defaults of those
not given. -/
def seen (alist : List AttDef) (as : List (Str × Str)) : List (Str × Str) :=
  as.map (fun p => (p.1, if Tokenized alist p.1 then normal p.2 else p.2)) ++
    (alist.filter fun d => d.presence = .default ∧ d.name ∉ as.map (·.1)).map fun d => (d.name, dflt d)

/-- The value constraints of the types. -/
def TypeOk (E : Env) (d : AttDef) (v : Str) : Prop := match d.ty with
  | .cdata => True
  | .id | .idref => Name E v
  | .idrefs => words v ≠ [] ∧ ∀ w ∈ words v, Name E w
  | .entity => Name E v ∧ E.entity v = some true
  | .entities => words v ≠ [] ∧ ∀ w ∈ words v, Name E w ∧ E.entity w = some true
  | .nmtoken => Nmtoken E v
  | .nmtokens => words v ≠ [] ∧ ∀ w ∈ words v, Nmtoken E w
  | .notation | .enumeration => v ∈ d.values

/-- The validity constraints on the attributes of an element. -/
structure ValidEl (E : Env) (alist : List AttDef) (as : List (Str × Str)) : Prop where
  required : ∀ d ∈ alist, d.presence = .required → ∃ v, (d.name, v) ∈ as
  declared : ∀ p ∈ as, ∃ d ∈ alist, d.name = p.1
  typed : ∀ d ∈ alist, ∀ v, (d.name, v) ∈ seen alist as → TypeOk E d v
  fixed : ∀ d ∈ alist, d.presence = .fixed → ∀ v, (d.name, v) ∈ seen alist as → v = dflt d
  standalone : E.standalone = true → ∀ d ∈ alist, d.external = true → (d.presence = .default → ∃ v, (d.name, v) ∈ as) ∧
    (d.ty ≠ .cdata → ∀ v, (d.name, v) ∈ as → normal v = v)

/-- The IDs among some attributes. -/
def idsOf (alist : List AttDef) (as : List (Str × Str)) : List Str :=
  (as.filter fun p => ∃ d ∈ alist, d.name = p.1 ∧ d.ty = .id).map (·.2)

/-- The references to IDs. -/
def refsOf (alist : List AttDef) (as : List (Str × Str)) : List Str :=
  as.flatMap fun p => (if ∃ d ∈ alist, d.name = p.1 ∧ d.ty = .idref then [p.2] else []) ++
    (if ∃ d ∈ alist, d.name = p.1 ∧ d.ty = .idrefs then words p.2 else [])

/-- The table of declarations after a number of them. -/
def table (decls : List (Str × AttDef)) : List (Str × List AttDef) := decls.foldl (fun t p => declareAttr t p.1 p.2) []

/-- The validity constraints on the attributes of a document. -/
structure ValidDoc (E : Env) (t : List (Str × List AttDef)) (doc : List (Str × List (Str × Str))) : Prop where
  elements : ∀ e ∈ doc, ValidEl E (attrList t e.1) e.2
  ids : (doc.flatMap fun e => idsOf (attrList t e.1) (seen (attrList t e.1) e.2)).Nodup
  refs : ∀ e ∈ doc, ∀ r ∈ refsOf (attrList t e.1) (seen (attrList t e.1) e.2), ∃ e' ∈ doc, r ∈ idsOf (attrList t e'.1) (seen (attrList t e'.1) e'.2)

/-- A start tag has no two attributes with the same name. -/
def WellFormed (doc : List (Str × List (Str × Str))) : Prop := ∀ e ∈ doc, (e.2.map (·.1)).Nodup

/-! ## Normalisation -/

theorem words_nil : words [] = [] := by rw [words]

theorem words_cons (c : Nat) (cs : Str) : words (c :: cs) = if c = 32 then words cs else (c :: cs.takeWhile (· ≠ 32)) :: words (cs.dropWhile (· ≠ 32)) := by
  rw [words]

theorem normLoop_zero (s : Str) : normLoop 0 s = s.takeWhile (· ≠ 32) ++ normLoop 1 (s.dropWhile (· ≠ 32)) := by
  induction s with
  | nil => simp [normLoop]
  | cons c cs ih =>
    by_cases h : c = 32
    · subst h; simp [normLoop]
    · rw [normLoop, if_neg h, ih]
      simp [h]

theorem normLoop_one : ∀ (n : Nat) (s : Str), s.length < n → normLoop 1 s = (words s).flatMap fun w => 32 :: w := by
  intro n
  induction n with
  | zero => intro s h; omega
  | succ n ih =>
    intro s h
    cases s with
    | nil => simp [normLoop, words_nil]
    | cons c cs =>
      rw [words_cons]
      simp only [List.length_cons] at h
      by_cases hc : c = 32
      · subst hc
        rw [normLoop, if_pos rfl, if_pos rfl]
        exact ih cs (by omega)
      · rw [normLoop, if_neg hc, if_neg hc, if_pos rfl, normLoop_zero, ih _ (by
          have := (List.dropWhile_sublist (fun x : Nat => decide (x ≠ 32)) (l := cs)).length_le
          omega)]
        simp

theorem intercalate_cons (w : Str) (ws : List Str) : List.intercalate [32] (w :: ws) = w ++ ws.flatMap fun w => 32 :: w := by
  induction ws generalizing w with
  | nil => simp [List.intercalate]
  | cons v ws ih =>
    have : List.intercalate [32] (w :: v :: ws) = w ++ 32 :: List.intercalate [32] (v :: ws) := by simp [List.intercalate]
    rw [this, ih]
    simp

theorem normSpace_eq (s : Str) : normSpace s = normal s := by
  unfold normSpace normal
  induction s with
  | nil => simp [normLoop, words_nil, List.intercalate]
  | cons c cs ih =>
    rw [words_cons]
    by_cases hc : c = 32
    · subst hc
      rw [normLoop, if_pos rfl, if_pos rfl]
      exact ih
    · rw [normLoop, if_neg hc, if_neg hc, intercalate_cons, normLoop_zero, normLoop_one _ _ (Nat.lt_succ_self _)]
      simp

theorem takeWhile_ne {l : Str} {x : Nat} (h : x ∈ l.takeWhile (· ≠ 32)) : x ≠ 32 := by
  induction l with
  | nil => simp at h
  | cons y l ih =>
    rw [List.takeWhile_cons] at h
    split at h
    · next hy =>
      rcases List.mem_cons.mp h with rfl | h
      · simpa using hy
      · exact ih h
    · simp at h

theorem words_good : ∀ (n : Nat) (s : Str), s.length < n → ∀ w ∈ words s, w ≠ [] ∧ ∀ c ∈ w, c ≠ 32 := by
  intro n
  induction n with
  | zero => intro s h; omega
  | succ n ih =>
    intro s h
    cases s with
    | nil => simp [words_nil]
    | cons c cs =>
      rw [words_cons]
      simp only [List.length_cons] at h
      have hl := (List.dropWhile_sublist (fun x : Nat => decide (x ≠ 32)) (l := cs)).length_le
      split
      · exact ih cs (by omega)
      · next hc =>
        intro w hw
        rcases List.mem_cons.mp hw with rfl | hw
        · refine ⟨by simp, ?_⟩
          intro x hx
          rcases List.mem_cons.mp hx with rfl | hx
          · exact hc
          · exact takeWhile_ne hx
        · exact ih _ (by omega) w hw

theorem span_word {w r : Str} (h : ∀ c ∈ w, c ≠ 32) (hr : r = [] ∨ ∃ r', r = 32 :: r') :
    (w ++ r).takeWhile (· ≠ 32) = w ∧ (w ++ r).dropWhile (· ≠ 32) = r := by
  induction w with
  | nil => rcases hr with rfl | ⟨r', rfl⟩ <;> simp
  | cons c w ih =>
    have h1 := h c (by simp)
    obtain ⟨h2, h3⟩ := ih fun x hx => h x (by simp [hx])
    simp only [List.cons_append]
    rw [List.takeWhile_cons_of_pos (by simpa using h1), List.dropWhile_cons_of_pos (by simpa using h1), h2, h3]
    exact ⟨rfl, rfl⟩

theorem words_flat : ∀ (ws : List Str), (∀ w ∈ ws, w ≠ [] ∧ ∀ c ∈ w, c ≠ 32) → words (ws.flatMap fun w => 32 :: w) = ws := by
  intro ws
  induction ws with
  | nil => intro _; simp [words_nil]
  | cons w ws ih =>
    intro h
    obtain ⟨h1, h2⟩ := h w (by simp)
    have h3 := ih fun x hx => h x (by simp [hx])
    rw [List.flatMap_cons, List.cons_append, words_cons, if_pos rfl]
    cases w with
    | nil => exact absurd rfl h1
    | cons c w =>
      rw [List.cons_append, words_cons, if_neg (h2 c (by simp))]
      obtain ⟨e1, e2⟩ := span_word (w := w) (r := ws.flatMap fun w => 32 :: w) (fun x hx => h2 x (by simp [hx])) (by
        cases ws with
        | nil => exact .inl (by simp)
        | cons v ws => exact .inr ⟨_, by rw [List.flatMap_cons, List.cons_append]⟩)
      rw [e1, e2, h3]

theorem words_join {ws : List Str} (h : ∀ w ∈ ws, w ≠ [] ∧ ∀ c ∈ w, c ≠ 32) : words (List.intercalate [32] ws) = ws := by
  cases ws with
  | nil => simp [List.intercalate, words_nil]
  | cons w ws =>
    have := words_flat (w :: ws) h
    rw [List.flatMap_cons, List.cons_append, words_cons, if_pos rfl] at this
    rw [intercalate_cons]
    exact this

theorem split_word {w : Str} (h : ∀ c ∈ w, c ≠ 32) : split w = [w] := by
  induction w with
  | nil => rfl
  | cons c w ih =>
    rw [split, if_neg (h c (by simp)), ih fun x hx => h x (by simp [hx])]

theorem split_append {w r : Str} (h : ∀ c ∈ w, c ≠ 32) : split (w ++ 32 :: r) = w :: split r := by
  induction w with
  | nil => simp [split]
  | cons c w ih =>
    rw [List.cons_append, split, if_neg (h c (by simp)), ih fun x hx => h x (by simp [hx])]

theorem split_join : ∀ (ws : List Str), ws ≠ [] → (∀ w ∈ ws, w ≠ [] ∧ ∀ c ∈ w, c ≠ 32) → split (List.intercalate [32] ws) = ws := by
  intro ws
  induction ws with
  | nil => intro h; exact absurd rfl h
  | cons w ws ih =>
    intro _ h
    cases ws with
    | nil => simpa [List.intercalate] using split_word (h w (by simp)).2
    | cons v ws =>
      have : List.intercalate [32] (w :: v :: ws) = w ++ 32 :: List.intercalate [32] (v :: ws) := by simp [List.intercalate]
      rw [this, split_append (h w (by simp)).2, ih (by simp) fun x hx => h x (by simp [hx])]

/-- What the parser gets from splitting a normalised value. -/
theorem split_normal {v u : Str} (hv : v = normal u) : split v = if words v = [] then [[]] else words v := by
  have hg := words_good _ u (Nat.lt_succ_self _)
  have hw : words v = words u := by rw [hv]; exact words_join hg
  rw [hw, hv]
  unfold normal
  split
  · next h => rw [h]; rfl
  · next h => exact split_join _ h hg

/-! ## The checks -/

theorem isName_iff (E : Env) (s : Str) : isName E s = true ↔ Name E s := by
  cases s with
  | nil => simp [isName, Name]
  | cons c cs =>
    simp only [isName, Bool.and_eq_true, List.all_eq_true, Name]
    constructor
    · rintro ⟨h1, h2⟩; exact ⟨c, cs, rfl, h1, h2⟩
    · rintro ⟨c', cs', h, h1, h2⟩; cases h; exact ⟨h1, h2⟩

theorem isNmtoken_iff (E : Env) (s : Str) : isNmtoken E s = true ↔ Nmtoken E s := by
  cases s <;> simp [isNmtoken, Nmtoken]

/-- What a step does: no error exactly if `ok` and the new IDs are new. -/
structure Step (s s' : St) (ok : Prop) (i r : List Str) : Prop where
  errs : s.ids.Nodup → (s'.errs = [] ↔ s.errs = [] ∧ ok ∧ (s.ids ++ i).Nodup)
  ids : s.ids.Nodup → s'.errs = [] → s'.ids = s.ids ++ i
  nodup : s.ids.Nodup → s'.ids.Nodup
  refs : s.ids.Nodup → s'.errs = [] → ∀ x, x ∈ s'.refs ↔ x ∈ s.refs ∨ x ∈ r

theorem Step.refl (s : St) : Step s s True [] [] := ⟨by intro h; simp [h], by simp, id, by simp⟩

theorem Step.trans {s s1 s2 : St} {p q : Prop} {i j r t : List Str} (h1 : Step s s1 p i r) (h2 : Step s1 s2 q j t) : Step s s2 (p ∧ q) (i ++ j) (r ++ t) := by
  refine ⟨?_, ?_, fun h => h2.nodup (h1.nodup h), ?_⟩
  · intro h
    rw [h2.errs (h1.nodup h), h1.errs h]
    constructor
    · rintro ⟨⟨a, b, c⟩, d, e⟩
      rw [h1.ids h ((h1.errs h).mpr ⟨a, b, c⟩), List.append_assoc] at e
      exact ⟨a, ⟨b, d⟩, e⟩
    · rintro ⟨a, ⟨b, d⟩, e⟩
      have c : (s.ids ++ i).Nodup := by rw [← List.append_assoc] at e; exact (List.nodup_append.mp e).1
      refine ⟨⟨a, b, c⟩, d, ?_⟩
      rw [h1.ids h ((h1.errs h).mpr ⟨a, b, c⟩), List.append_assoc]
      exact e
  · intro h e
    have e1 := ((h2.errs (h1.nodup h)).mp e).1
    rw [h2.ids (h1.nodup h) e, h1.ids h e1, List.append_assoc]
  · intro h e x
    have e1 := ((h2.errs (h1.nodup h)).mp e).1
    rw [h2.refs (h1.nodup h) e, h1.refs h e1, List.mem_append, or_assoc]

theorem Step.congr {s s' : St} {p q : Prop} {i j r t : List Str} (h : Step s s' p i r) (hp : p ↔ q) (hi : i = j) (hr : q → ∀ x, x ∈ r ↔ x ∈ t) : Step s s' q j t := by
  subst hi
  have : p = q := propext hp
  subst this
  exact ⟨h.errs, h.ids, h.nodup, fun hn e x => by rw [h.refs hn e, hr ((h.errs hn).mp e).2.1]⟩

theorem step_add (s : St) (b : Bool) (e : Err) : Step s (s.add b e) (b = false) [] [] := by
  unfold St.add
  cases b
  · exact (Step.refl s).congr (by simp) rfl (by simp)
  · refine ⟨by intro _; simp, ?_, fun h => h, by simp⟩
    intro _ h
    simp at h

theorem step_fold {α : Type} {f : St → α → St} {ok : α → Prop} {r : α → List Str} (h : ∀ s a, Step s (f s a) (ok a) [] (r a)) : ∀ (l : List α) (s : St),
    Step s (l.foldl f s) (∀ a ∈ l, ok a) [] (l.flatMap r) := by
  intro l
  induction l with
  | nil => intro s; exact (Step.refl s).congr (by simp) rfl (by simp)
  | cons a l ih =>
    intro s
    exact ((h s a).trans (ih (f s a))).congr (by simp) rfl (by simp)

theorem step_ref (E : Env) (s : St) (v : Str) : Step s (refStep E s v) (Name E v) [] [v] := by
  have h1 := step_add s (!isName E v) .refName
  unfold refStep
  dsimp only
  generalize hs1 : s.add (!isName E v) .refName = s1 at *
  refine ⟨?_, ?_, ?_, ?_⟩
  · intro h
    rw [← isName_iff]
    have := h1.errs h
    simpa using this
  · intro h e; exact h1.ids h e
  · intro h; exact h1.nodup h
  · intro h e x
    have := h1.refs h e x
    have hv := h1.refs h e v
    by_cases hc : s1.refs.contains v = true
    · dsimp only
      rw [if_pos hc, this]
      have hm : v ∈ s1.refs := by simpa using hc
      constructor
      · rintro (h | h)
        · exact .inl h
        · cases h
      · rintro (h | h)
        · exact .inl h
        · rw [List.mem_singleton] at h
          subst h
          exact .inl (by simpa using hv.mp hm)
    · dsimp only
      rw [if_neg hc, List.mem_append, this]
      simp

theorem step_ent (E : Env) (s : St) (v : Str) : Step s (entStep E s v) (Name E v ∧ E.entity v = some true) [] [] := by
  have h1 := step_add s (!isName E v) .entName
  unfold entStep
  dsimp only
  cases he : E.entity v with
  | none => exact (h1.trans (step_add _ true .entUndeclared)).congr (by simp) rfl (by simp)
  | some u => exact (h1.trans (step_add _ (!u) .entParsed)).congr (by rw [← isName_iff]; simp) rfl (by simp)

theorem step_id (E : Env) (s : St) (v : Str) : Step s (idStep E s v) (Name E v) [v] [] := by
  have h1 := step_add s (!isName E v) .idName
  have hids : (s.add (!isName E v) .idName).ids = s.ids := by unfold St.add; split <;> rfl
  have hname : (!isName E v) = false ↔ Name E v := by rw [← isName_iff]; simp
  unfold idStep
  dsimp only
  generalize hs1 : s.add (!isName E v) .idName = s1 at *
  by_cases hc : s1.ids.contains v = true
  · rw [if_pos hc]
    have hm : v ∈ s.ids := by rw [hids] at hc; simpa using hc
    have h2 := step_add s1 true .idUsed
    refine ⟨?_, ?_, ?_, ?_⟩
    · intro h
      have hne : ¬ (s1.add true .idUsed).errs = [] := by simp [St.add]
      constructor
      · intro e; exact absurd e hne
      · rintro ⟨-, -, h3⟩
        exact absurd rfl ((List.nodup_append.mp h3).2.2 v hm v (by simp))
    · intro h e; simp [St.add] at e
    · intro h; exact h2.nodup (h1.nodup h)
    · intro h e; simp [St.add] at e
  · rw [if_neg hc]
    have hm : v ∉ s.ids := by rw [hids] at hc; simpa using hc
    have hnd : s.ids.Nodup → (s.ids ++ [v]).Nodup := by
      intro h
      refine List.nodup_append.mpr ⟨h, by simp, ?_⟩
      rintro a ha b hb rfl
      rw [List.mem_singleton] at hb
      subst hb
      exact hm ha
    refine ⟨?_, ?_, ?_, ?_⟩
    · intro h
      dsimp only
      rw [h1.errs h, hname]
      simp [hnd h, h]
    · intro h e; dsimp only; rw [hids]
    · intro h; dsimp only; rw [hids]; exact hnd h
    · intro h e; dsimp only at e ⊢; exact h1.refs h e

/-- The declaration of an attribute, if names are declared once. -/
theorem find_decl {alist : List AttDef} (hn : (alist.map (·.name)).Nodup) {d : AttDef} (hd : d ∈ alist) : alist.find? (·.name == d.name) = some d := by
  induction alist with
  | nil => cases hd
  | cons e l ih =>
    rw [List.map_cons, List.nodup_cons] at hn
    rcases List.mem_cons.mp hd with rfl | hd
    · simp
    · have : e.name ≠ d.name := by intro h; rw [h] at hn; exact hn.1 (List.mem_map_of_mem hd)
      rw [List.find?_cons_of_neg (by simpa using this)]
      exact ih hn.2 hd

theorem decl_unique {alist : List AttDef} (hn : (alist.map (·.name)).Nodup) {d e : AttDef} (hd : d ∈ alist) (he : e ∈ alist) (h : d.name = e.name) : d = e := by
  have h1 := find_decl hn hd
  have h2 := find_decl hn he
  rw [h] at h1
  rw [h1] at h2
  exact Option.some.inj h2

/-- Every value of a tokenized type is normalised. -/
def Norm (alist : List AttDef) (p : Str × Str) : Prop := Tokenized alist p.1 → ∃ u, p.2 = normal u

theorem step_val (E : Env) {alist : List AttDef} (hn : (alist.map (·.name)).Nodup) (s : St) (p : Str × Str) (hp : Norm alist p) :
    Step s (valStep E alist s p) ((∃ d ∈ alist, d.name = p.1) ∧ ∀ d ∈ alist, d.name = p.1 → TypeOk E d p.2) (idsOf alist [p]) (refsOf alist [p]) := by
  unfold valStep
  cases hf : alist.find? (·.name == p.1) with
  | none =>
    have hno : ∀ d ∈ alist, d.name ≠ p.1 := by
      intro d hd
      have := List.find?_eq_none.mp hf d hd
      simpa using this
    refine (step_add s true .undeclared).congr ?_ ?_ ?_
    · constructor
      · intro h; cases h
      · rintro ⟨⟨d, hd, h⟩, -⟩; exact absurd h (hno d hd)
    · unfold idsOf
      rw [List.filter_cons_of_neg]
      · rfl
      · simp only [decide_eq_true_eq]
        rintro ⟨d, hd, h, -⟩; exact hno d hd h
    · intro _ x
      unfold refsOf
      rw [List.flatMap_cons, if_neg, if_neg]
      · simp
      · rintro ⟨d, hd, h, -⟩; exact hno d hd h
      · rintro ⟨d, hd, h, -⟩; exact hno d hd h
  | some d =>
    have hd := List.mem_of_find?_eq_some hf
    have hname : d.name = p.1 := by simpa using List.find?_some hf
    have hall : ((∃ d ∈ alist, d.name = p.1) ∧ ∀ d ∈ alist, d.name = p.1 → TypeOk E d p.2) ↔ TypeOk E d p.2 := by
      constructor
      · rintro ⟨-, h⟩; exact h d hd hname
      · intro h
        refine ⟨⟨d, hd, hname⟩, ?_⟩
        intro e he h'
        rw [decl_unique hn he hd (h'.trans hname.symm)]
        exact h
    have hty : ∀ t, (∃ e ∈ alist, e.name = p.1 ∧ e.ty = t) ↔ d.ty = t := by
      intro t
      constructor
      · rintro ⟨e, he, h1, h2⟩; rw [← decl_unique hn he hd (h1.trans hname.symm)]; exact h2
      · intro h; exact ⟨d, hd, hname, h⟩
    have hids : idsOf alist [p] = if d.ty = .id then [p.2] else [] := by
      unfold idsOf
      rw [List.filter_cons]
      simp only [hty]
      by_cases h : d.ty = .id
      · simp [h]
      · simp [h]
    have hrefs : refsOf alist [p] = (if d.ty = .idref then [p.2] else []) ++ (if d.ty = .idrefs then words p.2 else []) := by
      unfold refsOf
      rw [List.flatMap_cons]
      simp only [hty]
      simp
    rw [hids, hrefs]
    have htok : d.ty ≠ .cdata → split p.2 = if words p.2 = [] then [[]] else words p.2 := by
      intro h
      obtain ⟨u, hu⟩ := hp ⟨d, hd, hname, h⟩
      exact split_normal hu
    have hempty : ∀ (P : Str → Prop), ¬ P [] → ((∀ w ∈ (if words p.2 = [] then [[]] else words p.2), P w) ↔ (words p.2 ≠ [] ∧ ∀ w ∈ words p.2, P w)) := by
      intro P hP
      split
      · next h => simp [h, hP]
      · next h => simp [h]
    have hnn : ¬ Name E [] := by rintro ⟨c, cs, h, -⟩; cases h
    have hnt : ¬ Nmtoken E [] := fun h => h.1 rfl
    dsimp only
    cases ht : d.ty with
    | cdata =>
      refine (Step.refl s).congr ?_ ?_ ?_
      rotate_left
      · simp [ht]
      · simp [ht]
      rw [hall]; simp [TypeOk, ht]
    | id =>
      refine (step_id E s p.2).congr ?_ ?_ ?_
      rotate_left
      · simp [ht]
      · simp [ht]
      rw [hall]; simp [TypeOk, ht]
    | idref =>
      refine (step_ref E s p.2).congr ?_ ?_ ?_
      rotate_left
      · simp [ht]
      · simp [ht]
      rw [hall]; simp [TypeOk, ht]
    | idrefs =>
      refine (step_fold (fun s a => step_ref E s a) (split p.2) s).congr ?_ ?_ ?_
      rotate_left
      · simp [ht]
      rotate_left
      · rw [hall, htok (by rw [ht]; simp), hempty _ hnn]; simp [TypeOk, ht]
      · rintro ⟨-, hq⟩ x
        have := (hq d hd hname)
        simp only [TypeOk, ht] at this
        rw [htok (by rw [ht]; simp), if_neg this.1]
        simp
    | entity =>
      refine (step_ent E s p.2).congr ?_ ?_ ?_
      rotate_left
      · simp [ht]
      · simp [ht]
      rw [hall]; simp [TypeOk, ht]
    | entities =>
      refine (step_fold (fun s a => step_ent E s a) (split p.2) s).congr ?_ ?_ ?_
      rotate_left
      · simp [ht]
      · simp [ht]
      rw [hall, htok (by rw [ht]; simp), hempty _ (fun h => hnn h.1)]; simp [TypeOk, ht]
    | nmtoken =>
      refine (step_add s _ _).congr ?_ ?_ ?_
      rotate_left
      · simp [ht]
      · simp [ht]
      rw [hall]; simp only [TypeOk, ht]; rw [← isNmtoken_iff]; simp
    | nmtokens =>
      refine (step_fold (fun s a => step_add s (!isNmtoken E a) .nmtoken) (split p.2) s).congr ?_ ?_ ?_
      rotate_left
      · simp [ht]
      · simp [ht]
      rw [hall, htok (by rw [ht]; simp)]
      simp only [TypeOk, ht]
      rw [← hempty _ hnt]
      simp only [← isNmtoken_iff, Bool.not_eq_false']
    | «notation» =>
      refine (step_add s _ _).congr ?_ ?_ ?_
      rotate_left
      · simp [ht]
      · simp [ht]
      rw [hall]; simp [TypeOk, ht]
    | enumeration =>
      refine (step_add s _ _).congr ?_ ?_ ?_
      rotate_left
      · simp [ht]
      · simp [ht]
      rw [hall]; simp [TypeOk, ht]

theorem idsOf_append (alist : List AttDef) (a b : List (Str × Str)) : idsOf alist (a ++ b) = idsOf alist a ++ idsOf alist b := by
  simp [idsOf]

theorem refsOf_append (alist : List AttDef) (a b : List (Str × Str)) : refsOf alist (a ++ b) = refsOf alist a ++ refsOf alist b := by
  simp [refsOf]

theorem step_vals (E : Env) {alist : List AttDef} (hn : (alist.map (·.name)).Nodup) : ∀ (l : List (Str × Str)) (s : St), (∀ p ∈ l, Norm alist p) →
    Step s (l.foldl (valStep E alist) s) (∀ p ∈ l, (∃ d ∈ alist, d.name = p.1) ∧ ∀ d ∈ alist, d.name = p.1 → TypeOk E d p.2) (idsOf alist l) (refsOf alist l) := by
  intro l
  induction l with
  | nil => intro s _; exact (Step.refl s).congr (by simp) rfl (by simp [refsOf])
  | cons p l ih =>
    intro s h
    have h1 := step_val E hn s p (h p (by simp))
    have h2 := ih (valStep E alist s p) fun q hq => h q (by simp [hq])
    refine (h1.trans h2).congr (by simp) ?_ ?_
    · rw [← idsOf_append]; rfl
    · intro _ x; rw [← refsOf_append]; rfl

/-! ## The first loop -/

theorem getAttr_some {as : List (Str × Str)} (hk : (as.map (·.1)).Nodup) {a v : Str} : getAttr as a = some v ↔ (a, v) ∈ as := by
  unfold getAttr
  induction as with
  | nil => simp
  | cons p as ih =>
    obtain ⟨b, w⟩ := p
    rw [List.map_cons, List.nodup_cons] at hk
    by_cases h : b = a
    · subst h
      rw [List.find?_cons_of_pos (by simp)]
      simp only [Option.map_some, Option.some.injEq, List.mem_cons, Prod.mk.injEq, true_and]
      constructor
      · intro h; exact .inl h.symm
      · rintro (h | h)
        · exact h.symm
        · exact absurd (List.mem_map_of_mem (f := (·.1)) h) hk.1
    · rw [List.find?_cons_of_neg (by simpa using h), ih hk.2]
      simp [Ne.symm h]

theorem getAttr_none {as : List (Str × Str)} {a : Str} : getAttr as a = none ↔ a ∉ as.map (·.1) := by
  unfold getAttr
  rw [Option.map_eq_none_iff, List.find?_eq_none]
  constructor
  · intro h hm
    obtain ⟨p, hp, rfl⟩ := List.mem_map.mp hm
    exact h p hp (by simp)
  · intro h p hp
    have : p.1 ≠ a := by rintro rfl; exact h (List.mem_map_of_mem hp)
    simpa using this

theorem setAttr_given {as : List (Str × Str)} {a v : Str} (h : a ∈ as.map (·.1)) : setAttr as a v = as.map fun p => (p.1, if p.1 = a then v else p.2) := by
  unfold setAttr
  rw [if_pos]
  · refine List.map_congr_left ?_
    intro p _
    by_cases hp : p.1 = a
    · simp [hp]
    · simp [hp]
  · obtain ⟨p, hp, rfl⟩ := List.mem_map.mp h
    exact List.any_eq_true.mpr ⟨p, hp, by simp⟩

theorem setAttr_new {as : List (Str × Str)} {a v : Str} (h : a ∉ as.map (·.1)) : setAttr as a v = as ++ [(a, v)] := by
  unfold setAttr
  rw [if_neg]
  intro h'
  obtain ⟨p, hp, e⟩ := List.any_eq_true.mp h'
  have : p.1 = a := by simpa using e
  subst this
  exact h (List.mem_map_of_mem hp)

/-- The attributes after one declaration. -/
def afterDecl (as : List (Str × Str)) (d : AttDef) : List (Str × Str) :=
  match getAttr as d.name with
  | none => if d.presence = .default then as ++ [(d.name, dflt d)] else as
  | some v => if d.ty = .cdata then as else setAttr as d.name (normal v)

/-- The constraints one declaration makes; that on fixed values as the parser has it. -/
def DeclOk (E : Env) (d : AttDef) (v : Option Str) : Prop :=
  (d.presence = .required → v ≠ none) ∧ (E.standalone = true → d.external = true → (d.presence = .default → v ≠ none) ∧ (d.ty ≠ .cdata → ∀ w, v = some w → normal w = w)) ∧
  (d.presence = .fixed → v = some (dflt d))

theorem value_eq (d : AttDef) : d.value = dflt d := by
  unfold AttDef.value dflt
  rw [normSpace_eq]

theorem declStep_eq (E : Env) (as : List (Str × Str)) (s : St) (d : AttDef) :
    (declStep E (as, s) d).1 = afterDecl as d ∧ Step s (declStep E (as, s) d).2 (DeclOk E d (getAttr as d.name)) [] [] := by
  unfold declStep afterDecl
  dsimp only
  rw [value_eq]
  cases hv : getAttr as d.name with
  | none =>
    have hnew := getAttr_none.mp hv
    by_cases hp : d.presence = .default
    · rw [if_pos hp, if_pos hp]
      refine ⟨setAttr_new hnew, ?_⟩
      refine ((step_add s (E.standalone && d.external) .standaloneDefault).trans (step_add _ _ .fixed)).congr ?_ rfl (by simp)
      simp [DeclOk, hp]
    · rw [if_neg hp, if_neg hp]
      refine ⟨rfl, ?_⟩
      refine ((step_add s (d.presence == .required) .required).trans (step_add _ _ .fixed)).congr ?_ rfl (by simp)
      simp [DeclOk, hp]
  | some v =>
    dsimp only
    by_cases hc : d.ty = .cdata
    · rw [if_pos hc, if_pos hc]
      refine ⟨rfl, ?_⟩
      refine (step_add _ _ .fixed).congr ?_ rfl (by simp)
      simp [DeclOk, hc]
    · rw [if_neg hc, if_neg hc, normSpace_eq]
      refine ⟨rfl, ?_⟩
      refine ((step_add s (E.standalone && d.external && normal v != v) .standaloneNormal).trans (step_add _ _ .fixed)).congr ?_ rfl (by simp)
      simp [DeclOk, hc]

theorem afterDecl_keys (as : List (Str × Str)) (d : AttDef) (hk : (as.map (·.1)).Nodup) : ((afterDecl as d).map (·.1)).Nodup := by
  unfold afterDecl
  cases hv : getAttr as d.name with
  | none =>
    dsimp only
    split
    · rw [List.map_append, List.nodup_append]
      refine ⟨hk, by simp, ?_⟩
      rintro a ha b hb rfl
      simp only [List.map_cons, List.map_nil, List.mem_singleton] at hb
      subst hb
      exact getAttr_none.mp hv ha
    · exact hk
  | some v =>
    dsimp only
    split
    · exact hk
    · have : d.name ∈ as.map (·.1) := List.mem_map_of_mem ((getAttr_some hk).mp hv)
      rw [setAttr_given this, List.map_map]
      exact hk

theorem afterDecl_get (as : List (Str × Str)) (d : AttDef) (hk : (as.map (·.1)).Nodup) {a : Str} (h : a ≠ d.name) : getAttr (afterDecl as d) a = getAttr as a := by
  have key : ∀ v, getAttr (afterDecl as d) a = some v ↔ getAttr as a = some v := by
    intro v
    rw [getAttr_some (afterDecl_keys as d hk), getAttr_some hk]
    unfold afterDecl
    cases hv : getAttr as d.name with
    | none =>
      dsimp only
      split
      · simp [h]
      · rfl
    | some w =>
      dsimp only
      split
      · rfl
      · have : d.name ∈ as.map (·.1) := List.mem_map_of_mem ((getAttr_some hk).mp hv)
        rw [setAttr_given this, List.mem_map]
        constructor
        · rintro ⟨p, hp, e⟩
          simp only [Prod.mk.injEq] at e
          obtain ⟨rfl, e⟩ := e
          rw [if_neg h] at e
          rw [← e]; exact hp
        · intro hm; exact ⟨(a, v), hm, by simp [h]⟩
  cases h1 : getAttr as a with
  | none =>
    cases h2 : getAttr (afterDecl as d) a with
    | none => rfl
    | some v => rw [(key v).mp h2] at h1; cases h1
  | some v => exact (key v).mpr h1

theorem tokenized_cons {d : AttDef} {ds : List AttDef} {a : Str} (h : a ≠ d.name) : Tokenized (d :: ds) a ↔ Tokenized ds a := by
  simp [Tokenized, Ne.symm h]

theorem seen_cons {d : AttDef} {ds : List AttDef} (hn : ((d :: ds).map (·.name)).Nodup) {as : List (Str × Str)} (hk : (as.map (·.1)).Nodup) :
    seen ds (afterDecl as d) = seen (d :: ds) as := by
  rw [List.map_cons, List.nodup_cons] at hn
  have hnot : ¬ Tokenized ds d.name := by
    rintro ⟨e, he, h, -⟩
    exact hn.1 (h ▸ List.mem_map_of_mem he)
  have htok : Tokenized (d :: ds) d.name ↔ d.ty ≠ .cdata := by
    constructor
    · rintro ⟨e, he, h, h'⟩
      rcases List.mem_cons.mp he with rfl | he
      · exact h'
      · exact absurd (h ▸ List.mem_map_of_mem he) hn.1
    · intro h; exact ⟨d, by simp, rfl, h⟩
  unfold afterDecl
  cases hv : getAttr as d.name with
  | none =>
    have hnew := getAttr_none.mp hv
    dsimp only
    have hmap : as.map (fun p => (p.1, if Tokenized (d :: ds) p.1 then normal p.2 else p.2)) = as.map (fun p => (p.1, if Tokenized ds p.1 then normal p.2 else p.2)) := by
      refine List.map_congr_left ?_
      intro p hp
      have : p.1 ≠ d.name := by intro h; exact hnew (h ▸ List.mem_map_of_mem hp)
      simp only [tokenized_cons this]
    by_cases hp : d.presence = .default
    · rw [if_pos hp]
      unfold seen
      rw [hmap, List.filter_cons_of_pos (by simpa [hp] using hnew), List.map_append, List.map_cons, List.map_nil, List.map_cons, List.append_assoc]
      congr 1
      rw [if_neg hnot, List.singleton_append]
      congr 2
      refine List.filter_congr ?_
      intro e he
      have hne : e.name ≠ d.name := by intro h; exact hn.1 (h ▸ List.mem_map_of_mem he)
      have hiff : (e.name ∉ (as ++ [(d.name, dflt d)]).map (·.1)) ↔ e.name ∉ as.map (·.1) := by
        rw [List.map_append, List.mem_append]
        simp [hne]
      exact decide_eq_decide.mpr (and_congr Iff.rfl hiff)
    · rw [if_neg hp]
      unfold seen
      rw [hmap, List.filter_cons_of_neg (by simp [hp])]
  | some v =>
    have hgiv : d.name ∈ as.map (·.1) := List.mem_map_of_mem ((getAttr_some hk).mp hv)
    dsimp only
    have hdef : (d :: ds).filter (fun e => e.presence = .default ∧ e.name ∉ as.map (·.1)) = ds.filter (fun e => e.presence = .default ∧ e.name ∉ as.map (·.1)) := by
      rw [List.filter_cons_of_neg]
      simp only [decide_eq_true_eq, not_and, not_not]
      intro _; exact hgiv
    by_cases hc : d.ty = .cdata
    · rw [if_pos hc]
      unfold seen
      rw [hdef]
      congr 1
      refine List.map_congr_left ?_
      intro p _
      by_cases h : p.1 = d.name
      · rw [h, if_neg hnot, if_neg (by rw [htok]; simpa using hc)]
      · simp only [tokenized_cons h]
    · rw [if_neg hc, setAttr_given hgiv]
      unfold seen
      rw [hdef, List.map_map, List.map_map]
      have hk2 : (fun x : Str × Str => x.1) ∘ (fun p : Str × Str => (p.1, if p.1 = d.name then normal v else p.2)) = (·.1) := rfl
      rw [hk2]
      congr 1
      refine List.map_congr_left ?_
      intro p hp
      by_cases h : p.1 = d.name
      · have : p.2 = v := by
          have h1 : getAttr as d.name = some p.2 := (getAttr_some hk).mpr (by rw [← h]; exact hp)
          rw [hv] at h1
          exact (Option.some.inj h1).symm
        simp [h, hnot, htok, hc, this]
      · simp [h, tokenized_cons h]

/-- The first loop. -/
theorem declLoop (E : Env) : ∀ (alist : List AttDef) (as : List (Str × Str)) (s : St), (alist.map (·.name)).Nodup → (as.map (·.1)).Nodup →
    (alist.foldl (declStep E) (as, s)).1 = seen alist as ∧
    Step s (alist.foldl (declStep E) (as, s)).2 (∀ d ∈ alist, DeclOk E d (getAttr as d.name)) [] [] := by
  intro alist
  induction alist with
  | nil =>
    intro as s _ _
    exact ⟨by simp [seen, Tokenized], (Step.refl s).congr (by simp) rfl (by simp)⟩
  | cons d ds ih =>
    intro as s hn hk
    obtain ⟨h1, h2⟩ := declStep_eq E as s d
    rw [List.foldl_cons, show declStep E (as, s) d = ((declStep E (as, s) d).1, (declStep E (as, s) d).2) from rfl, h1]
    obtain ⟨h3, h4⟩ := ih (afterDecl as d) (declStep E (as, s) d).2 (List.nodup_cons.mp hn).2 (afterDecl_keys as d hk)
    refine ⟨h3.trans (seen_cons hn hk), (h2.trans h4).congr ?_ rfl (by simp)⟩
    simp only [List.forall_mem_cons]
    refine and_congr Iff.rfl ?_
    refine forall_congr' fun e => forall_congr' fun he => ?_
    have : e.name ≠ d.name := by
      intro h
      have hm := List.mem_map_of_mem (f := (·.name)) he
      rw [h] at hm
      exact (List.nodup_cons.mp hn).1 hm
    rw [afterDecl_get as d hk this]

theorem seen_norm (alist : List AttDef) (hn : (alist.map (·.name)).Nodup) (as : List (Str × Str)) : ∀ p ∈ seen alist as, Norm alist p := by
  intro p hp ht
  rcases List.mem_append.mp hp with h | h
  · obtain ⟨q, -, rfl⟩ := List.mem_map.mp h
    dsimp only at ht ⊢
    exact ⟨q.2, by rw [if_pos ht]⟩
  · obtain ⟨d, hd, rfl⟩ := List.mem_map.mp h
    obtain ⟨e, he, h1, h2⟩ := ht
    have := decl_unique hn he (List.mem_of_mem_filter hd) h1
    subst this
    exact ⟨e.lit, by unfold dflt; rw [if_neg h2]⟩

/-- What `check_attributes` finds. -/
def ElOk (E : Env) (alist : List AttDef) (as : List (Str × Str)) : Prop :=
  (∀ d ∈ alist, DeclOk E d (getAttr as d.name)) ∧ ∀ p ∈ seen alist as, (∃ d ∈ alist, d.name = p.1) ∧ ∀ d ∈ alist, d.name = p.1 → TypeOk E d p.2

theorem checkAttrs_step (E : Env) (alist : List AttDef) (as : List (Str × Str)) (s : St) (hn : (alist.map (·.name)).Nodup) (hk : (as.map (·.1)).Nodup) :
    (checkAttrs E alist as s).1 = seen alist as ∧
    Step s (checkAttrs E alist as s).2 (ElOk E alist as) (idsOf alist (seen alist as)) (refsOf alist (seen alist as)) := by
  obtain ⟨h1, h2⟩ := declLoop E alist as s hn hk
  unfold checkAttrs
  dsimp only
  rw [h1]
  refine ⟨rfl, ?_⟩
  exact (h2.trans (step_vals E hn (seen alist as) _ (seen_norm alist hn as))).congr Iff.rfl rfl (by simp)

/-- Fixed attributes are given, and without superfluous spaces. -/
def FixedGiven (alist : List AttDef) (as : List (Str × Str)) : Prop :=
  ∀ d ∈ alist, d.presence = .fixed → ∃ v, (d.name, v) ∈ as ∧ (d.ty = .cdata ∨ normal v = v)

theorem mem_seen_given {alist : List AttDef} {as : List (Str × Str)} {a v : Str} (h : (a, v) ∈ as) : (a, if Tokenized alist a then normal v else v) ∈ seen alist as :=
  List.mem_append.mpr (.inl (List.mem_map.mpr ⟨(a, v), h, rfl⟩))

theorem elOk_iff (E : Env) (alist : List AttDef) (as : List (Str × Str)) (hn : (alist.map (·.name)).Nodup) (hk : (as.map (·.1)).Nodup)
    (hfx : FixedGiven alist as) : ElOk E alist as ↔ ValidEl E alist as := by
  have hget : ∀ d : AttDef, getAttr as d.name ≠ none ↔ ∃ v, (d.name, v) ∈ as := by
    intro d
    constructor
    · intro h
      cases hv : getAttr as d.name with
      | none => exact absurd hv h
      | some v => exact ⟨v, (getAttr_some hk).mp hv⟩
    · rintro ⟨v, hv⟩ h
      rw [(getAttr_some hk).mpr hv] at h
      cases h
  have hfixed : ∀ d ∈ alist, d.presence = .fixed → (getAttr as d.name = some (dflt d) ↔ ∀ v, (d.name, v) ∈ seen alist as → v = dflt d) := by
    intro d hd hp
    obtain ⟨u, hu, hu'⟩ := hfx d hd hp
    have htk : (if Tokenized alist d.name then normal u else u) = u := by
      split
      · next ht =>
        obtain ⟨e, he, h1, h2⟩ := ht
        have := decl_unique hn he hd h1
        subst this
        rcases hu' with h | h
        · exact absurd h h2
        · exact h
      · rfl
    rw [getAttr_some hk]
    constructor
    · intro hm v hv
      rcases List.mem_append.mp hv with h | h
      · obtain ⟨q, hq, e⟩ := List.mem_map.mp h
        simp only [Prod.mk.injEq] at e
        have hq2 : q.2 = u := by
          have h1 := (getAttr_some hk).mpr hu
          have h2 : getAttr as d.name = some q.2 := (getAttr_some hk).mpr (by rw [← e.1]; exact hq)
          rw [h1] at h2
          exact (Option.some.inj h2).symm
        have hd2 : dflt d = u := by
          have h1 := (getAttr_some hk).mpr hu
          have h2 := (getAttr_some hk).mpr hm
          rw [h1] at h2
          exact (Option.some.inj h2).symm
        rw [← e.2, e.1, hq2, htk, hd2]
      · obtain ⟨e, he, h'⟩ := List.mem_map.mp h
        simp only [List.mem_filter, decide_eq_true_eq] at he
        simp only [Prod.mk.injEq] at h'
        have := decl_unique hn he.1 hd h'.1
        rw [this, hp] at he
        exact absurd he.2.1 (by simp)
    · intro h
      have := h _ (mem_seen_given (alist := alist) hu)
      rw [htk] at this
      rw [← this]
      exact hu
  constructor
  · rintro ⟨h1, h2⟩
    refine ⟨?_, ?_, ?_, ?_, ?_⟩
    · intro d hd hp; exact (hget d).mp ((h1 d hd).1 hp)
    · intro p hp
      exact (h2 _ (mem_seen_given (a := p.1) (v := p.2) hp)).1
    · intro d hd v hv; exact (h2 _ hv).2 d hd rfl
    · intro d hd hp; exact (hfixed d hd hp).mp ((h1 d hd).2.2 hp)
    · intro hs d hd he
      obtain ⟨h3, h4⟩ := (h1 d hd).2.1 hs he
      exact ⟨fun hp => (hget d).mp (h3 hp), fun ht v hv => h4 ht v ((getAttr_some hk).mpr hv)⟩
  · intro hv
    refine ⟨?_, ?_⟩
    · intro d hd
      refine ⟨fun hp => (hget d).mpr (hv.required d hd hp), ?_, fun hp => (hfixed d hd hp).mpr (hv.fixed d hd hp)⟩
      intro hs he
      obtain ⟨h3, h4⟩ := hv.standalone hs d hd he
      exact ⟨fun hp => (hget d).mpr (h3 hp), fun ht w hw => h4 ht w ((getAttr_some hk).mp hw)⟩
    · intro p hp
      refine ⟨?_, ?_⟩
      · rcases List.mem_append.mp hp with h | h
        · obtain ⟨q, hq, rfl⟩ := List.mem_map.mp h
          exact hv.declared q hq
        · obtain ⟨d, hd, rfl⟩ := List.mem_map.mp h
          exact ⟨d, List.mem_of_mem_filter hd, rfl⟩
      · rintro d hd h
        exact hv.typed d hd p.2 (by rw [h]; exact hp)

/-! ## Declarations -/

/-- Element types are in the table once. -/
theorem table_wf (decls : List (Str × AttDef)) : ((table decls).map (·.1)).Nodup ∧ ∀ p ∈ table decls, (p.2.map (·.name)).Nodup := by
  unfold table
  suffices h : ∀ (ds : List (Str × AttDef)) (t : List (Str × List AttDef)), (t.map (·.1)).Nodup ∧ (∀ p ∈ t, (p.2.map (·.name)).Nodup) →
      ((ds.foldl (fun t p => declareAttr t p.1 p.2) t).map (·.1)).Nodup ∧ ∀ p ∈ ds.foldl (fun t p => declareAttr t p.1 p.2) t, (p.2.map (·.name)).Nodup from
    h decls [] ⟨by simp, by simp⟩
  intro ds
  induction ds with
  | nil => intro t h; exact h
  | cons x ds ih =>
    rintro t ⟨h1, h2⟩
    rw [List.foldl_cons]
    refine ih _ ?_
    unfold declareAttr
    split
    · constructor
      · rw [List.map_map]
        have : ((fun p : Str × List AttDef => p.1) ∘ fun p => if (p.1 == x.1) = true then (p.1, if p.2.any (·.name == x.2.name) then p.2 else p.2 ++ [x.2]) else p) = (·.1) := by
          funext p
          simp only [Function.comp_apply]
          split <;> rfl
        rw [this]
        exact h1
      · intro p hp
        obtain ⟨q, hq, rfl⟩ := List.mem_map.mp hp
        have := h2 q hq
        split
        · dsimp only
          split
          · exact this
          · next hany =>
            rw [List.map_append, List.nodup_append]
            refine ⟨this, by simp, ?_⟩
            rintro a ha b hb rfl
            simp only [List.map_cons, List.map_nil, List.mem_singleton] at hb
            subst hb
            obtain ⟨e, he, h3⟩ := List.mem_map.mp ha
            exact hany (List.any_eq_true.mpr ⟨e, he, by simp [h3]⟩)
        · exact this
    · next hany =>
      constructor
      · rw [List.map_append, List.nodup_append]
        refine ⟨h1, by simp, ?_⟩
        rintro a ha b hb rfl
        simp only [List.map_cons, List.map_nil, List.mem_singleton] at hb
        subst hb
        obtain ⟨e, he, h3⟩ := List.mem_map.mp ha
        exact hany (List.any_eq_true.mpr ⟨e, he, by simp [h3]⟩)
      · intro p hp
        rcases List.mem_append.mp hp with hp | hp
        · exact h2 p hp
        · rw [List.mem_singleton] at hp
          subst hp
          simp

theorem attrList_nodup (decls : List (Str × AttDef)) (el : Str) : ((attrList (table decls) el).map (·.name)).Nodup := by
  unfold attrList
  cases h : (table decls).find? (·.1 == el) with
  | none => simp
  | some p => exact (table_wf decls).2 p (List.mem_of_find?_eq_some h)

theorem attrList_declare (t : List (Str × List AttDef)) (el el' : Str) (d : AttDef) : attrList (declareAttr t el d) el' =
    if el' = el then (if (attrList t el).any (·.name == d.name) then attrList t el else attrList t el ++ [d]) else attrList t el' := by
  induction t with
  | nil =>
    by_cases h : el' = el
    · simp [attrList, declareAttr, h]
    · simp [attrList, declareAttr, h, Ne.symm h]
  | cons p t ih =>
    have cons_eq : ∀ (x : Str), attrList (p :: t) x = if p.1 = x then p.2 else attrList t x := by
      intro x
      unfold attrList
      by_cases h : p.1 = x
      · rw [List.find?_cons_of_pos (by simpa using h), if_pos h]; rfl
      · rw [List.find?_cons_of_neg (by simpa using h), if_neg h]
    by_cases hp : p.1 = el
    · have hrest : ∀ x, x ≠ el → attrList (t.map fun p => if (p.1 == el) = true then (p.1, if p.2.any (·.name == d.name) then p.2 else p.2 ++ [d]) else p) x = attrList t x := by
        intro x hx
        unfold attrList
        rw [List.find?_map]
        have : ((fun p : Str × List AttDef => p.1 == x) ∘ fun p => if (p.1 == el) = true then (p.1, if p.2.any (·.name == d.name) then p.2 else p.2 ++ [d]) else p) =
            fun p => p.1 == x := by
          funext q
          simp only [Function.comp_apply]
          split <;> rfl
        rw [this]
        cases hf : t.find? (fun p => p.1 == x) with
        | none => rfl
        | some q =>
          have : q.1 = x := by simpa using List.find?_some hf
          simp only [Option.map_some, Option.getD_some]
          rw [if_neg (by simpa [this] using hx)]
      have hd : declareAttr (p :: t) el d = (p.1, if p.2.any (·.name == d.name) then p.2 else p.2 ++ [d]) ::
          (t.map fun p => if (p.1 == el) = true then (p.1, if p.2.any (·.name == d.name) then p.2 else p.2 ++ [d]) else p) := by
        unfold declareAttr
        rw [if_pos (by simp [hp]), List.map_cons, if_pos (by simpa using hp)]
      rw [hd]
      by_cases h : el' = el
      · rw [if_pos h, cons_eq, if_pos hp]
        unfold attrList
        rw [List.find?_cons_of_pos (by simp [hp, h])]
        rfl
      · have h2 : ¬ p.1 = el' := by rw [hp]; exact Ne.symm h
        rw [if_neg h, cons_eq el', if_neg h2, ← hrest el' h]
        unfold attrList
        rw [List.find?_cons_of_neg (by simp [hp, Ne.symm h])]
    · have hd : declareAttr (p :: t) el d = p :: declareAttr t el d := by
        unfold declareAttr
        have : (p :: t).any (·.1 == el) = t.any (·.1 == el) := by simp [hp]
        rw [this]
        split
        · rw [List.map_cons, if_neg (by simpa using hp)]
        · rfl
      rw [hd]
      have c2 : attrList (p :: declareAttr t el d) el' = if p.1 = el' then p.2 else attrList (declareAttr t el d) el' := by
        unfold attrList
        by_cases h : p.1 = el'
        · rw [List.find?_cons_of_pos (by simpa using h), if_pos h]; rfl
        · rw [List.find?_cons_of_neg (by simpa using h), if_neg h]
      rw [c2, ih, cons_eq el, if_neg hp, cons_eq el']
      by_cases h : el' = el
      · have : p.1 ≠ el' := by rw [h]; exact hp
        simp [h, hp]
      · by_cases h' : p.1 = el'
        · simp [h, h']
        · simp [h, h']

/-! ## C149 -/

/-- **C149**: for every element type and attribute the first declaration is the one that counts, in whatever declarations of attribute lists
it is. -/
theorem C149_first_declaration (decls : List (Str × AttDef)) (el : Str) (d : AttDef) : d ∈ attrList (table decls) el ↔
    ∃ pre post, decls = pre ++ (el, d) :: post ∧ ∀ p ∈ pre, ¬ (p.1 = el ∧ p.2.name = d.name) := by
  induction decls using List.reverseRecOn with
  | nil => simp [table, attrList]
  | append_singleton ds x ih =>
    have ht : table (ds ++ [x]) = declareAttr (table ds) x.1 x.2 := by simp [table]
    have hsome : ∀ n : Str, (attrList (table ds) el).any (·.name == n) = true ↔ ∃ p ∈ ds, p.1 = el ∧ p.2.name = n := by
      intro n
      have key : ∀ ds : List (Str × AttDef), (attrList (table ds) el).any (·.name == n) = true ↔ ∃ p ∈ ds, p.1 = el ∧ p.2.name = n := by
        intro ds
        induction ds using List.reverseRecOn with
        | nil => simp [table, attrList]
        | append_singleton ds y ih2 =>
          have ht : table (ds ++ [y]) = declareAttr (table ds) y.1 y.2 := by simp [table]
          rw [ht, attrList_declare]
          simp only [List.mem_append, List.mem_singleton, or_and_right, exists_or, exists_eq_left]
          by_cases hy : el = y.1
          · rw [if_pos hy, ← hy]
            split
            · next hany =>
              rw [ih2]
              constructor
              · intro h; exact .inl h
              · rintro (h | ⟨-, rfl⟩)
                · exact h
                · exact ih2.mp hany
            · rw [List.any_append, Bool.or_eq_true, ih2]
              simp
          · rw [if_neg hy, ih2]
            constructor
            · intro h; exact .inl h
            · rintro (h | ⟨rfl, -⟩)
              · exact h
              · exact absurd rfl hy
      exact key ds
    rw [ht, attrList_declare]
    have hold : (∃ pre post, ds = pre ++ (el, d) :: post ∧ ∀ p ∈ pre, ¬ (p.1 = el ∧ p.2.name = d.name)) →
        ∃ pre post, ds ++ [x] = pre ++ (el, d) :: post ∧ ∀ p ∈ pre, ¬ (p.1 = el ∧ p.2.name = d.name) := by
      rintro ⟨pre, post, rfl, h⟩
      exact ⟨pre, post ++ [x], by simp, h⟩
    have hnew : ∀ pre post, ds ++ [x] = pre ++ (el, d) :: post → (∀ p ∈ pre, ¬ (p.1 = el ∧ p.2.name = d.name)) →
        (∃ pre post, ds = pre ++ (el, d) :: post ∧ ∀ p ∈ pre, ¬ (p.1 = el ∧ p.2.name = d.name)) ∨ (x = (el, d) ∧ ∀ p ∈ ds, ¬ (p.1 = el ∧ p.2.name = d.name)) := by
      intro pre post e h
      rcases List.eq_nil_or_concat post with rfl | ⟨post', y, rfl⟩
      · obtain ⟨rfl, e2⟩ := List.append_inj' e rfl
        exact .inr ⟨by simpa using e2, h⟩
      · left
        rw [List.concat_eq_append, ← List.cons_append, ← List.append_assoc] at e
        obtain ⟨e1, -⟩ := List.append_inj' e rfl
        exact ⟨pre, post', e1, h⟩
    by_cases hx : el = x.1
    · rw [if_pos hx, ← hx]
      by_cases hany : (attrList (table ds) el).any (·.name == x.2.name) = true
      · rw [if_pos hany, ih]
        refine ⟨hold, ?_⟩
        rintro ⟨pre, post, e, h⟩
        rcases hnew pre post e h with h' | ⟨rfl, h'⟩
        · exact h'
        · obtain ⟨p, hp, h1⟩ := (hsome _).mp hany
          exact absurd h1 (h' p hp)
      · rw [if_neg hany, List.mem_append, ih, List.mem_singleton]
        constructor
        · rintro (h | rfl)
          · exact hold h
          · refine ⟨ds, [], by rw [hx], ?_⟩
            intro p hp h1
            exact hany ((hsome _).mpr ⟨p, hp, h1⟩)
        · rintro ⟨pre, post, e, h⟩
          rcases hnew pre post e h with h' | ⟨h', -⟩
          · exact .inl h'
          · exact .inr (by rw [h'])
    · rw [if_neg hx, ih]
      refine ⟨hold, ?_⟩
      rintro ⟨pre, post, e, h⟩
      rcases hnew pre post e h with h' | ⟨h', -⟩
      · exact h'
      · rw [h'] at hx; exact absurd rfl hx

theorem checkElements_step (E : Env) (decls : List (Str × AttDef)) : ∀ (doc : List (Str × List (Str × Str))) (s : St), WellFormed doc →
    (checkElements E (table decls) doc s).1 = doc.map (fun e => seen (attrList (table decls) e.1) e.2) ∧
    Step s (checkElements E (table decls) doc s).2 (∀ e ∈ doc, ElOk E (attrList (table decls) e.1) e.2)
      (doc.flatMap fun e => idsOf (attrList (table decls) e.1) (seen (attrList (table decls) e.1) e.2))
      (doc.flatMap fun e => refsOf (attrList (table decls) e.1) (seen (attrList (table decls) e.1) e.2)) := by
  intro doc
  induction doc with
  | nil => intro s _; exact ⟨rfl, (Step.refl s).congr (by simp) rfl (by simp)⟩
  | cons e doc ih =>
    intro s hw
    obtain ⟨el, as⟩ := e
    obtain ⟨h1, h2⟩ := checkAttrs_step E (attrList (table decls) el) as s (attrList_nodup decls el) (hw (el, as) (by simp))
    obtain ⟨h3, h4⟩ := ih (checkAttrs E (attrList (table decls) el) as s).2 fun e he => hw e (by simp [he])
    refine ⟨?_, ?_⟩
    · simp only [checkElements, List.map_cons, h1, h3]
    · refine (h2.trans h4).congr ?_ ?_ ?_
      · simp
      · simp
      · simp

/-- **C149**: the application sees the attributes given, normalised unless they are of type CDATA, and the default values. -/
theorem C149_seen (E : Env) (decls : List (Str × AttDef)) (doc : List (Str × List (Str × Str))) (hw : WellFormed doc) :
    (checkDoc E (table decls) doc).1 = doc.map (fun e => seen (attrList (table decls) e.1) e.2) :=
  (checkElements_step E decls doc _ hw).1

/-- **C149**: no error is reported exactly if the attributes of the document meet the validity constraints of XML 1.0, as long as attributes
with a fixed value are given (and are normalised in the document). -/
theorem C149_valid_partial (E : Env) (decls : List (Str × AttDef)) (doc : List (Str × List (Str × Str))) (hw : WellFormed doc)
    (hf : ∀ e ∈ doc, FixedGiven (attrList (table decls) e.1) e.2) :
    (checkDoc E (table decls) doc).2 = [] ↔ ValidDoc E (table decls) doc := by
  have h := (checkElements_step E decls doc ⟨[], [], []⟩ hw).2
  have hel : (∀ e ∈ doc, ElOk E (attrList (table decls) e.1) e.2) ↔ ∀ e ∈ doc, ValidEl E (attrList (table decls) e.1) e.2 :=
    forall_congr' fun e => forall_congr' fun he => elOk_iff E _ _ (attrList_nodup decls e.1) (hw e he) (hf e he)
  unfold checkDoc
  dsimp only
  rw [List.append_eq_nil_iff, h.errs (by simp), List.map_eq_nil_iff, List.filter_eq_nil_iff, hel]
  simp only [List.nil_append, true_and]
  constructor
  · rintro ⟨⟨h1, h2⟩, h3⟩
    have he := (h.errs (by simp)).mpr ⟨rfl, hel.mpr h1, by simpa using h2⟩
    have hi := h.ids (by simp) he
    have hr := h.refs (by simp) he
    refine ⟨h1, h2, ?_⟩
    intro e hm r hr'
    have := h3 r ((hr r).mpr (.inr (List.mem_flatMap.mpr ⟨e, hm, hr'⟩)))
    rw [hi] at this
    simp only [List.nil_append, Bool.not_eq_true', Bool.not_eq_false, List.contains_iff_mem] at this
    exact List.mem_flatMap.mp this
  · rintro ⟨h1, h2, h3⟩
    have he := (h.errs (by simp)).mpr ⟨rfl, hel.mpr h1, by simpa using h2⟩
    have hi := h.ids (by simp) he
    have hr := h.refs (by simp) he
    refine ⟨⟨h1, h2⟩, ?_⟩
    intro r hr'
    rcases (hr r).mp hr' with h4 | h4
    · cases h4
    · obtain ⟨e, hm, h5⟩ := List.mem_flatMap.mp h4
      obtain ⟨e', hm', h6⟩ := h3 e hm r h5
      rw [hi]
      simp only [List.nil_append, Bool.not_eq_true', Bool.not_eq_false, List.contains_iff_mem]
      exact List.mem_flatMap.mpr ⟨e', hm', h6⟩

/-! ## Examples -/

/-- Names are made of letters. -/
def sampleEnv : Env := ⟨fun c => 97 ≤ c, fun c => 97 ≤ c || (48 ≤ c && c ≤ 57), fun _ => none, false⟩

/-- `<!ATTLIST e i ID #REQUIRED r IDREFS #IMPLIED c (x|y) "x">` -/
def sampleDecls : List (Str × AttDef) :=
  [([101], ⟨[105], .id, .required, [], [], false⟩), ([101], ⟨[114], .idrefs, .implied, [], [], false⟩), ([101], ⟨[99], .enumeration, .default, [120], [[120], [121]], false⟩)]

/-- `<e i=" a "><e i="b" r=" a  b " c="y"/></e>` is valid, and its attributes are normalised. -/
example : checkDoc sampleEnv (table sampleDecls) [([101], [([105], [32, 97, 32])]), ([101], [([105], [98]), ([114], [32, 97, 32, 32, 98, 32]), ([99], [121])])] =
    ([[([105], [97]), ([99], [120])], [([105], [98]), ([114], [97, 32, 98]), ([99], [121])]], []) := by decide +kernel

/-- An ID used twice, a reference to nothing, a value not in the list, and no ID. -/
example : (checkDoc sampleEnv (table sampleDecls) [([101], [([105], [97])]), ([101], [([105], [97]), ([114], [97, 32, 99])]), ([101], [([99], [122])])]).2 =
    [.idUsed, .required, .enumeration, .noId] := by decide +kernel

/-! ## Violations -/

/-- **C149, violated**: an attribute with a fixed value that is not given is reported and is not supplied, although it may be left out; and
one with a tokenized type is compared before it is normalised. -/
theorem C149_fixed_violation :
    let d : AttDef := ⟨[102], .nmtoken, .fixed, [49], [], false⟩
    checkDoc sampleEnv (table [([101], d)]) [([101], [])] = ([[]], [.fixed]) ∧ ValidDoc sampleEnv (table [([101], d)]) [([101], [])] ∧
    checkDoc sampleEnv (table [([101], d)]) [([101], [([102], [32, 49])])] = ([[([102], [49])]], [.fixed]) := by
  refine ⟨by decide +kernel, ?_, by decide +kernel⟩
  refine ⟨?_, by decide, ?_⟩
  · intro e he
    rw [List.mem_singleton] at he
    subst he
    refine ⟨?_, by simp, ?_, ?_, by simp [sampleEnv]⟩
    · intro d hd hp
      simp [table, declareAttr, attrList] at hd
      subst hd
      cases hp
    · intro d hd v hv
      simp [table, declareAttr, attrList, seen] at hv
    · intro d hd _ v hv
      simp [table, declareAttr, attrList, seen] at hv
  · intro e he r hr
    rw [List.mem_singleton] at he
    subst he
    simp [table, declareAttr, attrList, seen, refsOf] at hr

end Verif.Xml.Attrs

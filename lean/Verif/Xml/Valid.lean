import Verif.Xml.ContentClaims

/-!
# Validation of the element content of a document

Models `parse_element`, `check_expected_particle` and `handle_data` (pyslet/xml/parser.py:2076-2246,
2402-2419, 2694-2731) with `check_validity` set and `raiseValidityErrors` not set: the validity errors
are collected.  Modelled: the root element, the declarations of the elements, the sequence of children
and the character data.  Not modelled: attributes, SGML options, class lookup and the stand-alone
declaration.
-/
namespace Verif.Xml

variable {N : Type} [DecidableEq N]

mutual
/-- An element as written in a document: an empty-element tag or a start tag with content and end
tag. -/
inductive Elem (N : Type) where
  | tag (n : N)
  | elem (n : N) (content : List (Item N))
/-- An item of content: a call of `handle_data` with non-empty data (is it white space only? is it a
CDATA section?), or an element. -/
inductive Item (N : Type) where
  | data (ws cdata : Bool)
  | child (e : Elem N)
end

/-- The name in the tag. -/
def Elem.name : Elem N → N
  | .tag n => n
  | .elem n _ => n

/-- Validity errors: of the root element (parser.py:2117-2121), of the declaration (2130-2131), of a
child or end tag that is not expected (2415-2417), of data (2721-2729). -/
inductive Err (N : Type) where
  | root
  | undeclared (n : N)
  | unexpected (n : Option N)
  | data
  deriving DecidableEq, Repr

/-- `check_expected_particle` (parser.py:2402-2419): errors and the cursor; `none` is the
AttributeError of `expected()` on an element type without particle map. -/
def particle (cur : Option (Content N × Cur)) (name : Option N) :
    Option (List (Err N) × Option (Content N × Cur)) :=
  match cur with
  | none => some ([], none)
  | some (ct, c) =>
    if (next ct c name).1 then some ([], some (ct, (next ct c name).2))
    else if (expected (fun _ _ => true) ct c).isNone then none
    else some ([.unexpected name], none)

/-- The checks of `handle_data` (parser.py:2708-2729). -/
def dataErrs (et : Option (Content N)) (ws cdata : Bool) : List (Err N) :=
  match et with
  | some .empty => [.data]
  | some (.model _) => if cdata || !ws then [.data] else []
  | _ => []

/-- `check_expected_particle('')` at the end tag (parser.py:2234). -/
def endCheck : Option (List (Err N) × Option (Content N × Cur)) → Option (List (Err N))
  | none => none
  | some (es, cur) => (particle cur none).map fun p => es ++ p.1

mutual
/-- An element after the check of its name by the cursor of its parent (parser.py:2125-2134,
2178-2234): its validity errors, or `none` for an exception. -/
def checkElem (dtd : N → Option (Content N)) : Elem N → Option (List (Err N))
  | .tag n =>
    match dtd n with
    | none => some [.undeclared n]
    | some _ => some []
  | .elem n items =>
    match dtd n with
    | none => (checkItems dtd none none items).map fun p => .undeclared n :: p.1
    | some ct => endCheck (checkItems dtd (some ct) (some (ct, .start)) items)
/-- The content of an element: `et` is `elementType`, `cur` is `cursor`. -/
def checkItems (dtd : N → Option (Content N)) (et : Option (Content N)) :
    Option (Content N × Cur) → List (Item N) → Option (List (Err N) × Option (Content N × Cur))
  | cur, [] => some ([], cur)
  | cur, .data ws cdata :: t =>
    (checkItems dtd et cur t).map fun p => (dataErrs et ws cdata ++ p.1, p.2)
  | cur, .child e :: t =>
    match particle cur (some e.name), checkElem dtd e with
    | some (es, cur'), some es' =>
      (checkItems dtd et cur' t).map fun p => (es ++ es' ++ p.1, p.2)
    | _, _ => none
end

/-- The validity errors of a document (parser.py:2116-2134); `doctype` is the name in the document
type declaration. -/
def docErrs (dtd : N → Option (Content N)) (doctype : Option N) (e : Elem N) :
    Option (List (Err N)) :=
  (checkElem dtd e).map fun es =>
    (match doctype with
     | none => []
     | some d => if d = e.name then [] else [.root]) ++ es

/-! ## Specification: the validity constraints "Element Valid" and "Root Element Type" -/

/-- The names of the children of a content. -/
def childNames : List (Item N) → List N
  | [] => []
  | .data _ _ :: t => childNames t
  | .child e :: t => e.name :: childNames t

/-- The character data of a content is allowed: none at all in an element declared EMPTY; only white
space, not in CDATA sections, in element content. -/
def DataOk (ct : Content N) (items : List (Item N)) : Prop :=
  ∀ ws cdata, Item.data ws cdata ∈ items →
    match ct with
    | .any => True
    | .empty => False
    | .model _ => ws = true ∧ cdata = false
    | .mixed _ => True

/-- The elements of a document, with their content; an empty-element tag has no content. -/
def Item.children : List (Item N) → List (Elem N)
  | [] => []
  | .data _ _ :: t => Item.children t
  | .child e :: t => e :: Item.children t

/-- The content of an element. -/
def Elem.content : Elem N → List (Item N)
  | .tag _ => []
  | .elem _ items => items

/-- `e` occurs in a document: it is the root or a child of an element that occurs. -/
inductive Occurs (root : Elem N) : Elem N → Prop where
  | root : Occurs root root
  | child {e c : Elem N} : Occurs root e → c ∈ Item.children e.content → Occurs root c

/-- One element is valid: it is declared and its declaration allows its content. -/
def ElemValid (dtd : N → Option (Content N)) (e : Elem N) : Prop :=
  ∃ ct, dtd e.name = some ct ∧ Allows ct (childNames e.content) ∧ DataOk ct e.content

/-- All elements of the document are valid and the root has the declared name. -/
def DocValid (dtd : N → Option (Content N)) (doctype : Option N) (root : Elem N) : Prop :=
  (∀ d, doctype = some d → root.name = d) ∧ ∀ e, Occurs root e → ElemValid dtd e

/-! ## Proofs -/

theorem particle_ok (ct : Content N) (c : Cur) (name : Option N)
    (r : Option (Content N × Cur)) :
    particle (some (ct, c)) name = some ([], r) ↔
      (next ct c name).1 = true ∧ r = some (ct, (next ct c name).2) := by
  unfold particle
  dsimp only
  cases h : (next ct c name).1 with
  | true => simp [eq_comm]
  | false =>
    simp only [Bool.false_eq_true, if_false, false_and, iff_false]
    split <;> simp

/-- What a clean run of the parser has checked in an element: declared, and when written with start
and end tags, valid. -/
def Seen (dtd : N → Option (Content N)) : Elem N → Prop
  | .tag n => (dtd n).isSome = true
  | .elem n items => ElemValid dtd (.elem n items)

theorem dataErrs_nil (ct : Content N) (ws cdata : Bool) (t : List (Item N)) :
    DataOk ct (.data ws cdata :: t) ↔ dataErrs (some ct) ws cdata = [] ∧ DataOk ct t := by
  have : DataOk ct (.data ws cdata :: t) ↔ DataOk ct [.data ws cdata] ∧ DataOk ct t := by
    unfold DataOk
    constructor
    · intro h
      exact ⟨fun a b hab => h a b (by simp at hab ⊢; exact Or.inl hab),
        fun a b hab => h a b (List.mem_cons_of_mem _ hab)⟩
    · rintro ⟨h1, h2⟩ a b hab
      rcases List.mem_cons.1 hab with h | h
      · exact h1 a b (by simp [h])
      · exact h2 a b h
  rw [this]
  have : DataOk ct [.data ws cdata] ↔ dataErrs (some ct) ws cdata = [] := by
    unfold DataOk dataErrs
    cases ct with
    | any => simp
    | empty => simp
    | model cp => cases ws <;> cases cdata <;> simp
    | mixed cp => simp
  rw [this]

theorem dataOk_child (ct : Content N) (e : Elem N) (t : List (Item N)) :
    DataOk ct (.child e :: t) ↔ DataOk ct t := by
  unfold DataOk
  simp

mutual
theorem checkElem_ok {dtd : N → Option (Content N)} (hp : ∀ n ct, dtd n = some ct → Proper ct) :
    ∀ e : Elem N, checkElem dtd e = some [] ↔ ∀ x, Occurs e x → Seen dtd x
  | .tag n => by
    have hocc : ∀ x, Occurs (.tag n) x ↔ x = .tag n := by
      intro x
      constructor
      · intro h
        induction h with
        | root => rfl
        | child _ h2 ih => subst ih; simp [Elem.content, Item.children] at h2
      · rintro rfl; exact .root
    simp only [hocc, forall_eq, Seen, checkElem]
    cases h : dtd n <;> simp
  | .elem n items => by
    have hocc : ∀ x, Occurs (.elem n items) x ↔
        x = .elem n items ∨ ∃ c ∈ Item.children items, Occurs c x := by
      intro x
      constructor
      · intro h
        induction h with
        | root => exact Or.inl rfl
        | child _ h2 ih =>
          rcases ih with rfl | ⟨c, h3, h4⟩
          · exact Or.inr ⟨_, h2, .root⟩
          · exact Or.inr ⟨c, h3, .child h4 h2⟩
      · rintro (rfl | ⟨c, h1, h2⟩)
        · exact .root
        · induction h2 with
          | root => exact .child .root h1
          | child _ h2 ih => exact .child ih h2
    have hsplit : (∀ x, Occurs (.elem n items) x → Seen dtd x) ↔
        Seen dtd (.elem n items) ∧ ∀ c ∈ Item.children items, ∀ x, Occurs c x → Seen dtd x := by
      constructor
      · intro h
        exact ⟨h _ .root, fun c hc x hx => h x ((hocc x).2 (Or.inr ⟨c, hc, hx⟩))⟩
      · rintro ⟨h1, h2⟩ x hx
        rcases (hocc x).1 hx with rfl | ⟨c, hc, hx⟩
        · exact h1
        · exact h2 c hc x hx
    rw [hsplit]
    unfold checkElem Seen ElemValid
    simp only [Elem.name, Elem.content]
    cases h : dtd n with
    | none => simp
    | some ct =>
      have hi := checkItems_ok hp ct items .start
      have hacc := C75_accepts ct (hp n ct h) (childNames items)
      simp only [Option.some.injEq, exists_eq_left']
      rw [← hacc]
      unfold accepts
      constructor
      · intro hE
        unfold endCheck at hE
        cases hr : checkItems dtd (some ct) (some (ct, .start)) items with
        | none => rw [hr] at hE; cases hE
        | some p =>
          obtain ⟨es, cur⟩ := p
          rw [hr] at hE
          dsimp only at hE
          cases hq : particle cur none with
          | none => rw [hq] at hE; cases hE
          | some q =>
            obtain ⟨es2, cur2⟩ := q
            rw [hq] at hE
            simp only [Option.map_some, Option.some.injEq, List.append_eq_nil_iff] at hE
            obtain ⟨rfl, rfl⟩ := hE
            obtain ⟨h1, h2, c', h3, rfl⟩ := (hi cur).1 hr
            rw [particle_ok] at hq
            rw [h3]
            exact ⟨⟨hq.1, h1⟩, h2⟩
      · rintro ⟨⟨h1, h2⟩, h3⟩
        cases hf : feed ct .start (childNames items) with
        | none => rw [hf] at h1; cases h1
        | some c' =>
          rw [hf] at h1
          dsimp only at h1
          have := (hi (some (ct, c'))).2 ⟨h2, h3, c', hf, rfl⟩
          rw [this]
          unfold endCheck
          dsimp only
          rw [(particle_ok ct c' none _).2 ⟨h1, rfl⟩]
          rfl
theorem checkItems_ok {dtd : N → Option (Content N)} (hp : ∀ n ct, dtd n = some ct → Proper ct)
    (ct : Content N) : ∀ (items : List (Item N)) (c : Cur) (r : Option (Content N × Cur)),
    checkItems dtd (some ct) (some (ct, c)) items = some ([], r) ↔
      DataOk ct items ∧ (∀ e ∈ Item.children items, ∀ x, Occurs e x → Seen dtd x) ∧
        ∃ c', feed ct c (childNames items) = some c' ∧ r = some (ct, c')
  | [], c, r => by
    simp [checkItems, DataOk, Item.children, childNames, feed, eq_comm]
  | .data ws cdata :: t, c, r => by
    have ih := checkItems_ok hp ct t c r
    rw [dataErrs_nil]
    simp only [Item.children, childNames]
    unfold checkItems
    cases hr : checkItems dtd (some ct) (some (ct, c)) t with
    | none =>
      rw [hr] at ih
      simp only [Option.map_none, reduceCtorEq, false_iff] at ih ⊢
      rintro ⟨⟨_, h1⟩, h2⟩
      exact ih ⟨h1, h2⟩
    | some p =>
      obtain ⟨es, cur⟩ := p
      rw [hr] at ih
      simp only [Option.map_some, Option.some.injEq, Prod.mk.injEq, List.append_eq_nil_iff] at ih ⊢
      constructor
      · rintro ⟨⟨h1, h2⟩, h3⟩
        have := ih.1 ⟨h2, h3⟩
        exact ⟨⟨h1, this.1⟩, this.2⟩
      · rintro ⟨⟨h1, h2⟩, h3⟩
        have := ih.2 ⟨h2, h3⟩
        exact ⟨⟨h1, this.1⟩, this.2⟩
  | .child e :: t, c, r => by
    have ihe := checkElem_ok hp e
    rw [dataOk_child]
    simp only [Item.children, childNames, List.mem_cons, forall_eq_or_imp]
    unfold checkItems feed
    rw [← ihe]
    by_cases hn : (next ct c (some e.name)).1 = true
    · rw [if_pos hn, (particle_ok ct c (some e.name) _).2 ⟨hn, rfl⟩]
      have ih := checkItems_ok hp ct t (next ct c (some e.name)).2 r
      cases he : checkElem dtd e with
      | none => simp
      | some es =>
        dsimp only
        cases hr : checkItems dtd (some ct) (some (ct, (next ct c (some e.name)).2)) t with
        | none =>
          rw [hr] at ih
          simp only [Option.map_none, reduceCtorEq, false_iff] at ih ⊢
          rintro ⟨h1, ⟨_, h2⟩, h3⟩
          exact ih ⟨h1, h2, h3⟩
        | some p =>
          obtain ⟨es2, cur⟩ := p
          rw [hr] at ih
          simp only [Option.map_some, Option.some.injEq, Prod.mk.injEq, List.append_eq_nil_iff,
            List.nil_append] at ih ⊢
          constructor
          · rintro ⟨⟨h1, h2⟩, h3⟩
            have := ih.1 ⟨h2, h3⟩
            exact ⟨this.1, ⟨h1, this.2.1⟩, this.2.2⟩
          · rintro ⟨h1, ⟨h2, h3⟩, h4⟩
            have := ih.2 ⟨h1, h3, h4⟩
            exact ⟨⟨h2, this.1⟩, this.2⟩
    · rw [if_neg hn]
      have hpt : ∀ es r, particle (some (ct, c)) (some e.name) = some (es, r) → es ≠ [] := by
        rintro es r h rfl
        exact hn ((particle_ok ct c _ _).1 h).1
      constructor
      · intro h
        exfalso
        split at h
        · rename_i es cur' es' h1 h2
          cases hr : checkItems dtd (some ct) cur' t with
          | none => rw [hr] at h; cases h
          | some p =>
            rw [hr] at h
            simp only [Option.map_some, Option.some.injEq, Prod.mk.injEq,
              List.append_eq_nil_iff] at h
            exact hpt _ _ h1 h.1.1.1
        · cases h
      · rintro ⟨_, _, c', h, _⟩
        cases h
end

/-- C77: a document is parsed without a validity error exactly when its root has the name of the
document type declaration, all elements are declared, and all elements written with a start tag and an
end tag have content that their declaration allows.  (Missing for the full property: elements written
as empty-element tags, see `C77_empty_tag_violated`.) -/
theorem C77_checked_partial (dtd : N → Option (Content N))
    (hp : ∀ n ct, dtd n = some ct → Proper ct) (doctype : Option N) (root : Elem N) :
    docErrs dtd doctype root = some [] ↔
      (∀ d, doctype = some d → root.name = d) ∧
      (∀ e, Occurs root e → (dtd e.name).isSome = true) ∧
      (∀ n items, Occurs root (.elem n items) → ElemValid dtd (.elem n items)) := by
  have h := checkElem_ok hp root
  have hroot : (match doctype with
      | none => ([] : List (Err N))
      | some d => if d = root.name then [] else [.root]) = [] ↔
      ∀ d, doctype = some d → root.name = d := by
    cases doctype with
    | none => simp
    | some d =>
      by_cases hd : d = root.name
      · simp [hd]
      · simp [hd, eq_comm]
  have hseen : (∀ x, Occurs root x → Seen dtd x) ↔
      (∀ e, Occurs root e → (dtd e.name).isSome = true) ∧
      (∀ n items, Occurs root (.elem n items) → ElemValid dtd (.elem n items)) := by
    constructor
    · intro hs
      refine ⟨fun e he => ?_, fun n items he => hs _ he⟩
      have := hs e he
      cases e with
      | tag n => exact this
      | elem n items =>
        obtain ⟨ct, h1, _⟩ := this
        rw [h1]; rfl
    · rintro ⟨h1, h2⟩ x hx
      cases x with
      | tag n => exact h1 _ hx
      | elem n items => exact h2 n items hx
  rw [← hseen, ← h, ← hroot]
  unfold docErrs
  cases hc : checkElem dtd root with
  | none => simp
  | some es => simp

/-- C77: a valid document gives no validity error and no exception. -/
theorem C77_valid_accepted (dtd : N → Option (Content N))
    (hp : ∀ n ct, dtd n = some ct → Proper ct) (doctype : Option N) (root : Elem N)
    (h : DocValid dtd doctype root) : docErrs dtd doctype root = some [] := by
  rw [C77_checked_partial dtd hp]
  refine ⟨h.1, fun e he => ?_, fun n items he => h.2 _ he⟩
  obtain ⟨ct, h1, _⟩ := h.2 e he
  rw [h1]; rfl

/-- C77: for documents whose empty-element tags are only used for element types that allow empty
content, the parser reports no error exactly for the valid documents. -/
theorem C77_valid_partial (dtd : N → Option (Content N))
    (hp : ∀ n ct, dtd n = some ct → Proper ct) (doctype : Option N) (root : Elem N)
    (htag : ∀ n ct, Occurs root (.tag n) → dtd n = some ct → Allows ct []) :
    docErrs dtd doctype root = some [] ↔ DocValid dtd doctype root := by
  refine ⟨fun h => ?_, C77_valid_accepted dtd hp doctype root⟩
  obtain ⟨h1, h2, h3⟩ := (C77_checked_partial dtd hp doctype root).1 h
  refine ⟨h1, fun e he => ?_⟩
  cases e with
  | elem n items => exact h3 n items he
  | tag n =>
    obtain ⟨ct, hct⟩ := Option.isSome_iff_exists.1 (h2 _ he)
    exact ⟨ct, hct, htag n ct he hct, by simp [DataOk, Elem.content]⟩

/-- `<!ELEMENT 1 (2)> <!ELEMENT 2 EMPTY> <!ELEMENT 3 (#PCDATA|3)*>`. -/
def exDtd : Nat → Option (Content Nat)
  | 1 => some (.model (.seq .once [.name 0 2 .once]))
  | 2 => some .empty
  | 3 => some (.mixed (.choice .star [.name 0 3 .once]))
  | _ => none

theorem exDtd_proper : ∀ n ct, exDtd n = some ct → Proper ct := by
  intro n ct h
  unfold exDtd at h
  split at h
  · injection h with h; subst h
    exact ⟨by simp [CP.Wf, WfL], by simp [CP.Distinct, CP.parts, partsL]⟩
  · injection h with h; subst h; trivial
  · injection h with h; subst h
    exact ⟨⟨[(3, 0)], rfl⟩, by simp [CP.Distinct, CP.parts, partsL]⟩
  · cases h

/-- The full property fails: the parser reports no error for `<1/>`, although the declaration of the
element requires a child; `<1></1>` gives the error. -/
theorem C77_empty_tag_violated :
    docErrs exDtd (some 1) (.tag 1) = some [] ∧ ¬ DocValid exDtd (some 1) (.tag 1) ∧
    docErrs exDtd (some 1) (.elem 1 []) = some [.unexpected none] := by
  refine ⟨by decide +kernel, ?_, by decide +kernel⟩
  rintro ⟨_, h⟩
  obtain ⟨ct, h1, h2, _⟩ := h _ .root
  have : ct = .model (.seq .once [.name 0 2 .once]) := by
    have : some ct = some _ := h1.symm
    injection this
  subst this
  simp [Allows, Allowed, Lang, LangSeq, Occ.lang, childNames, Elem.content] at h2

/-- C77: a child of an element declared EMPTY is not reported as a validity error: the message cannot
be built and the parser raises AttributeError, whatever the document. -/
theorem C77_empty_child_raises (dtd : N → Option (Content N)) (n : N) (hn : dtd n = some .empty)
    (e : Elem N) (t : List (Item N)) (doctype : Option N) :
    docErrs dtd doctype (.elem n (.child e :: t)) = none := by
  unfold docErrs checkElem
  rw [hn]
  unfold checkItems
  rfl

example : docErrs exDtd (some 1) (.elem 1 [.data true false, .child (.tag 2)]) = some [] ∧
    docErrs exDtd (some 1) (.elem 1 [.data true true, .child (.elem 2 [])]) = some [.data] ∧
    docErrs exDtd (some 1) (.elem 1 [.child (.elem 2 [.data true false]), .child (.tag 2)]) =
      some [.data, .unexpected (some 2)] ∧
    docErrs exDtd (some 1) (.elem 3 [.data false false, .child (.tag 3), .child (.tag 4)]) =
      some [.root, .unexpected (some 4), .undeclared 4] := by decide +kernel

end Verif.Xml

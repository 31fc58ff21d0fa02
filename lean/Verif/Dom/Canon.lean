/-
C172: canonical children and the comparison of the content of elements
(pyslet/xml/structures.py:150-178, 1766-1850, 2464-2466).
-/
namespace Verif.Dom.Canon

abbrev Str := List Nat

/-! ## Model -/

/-- A child: character data or an element; `α` stands for elements as `==` tells them apart. -/
inductive Kid (α : Type) where
  | text (s : Str)
  | el (a : α)
deriving DecidableEq, Repr

/-- structures.py `is_s`: space, tab, line feed, carriage return. -/
def isS (c : Nat) : Bool := c == 32 || c == 9 || c == 10 || c == 13

/-- structures.py:166-174: the loop of `collapse_space`. -/
def collGo (smode : Bool) : Str → Str
  | [] => []
  | c :: s => if isS c then (if smode then collGo true s else 32 :: collGo true s) else c :: collGo false s

/-- structures.py:150-178 `collapse_space` -/
def collapseSpace (s : Str) (smode : Bool) : Str := if collGo smode s = [] then [32] else collGo smode s

variable {α : Type}

/-- structures.py:1813-1850: the loop; `data` is the list of texts seen since the last element, joined,
`none` if it is empty. -/
def loop : Option Str → Bool → List (Kid α) → List (Kid α)
  | data, smode, [] => match data with
    | none => []
    | some d =>
      if collapseSpace d smode = [32] then (if smode then [.text [], .text [32]] else [])
      else if (collapseSpace d smode).getLast? = some 32 then [.text (collapseSpace d smode).dropLast]
      else [.text (collapseSpace d smode)]
  | data, smode, .text s :: r => loop (some (data.getD [] ++ s)) smode r
  | data, smode, .el a :: r =>
    (match data with
      | none => []
      | some d => if smode = false ∨ collapseSpace d smode ≠ [32] then [.text (collapseSpace d smode)] else []) ++
    .el a :: loop none false r

/-- structures.py:1766-1850 `get_canonical_children`; `preserve`: the loop over the element and its
ancestors finds `xml:space="preserve"` (before another value) or a class with SGMLCDATA. -/
def canon (preserve : Bool) (kids : List (Kid α)) : List (Kid α) :=
  if preserve then kids else
  match kids with
  | [] => []
  | [.text s] => [.text (collapseSpace s true)]
  | [.el a] => [.el a]
  | .text s :: r => loop (some s) true r
  | .el a :: r => .el a :: loop none false r

/-! ## Specification -/

/-- What content consists of: characters, white space, elements. -/
inductive Tok (α : Type) where
  | ch (c : Nat)
  | sp
  | el (a : α)
deriving DecidableEq, Repr

/-- White space of XML. -/
def White (c : Nat) : Prop := c = 32 ∨ c = 9 ∨ c = 10 ∨ c = 13
instance (c : Nat) : Decidable (White c) := by unfold White; infer_instance

def tk (s : Str) : List (Tok α) := s.map fun c => if White c then .sp else .ch c

/-- The content of an element. -/
def tokens : List (Kid α) → List (Tok α)
  | [] => []
  | .text s :: r => tk s ++ tokens r
  | .el a :: r => .el a :: tokens r

def isSp : Tok α → Bool
  | .sp => true
  | _ => false

/-- White space at the start (`b`), at the end, and after white space does not count. -/
def squeeze (b : Bool) : List (Tok α) → List (Tok α)
  | [] => []
  | .sp :: r => if b then squeeze true r else if r.all isSp then [] else .sp :: squeeze true r
  | .ch c :: r => .ch c :: squeeze false r
  | .el a :: r => .el a :: squeeze false r

/-- The same content but for the amount of white space. -/
def SameContent (k l : List (Kid α)) : Prop := squeeze true (tokens k) = squeeze true (tokens l)

/-- Children as elements keep them: texts are not empty and never next to each other (`add_data` and
`content_changed` join them). -/
def Good : List (Kid α) → Prop
  | [] => True
  | .text s :: r => s ≠ [] ∧ (∀ t q, r ≠ .text t :: q) ∧ Good r
  | .el _ :: r => Good r

/-- Not just one text. -/
def NotLone (k : List (Kid α)) : Prop := ∀ s, k ≠ [.text s]

/-! ## Proofs -/

theorem isS_iff (c : Nat) : isS c = true ↔ White c := by
  unfold isS White
  simp only [Bool.or_eq_true, beq_iff_eq]
  omega

theorem tk_cons_s {c : Nat} (s : Str) (h : isS c = true) : tk (α := α) (c :: s) = .sp :: tk s := by
  unfold tk; rw [List.map_cons, if_pos ((isS_iff c).mp h)]

theorem tk_cons_n {c : Nat} (s : Str) (h : isS c = false) : tk (α := α) (c :: s) = .ch c :: tk s := by
  unfold tk; rw [List.map_cons, if_neg (by rw [← isS_iff, h]; simp)]

theorem collGo_s {c : Nat} (s : Str) (b : Bool) (h : isS c = true) :
    collGo b (c :: s) = if b then collGo true s else 32 :: collGo true s := by
  rw [collGo, if_pos h]

theorem collGo_n {c : Nat} (s : Str) (b : Bool) (h : isS c = false) : collGo b (c :: s) = c :: collGo false s := by
  rw [collGo, if_neg (by simp [h])]

/-- Text before an element. -/
theorem squeeze_before (a : α) (X : List (Tok α)) : ∀ (s : Str) (b : Bool),
    squeeze b (tk s ++ .el a :: X) = tk (collGo b s) ++ .el a :: squeeze false X := by
  intro s
  induction s with
  | nil => intro b; rfl
  | cons c s ih =>
    intro b
    cases h : isS c with
    | true =>
      rw [tk_cons_s s h, collGo_s s b h, List.cons_append, squeeze]
      cases b with
      | true => exact ih true
      | false =>
        have : (tk s ++ Tok.el a :: X).all isSp = false := by simp [isSp]
        rw [this]
        simp only [Bool.false_eq_true, if_false]
        rw [ih true, tk_cons_s _ (by decide)]
        rfl
    | false =>
      rw [tk_cons_n s h, collGo_n s b h, List.cons_append, squeeze, ih false, tk_cons_n _ h]
      rfl

/-- The text without a space at its end. -/
def strip32 (s : Str) : Str := if s.getLast? = some 32 then s.dropLast else s

theorem strip32_cons (c : Nat) (y : Str) (h : c ≠ 32 ∨ y ≠ []) : strip32 (c :: y) = c :: strip32 y := by
  unfold strip32
  cases y with
  | nil =>
    rcases h with h | h
    · simp [h]
    · exact absurd rfl h
  | cons d y =>
    rw [List.getLast?_cons_cons, List.dropLast_cons_of_ne_nil (by simp)]
    split <;> rfl

theorem collGo_true_nil (s : Str) : collGo true s = [] ↔ (tk (α := α) s).all isSp = true := by
  induction s with
  | nil => simp [collGo, tk]
  | cons c s ih =>
    cases h : isS c with
    | true => rw [collGo_s s _ h, tk_cons_s s h]; simpa [isSp] using ih
    | false => rw [collGo_n s _ h, tk_cons_n s h]; simp [isSp]

/-- Text at the end. -/
theorem squeeze_end : ∀ (s : Str) (b : Bool), squeeze b (tk (α := α) s) = tk (strip32 (collGo b s)) := by
  intro s
  induction s with
  | nil => intro b; rfl
  | cons c s ih =>
    intro b
    cases h : isS c with
    | true =>
      rw [tk_cons_s s h, collGo_s s b h, squeeze]
      cases b with
      | true => exact ih true
      | false =>
        simp only [Bool.false_eq_true, if_false]
        by_cases ha : (tk (α := α) s).all isSp = true
        · rw [if_pos ha, (collGo_true_nil s).mpr ha]; rfl
        · rw [if_neg ha, strip32_cons 32 _ (.inr fun e => ha ((collGo_true_nil s).mp e)), tk_cons_s _ (by decide), ih true]
    | false =>
      have h32 : c ≠ 32 := by rintro rfl; exact absurd h (by decide)
      rw [tk_cons_n s h, collGo_n s b h, squeeze, strip32_cons c _ (.inl h32), tk_cons_n _ h, ih false]

theorem collGo_false_ne (s : Str) (h : s ≠ []) : collGo false s ≠ [] := by
  cases s with
  | nil => exact absurd rfl h
  | cons c s =>
    cases hc : isS c with
    | true => rw [collGo_s s _ hc]; simp
    | false => rw [collGo_n s _ hc]; simp

theorem collGo_true_ne32 (s : Str) : collGo true s ≠ [32] := by
  induction s with
  | nil => simp [collGo]
  | cons c s ih =>
    cases hc : isS c with
    | true => rw [collGo_s s _ hc]; exact ih
    | false =>
      rw [collGo_n s _ hc]
      intro e
      have := (List.cons.inj e).1
      subst this
      exact absurd hc (by decide)

theorem collapse_false (s : Str) (h : s ≠ []) : collapseSpace s false = collGo false s := by
  unfold collapseSpace; rw [if_neg (collGo_false_ne s h)]

theorem loop_end (s : Str) (h : s ≠ []) :
    loop (α := α) (some s) false [] = if strip32 (collGo false s) = [] then [] else [.text (strip32 (collGo false s))] := by
  rw [loop, collapse_false s h]
  have hne := collGo_false_ne s h
  generalize collGo false s = y at hne
  by_cases h1 : y = [32]
  · rw [if_pos h1, h1]; rfl
  · rw [if_neg h1]
    have hs : strip32 y ≠ [] := by
      unfold strip32
      split
      · intro e
        cases y with
        | nil => exact hne rfl
        | cons c y => cases y with
          | nil => simp_all
          | cons d y => simp at e
      · exact hne
    rw [if_neg hs]
    unfold strip32
    split <;> rfl

theorem loop_el (s : Str) (b : Bool) (h : s ≠ []) (a : α) (r : List (Kid α)) :
    loop (some s) b (.el a :: r) =
      (if collGo b s = [] then [] else [.text (collGo b s)]) ++ .el a :: loop none false r := by
  rw [loop]
  congr 1
  cases b with
  | false =>
    rw [collapse_false s h, if_pos (.inl rfl), if_neg (collGo_false_ne s h)]
  | true =>
    unfold collapseSpace
    by_cases e : collGo true s = []
    · simp [e]
    · rw [if_neg e, if_neg e, if_pos (.inr (collGo_true_ne32 s))]

theorem tokens_append (k l : List (Kid α)) : tokens (k ++ l) = tokens k ++ tokens l := by
  induction k with
  | nil => rfl
  | cons x k ih => cases x <;> simp [tokens, ih]

theorem tokens_opt (s : Str) : tokens (α := α) (if s = [] then [] else [.text s]) = tk s := by
  split
  · next h => rw [h]; rfl
  · simp [tokens]

/-- The content of what the loop yields after an element. -/
theorem loop_tokens : ∀ (n : Nat) (r : List (Kid α)), r.length ≤ n → Good r →
    tokens (loop none false r) = squeeze false (tokens r) := by
  intro n
  induction n with
  | zero => intro r hr _; cases r with
    | nil => rfl
    | cons x r => simp at hr
  | succ n ih =>
    intro r hr hg
    match r, hr, hg with
    | [], _, _ => rfl
    | .el a :: r, hr, hg =>
      rw [loop]
      simp only [List.nil_append, tokens, squeeze]
      rw [ih r (by simp at hr; omega) hg]
    | [.text s], _, hg =>
      have e : loop (α := α) none false [.text s] = loop (some s) false [] := by rw [loop]; rfl
      rw [e, loop_end s hg.1, tokens_opt]
      simp only [tokens, List.append_nil]
      rw [squeeze_end]
    | .text s :: .text t :: r, _, hg => exact absurd rfl (hg.2.1 t r)
    | .text s :: .el a :: r, hr, hg =>
      have e : loop (α := α) none false (.text s :: .el a :: r) = loop (some s) false (.el a :: r) := by rw [loop]; rfl
      rw [e, loop_el s false hg.1, tokens_append, tokens_opt]
      simp only [tokens]
      rw [squeeze_before, ih r (by simp at hr; omega) hg.2.2]

/-- **C172** (content): the canonical children have the content of the children without the white
space that does not count. -/
theorem C172_content_partial (k : List (Kid α)) (hg : Good k) (hl : NotLone k) :
    tokens (canon false k) = squeeze true (tokens k) := by
  unfold canon
  simp only [Bool.false_eq_true, if_false]
  match k, hg, hl with
  | [], _, _ => rfl
  | [.text s], _, hl => exact absurd rfl (hl s)
  | [.el a], _, _ => rfl
  | .text s :: .text t :: r, hg, _ => exact absurd rfl (hg.2.1 t r)
  | .text s :: .el a :: r, hg, _ =>
    dsimp only
    rw [loop_el s true hg.1, tokens_append, tokens_opt]
    simp only [tokens]
    rw [squeeze_before, loop_tokens _ r (Nat.le_refl _) hg.2.2]
  | .el a :: x :: r, hg, _ =>
    dsimp only
    have := loop_tokens _ (x :: r) (Nat.le_refl _) hg
    simp only [tokens, squeeze] at this ⊢
    rw [this]

/-- Only spaces as white space. -/
def Clean : List (Kid α) → Prop
  | [] => True
  | .text s :: r => (∀ c ∈ s, White c → c = 32) ∧ Clean r
  | .el _ :: r => Clean r

theorem tk_inj : ∀ (s t : Str) (X Y : List (Tok α)), (∀ c ∈ s, White c → c = 32) → (∀ c ∈ t, White c → c = 32) →
    (X = [] ∨ ∃ a X', X = .el a :: X') → (Y = [] ∨ ∃ a Y', Y = .el a :: Y') →
    tk s ++ X = tk t ++ Y → s = t ∧ X = Y := by
  intro s
  induction s with
  | nil =>
    intro t X Y _ _ hX _ e
    cases t with
    | nil => exact ⟨rfl, e⟩
    | cons d t =>
      exfalso
      cases hd : isS d
      · rw [tk_cons_n t hd] at e
        rcases hX with rfl | ⟨a, X', rfl⟩ <;> simp [tk] at e
      · rw [tk_cons_s t hd] at e
        rcases hX with rfl | ⟨a, X', rfl⟩ <;> simp [tk] at e
  | cons c s ih =>
    intro t X Y hs ht hX hY e
    cases t with
    | nil =>
      exfalso
      cases hc : isS c
      · rw [tk_cons_n s hc] at e
        rcases hY with rfl | ⟨a, Y', rfl⟩ <;> simp [tk] at e
      · rw [tk_cons_s s hc] at e
        rcases hY with rfl | ⟨a, Y', rfl⟩ <;> simp [tk] at e
    | cons d t =>
      have hs' : ∀ c ∈ s, White c → c = 32 := fun x hx => hs x (by simp [hx])
      have ht' : ∀ c ∈ t, White c → c = 32 := fun x hx => ht x (by simp [hx])
      cases hc : isS c with
      | true =>
        cases hd : isS d with
        | true =>
          rw [tk_cons_s s hc, tk_cons_s t hd] at e
          simp only [List.cons_append, List.cons.injEq, true_and] at e
          obtain ⟨rfl, rfl⟩ := ih t X Y hs' ht' hX hY e
          rw [hs c (by simp) ((isS_iff c).mp hc), ht d (by simp) ((isS_iff d).mp hd)]
          exact ⟨rfl, rfl⟩
        | false => rw [tk_cons_s s hc, tk_cons_n t hd] at e; simp at e
      | false =>
        cases hd : isS d with
        | true => rw [tk_cons_n s hc, tk_cons_s t hd] at e; simp at e
        | false =>
          rw [tk_cons_n s hc, tk_cons_n t hd] at e
          simp only [List.cons_append, List.cons.injEq, Tok.ch.injEq] at e
          obtain ⟨rfl, rfl⟩ := ih t X Y hs' ht' hX hY e.2
          rw [e.1]
          exact ⟨rfl, rfl⟩

theorem tokens_start (r : List (Kid α)) (h : ∀ t q, r ≠ .text t :: q) : tokens r = [] ∨ ∃ a X, tokens r = .el a :: X := by
  cases r with
  | nil => exact .inl rfl
  | cons x r => cases x with
    | text t => exact absurd rfl (h t r)
    | el a => exact .inr ⟨a, _, rfl⟩

/-- Children with single spaces are determined by their content. -/
theorem tokens_inj : ∀ (k l : List (Kid α)), Good k → Good l → Clean k → Clean l → tokens k = tokens l → k = l := by
  intro k
  induction k with
  | nil =>
    intro l _ hl _ _ e
    cases l with
    | nil => rfl
    | cons x l => cases x with
      | el a => simp [tokens] at e
      | text t =>
        cases t with
        | nil => exact absurd rfl hl.1
        | cons d t => simp [tokens, tk] at e
  | cons x k ih =>
    intro l hk hl ck cl e
    cases l with
    | nil =>
      cases x with
      | el a => simp [tokens] at e
      | text t =>
        cases t with
        | nil => exact absurd rfl hk.1
        | cons d t => simp [tokens, tk] at e
    | cons y l =>
      cases x with
      | el a =>
        cases y with
        | el b =>
          simp only [tokens, List.cons.injEq, Tok.el.injEq] at e
          rw [e.1, ih l hk hl ck cl e.2]
        | text t =>
          cases t with
          | nil => exact absurd rfl hl.1
          | cons d t =>
            rw [tokens, tokens] at e
            cases hd : isS d
            · rw [tk_cons_n t hd] at e; simp at e
            · rw [tk_cons_s t hd] at e; simp at e
      | text s =>
        cases y with
        | el b =>
          cases s with
          | nil => exact absurd rfl hk.1
          | cons d t =>
            rw [tokens, tokens] at e
            cases hd : isS d
            · rw [tk_cons_n t hd] at e; simp at e
            · rw [tk_cons_s t hd] at e; simp at e
        | text t =>
          rw [tokens, tokens] at e
          obtain ⟨rfl, e'⟩ := tk_inj s t _ _ ck.1 cl.1 (tokens_start k hk.2.1) (tokens_start l hl.2.1) e
          rw [ih l hk.2.2 hl.2.2 ck.2 cl.2 e']

theorem collGo_clean (s : Str) : ∀ (b : Bool), ∀ c ∈ collGo b s, White c → c = 32 := by
  induction s with
  | nil => intro b c hc; cases hc
  | cons d s ih =>
    intro b c hc hw
    cases hd : isS d with
    | true =>
      rw [collGo_s s b hd] at hc
      cases b with
      | true => exact ih true c hc hw
      | false =>
        rcases List.mem_cons.mp hc with rfl | hc
        · rfl
        · exact ih true c hc hw
    | false =>
      rw [collGo_n s b hd] at hc
      rcases List.mem_cons.mp hc with rfl | hc
      · rw [(isS_iff c).mpr hw] at hd; cases hd
      · exact ih false c hc hw

theorem strip32_sub (s : Str) : ∀ c ∈ strip32 s, c ∈ s := by
  intro c hc
  unfold strip32 at hc
  split at hc
  · exact List.dropLast_subset _ hc
  · exact hc

theorem opt_good (s : Str) (a : α) (r : List (Kid α)) (hr : Good r) (cr : Clean r) (hs : ∀ c ∈ s, White c → c = 32) :
    Good ((if s = [] then [] else [.text s]) ++ .el a :: r) ∧ Clean ((if s = [] then [] else [.text s]) ++ .el a :: r) := by
  split
  · exact ⟨hr, cr⟩
  · next h => exact ⟨⟨h, (by intro t q e; cases e), hr⟩, hs, cr⟩

theorem loop_good : ∀ (n : Nat) (r : List (Kid α)), r.length ≤ n → Good r →
    Good (loop none false r) ∧ Clean (loop none false r) := by
  intro n
  induction n with
  | zero => intro r hr _; cases r with
    | nil => exact ⟨trivial, trivial⟩
    | cons x r => simp at hr
  | succ n ih =>
    intro r hr hg
    match r, hr, hg with
    | [], _, _ => exact ⟨trivial, trivial⟩
    | .el a :: r, hr, hg =>
      rw [loop]
      exact ih r (by simp at hr; omega) hg
    | [.text s], _, hg =>
      have e : loop (α := α) none false [.text s] = loop (some s) false [] := by rw [loop]; rfl
      rw [e, loop_end s hg.1]
      split
      · exact ⟨trivial, trivial⟩
      · next h =>
        exact ⟨⟨h, (by intro t q e; cases e), trivial⟩, fun c hc => collGo_clean s false c (strip32_sub _ c hc), trivial⟩
    | .text s :: .text t :: r, _, hg => exact absurd rfl (hg.2.1 t r)
    | .text s :: .el a :: r, hr, hg =>
      have e : loop (α := α) none false (.text s :: .el a :: r) = loop (some s) false (.el a :: r) := by rw [loop]; rfl
      obtain ⟨h1, h2⟩ := ih r (by simp at hr; omega) hg.2.2
      rw [e, loop_el s false hg.1]
      exact opt_good _ a _ h1 h2 (collGo_clean s false)

theorem canon_good (k : List (Kid α)) (hg : Good k) (hl : NotLone k) : Good (canon false k) ∧ Clean (canon false k) := by
  unfold canon
  simp only [Bool.false_eq_true, if_false]
  match k, hg, hl with
  | [], _, _ => exact ⟨trivial, trivial⟩
  | [.text s], _, hl => exact absurd rfl (hl s)
  | [.el a], _, _ => exact ⟨trivial, trivial⟩
  | .text s :: .text t :: r, hg, _ => exact absurd rfl (hg.2.1 t r)
  | .text s :: .el a :: r, hg, _ =>
    dsimp only
    obtain ⟨h1, h2⟩ := loop_good _ r (Nat.le_refl _) hg.2.2
    rw [loop_el s true hg.1]
    exact opt_good _ a _ h1 h2 (collGo_clean s true)
  | .el a :: x :: r, hg, _ =>
    dsimp only
    exact loop_good _ (x :: r) (Nat.le_refl _) hg

/-- **C172** (comparison): the canonical children of two elements are equal exactly if the elements
have the same content but for the amount of white space between things and white space at the start
and the end.  Elements that have a text and nothing else are excepted. -/
theorem C172_equal_partial (k l : List (Kid α)) (hk : Good k) (hl : Good l) (nk : NotLone k) (nl : NotLone l) :
    canon false k = canon false l ↔ SameContent k l := by
  unfold SameContent
  rw [← C172_content_partial k hk nk, ← C172_content_partial l hl nl]
  constructor
  · intro h; rw [h]
  · intro h
    obtain ⟨g1, c1⟩ := canon_good k hk nk
    obtain ⟨g2, c2⟩ := canon_good l hl nl
    exact tokens_inj _ _ g1 g2 c1 c2 h

/-- **C172** (preserved): with `xml:space="preserve"` the children are the canonical children. -/
theorem C172_preserve (k : List (Kid α)) : canon true k = k := rfl

/-- **C172** (idempotence): canonical children are their own canonical children. -/
theorem C172_idempotent_partial (k : List (Kid α)) (hk : Good k) (nk : NotLone k) (nc : NotLone (canon false k)) :
    canon false (canon false k) = canon false k := by
  have sq : ∀ (n : Nat) (l : List (Tok α)), l.length ≤ n → ∀ b, squeeze b (squeeze b l) = squeeze b l := by
    have all_sq : ∀ (l : List (Tok α)), l.all isSp = false → ∀ b, (squeeze b l).all isSp = false := by
      intro l
      induction l with
      | nil => intro h; simp at h
      | cons x l ih =>
        intro h b
        cases x with
        | ch c => simp [squeeze, isSp]
        | el a => simp [squeeze, isSp]
        | sp =>
          have h' : l.all isSp = false := by simpa [isSp] using h
          rw [squeeze]
          cases b with
          | true => exact ih h' true
          | false =>
            rw [h']
            simp only [Bool.false_eq_true, if_false, List.all_cons, isSp, Bool.true_and]
            exact ih h' true
    intro n
    induction n with
    | zero => intro l hl b; cases l with
      | nil => rfl
      | cons x l => simp at hl
    | succ n ih =>
      intro l hl b
      cases l with
      | nil => rfl
      | cons x l =>
        have hl' : l.length ≤ n := by simp at hl; omega
        cases x with
        | ch c => rw [squeeze, squeeze, ih l hl']
        | el a => rw [squeeze, squeeze, ih l hl']
        | sp =>
          rw [squeeze]
          cases b with
          | true => exact ih l hl' true
          | false =>
            simp only [Bool.false_eq_true, if_false]
            cases ha : l.all isSp with
            | true => rfl
            | false =>
              simp only [Bool.false_eq_true, if_false]
              rw [squeeze, all_sq l ha true, ih l hl' true]
              rfl
  obtain ⟨g, _⟩ := canon_good k hk nk
  refine (C172_equal_partial _ _ g hk nc nk).mpr ?_
  unfold SameContent
  rw [C172_content_partial k hk nk]
  exact sq _ _ (Nat.le_refl _) true

theorem loop_adjacent (s t : Str) (r : List (Kid α)) : ∀ (pre : List (Kid α)) (d : Option Str) (b : Bool),
    loop d b (pre ++ .text s :: .text t :: r) = loop d b (pre ++ .text (s ++ t) :: r) := by
  intro pre
  induction pre with
  | nil =>
    intro d b
    simp only [List.nil_append, loop, Option.getD_some, List.append_assoc]
  | cons x pre ih =>
    intro d b
    cases x with
    | text u => simp only [List.cons_append, loop]; exact ih _ _
    | el a => simp only [List.cons_append, loop]; rw [ih]

/-- **C172** (adjacent texts): it does not matter whether text is one child or two, if there is any
other child. -/
theorem C172_adjacent_partial (pre r : List (Kid α)) (s t : Str) (h : pre ≠ [] ∨ r ≠ []) :
    canon false (pre ++ .text s :: .text t :: r) = canon false (pre ++ .text (s ++ t) :: r) := by
  unfold canon
  simp only [Bool.false_eq_true, if_false]
  cases pre with
  | nil =>
    cases r with
    | nil => simp at h
    | cons y r =>
      simp only [List.nil_append]
      cases y <;> simp only [loop, Option.getD_some, List.append_assoc]
  | cons x pre =>
    have e := loop_adjacent s t r pre
    obtain ⟨y, l, hy⟩ : ∃ y l, pre ++ .text s :: .text t :: r = y :: l := by cases pre <;> exact ⟨_, _, rfl⟩
    obtain ⟨z, m, hz⟩ : ∃ z m, pre ++ .text (s ++ t) :: r = z :: m := by cases pre <;> exact ⟨_, _, rfl⟩
    rw [List.cons_append, List.cons_append]
    rw [hy, hz] at e ⊢
    cases x with
    | text u => exact e _ _
    | el a => simp only [e]

/-- **C172** (violation): two texts of white space and nothing else yield an empty text and a space. -/
theorem C172_two_blanks_violation : canon (α := α) false [.text [32], .text [32]] = [.text [], .text [32]] ∧
    canon (α := α) false [.text [32, 32]] = [.text [32]] := ⟨rfl, rfl⟩

/-- **C172** (violation): an element with text only keeps the space at the end of the text, so `<p>a </p>`
and `<p>a</p>` are different, though `<p>a<b/>c </p>` and `<p>a<b/>c</p>` are equal. -/
theorem C172_lone_violation (a : α) :
    SameContent (α := α) [.text [97, 32]] [.text [97]] ∧
    canon (α := α) false [.text [97, 32]] ≠ canon false [.text [97]] ∧
    canon false [.text [97], .el a, .text [99, 32]] = canon false [.text [97], .el a, .text [99]] := by
  refine ⟨rfl, ?_, rfl⟩
  intro h
  exact absurd h (by simp [canon, collapseSpace, collGo, isS])

/-- **C172** (violation): an element with nothing but white space differs from an empty one. -/
theorem C172_blank_violation : SameContent (α := α) [.text [32]] [] ∧ canon (α := α) false [.text [32]] ≠ canon false [] := by
  refine ⟨rfl, ?_⟩
  intro h
  exact absurd h (by simp [canon])

/-- **C172** (violation): an empty text between elements, as `add_data('')` makes it, counts as a space. -/
theorem C172_empty_violation (a b : α) :
    SameContent [.el a, .text [], .el b] [.el a, .el b] ∧
    canon false [.el a, .text [], .el b] = [.el a, .text [32], .el b] ∧
    canon false [.el a, .el b] = [.el a, .el b] := ⟨rfl, rfl, rfl⟩

/-- `" x <1/>  <2/> y"` -/
example : canon false [.text [32, 120, 32], .el 1, .text [32, 10], .el 2, .text [32, 121, 9]] =
    [.text [120, 32], .el 1, .text [32], .el 2, .text [32, 121]] ∧
    Good [.text [32, 120, 32], .el 1, .text [32, 10], .el 2, .text [32, 121, 9]] ∧
    NotLone [.text [32, 120, 32], .el 1, .text [32, 10], .el 2, .text [32, 121, 9]] :=
  ⟨by decide, ⟨by simp, (by intro t q e; cases e), by simp, (by intro t q e; cases e), by simp, (by intro t q e; cases e), trivial⟩,
    by intro s e; cases e⟩

end Verif.Dom.Canon

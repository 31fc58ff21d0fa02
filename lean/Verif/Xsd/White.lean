/-!
# White space facets, `pyslet/xml/xsdatatypes.py:882-908`: C34

A string is the list of its characters' codes.
-/
namespace Verif.Xsd

abbrev Str := List Nat

/-- `c in "\x09\x0A\x0D\x20"`, xsdatatypes.py:901. -/
def isSpace (c : Nat) : Bool := c == 0x09 || c == 0x0A || c == 0x0D || c == 0x20

/-- `white_space_replace`, xsdatatypes.py:883-891. -/
def replace (value : Str) : Str :=
  value.map fun c => if c == 0x09 || c == 0x0A || c == 0x0D then 0x20 else c

/-- The loop of `white_space_collapse`, xsdatatypes.py:900-907. -/
def collapseLoop : List Nat → Str → Bool → Str
  | [], output, _ => output
  | c :: value, output, gotSpace =>
    if isSpace c then collapseLoop value output true
    else if output ≠ [] ∧ gotSpace = true then collapseLoop value (output ++ [0x20] ++ [c]) false
    else collapseLoop value (output ++ [c]) gotSpace

/-- `white_space_collapse`, xsdatatypes.py:895-908. -/
def collapse (value : Str) : Str := collapseLoop value [] false

/-! ## Specification -/

/-- The string is not empty and starts with white space. -/
def startsSpace : Str → Bool
  | [] => false
  | c :: _ => isSpace c

/-- The words of a string: its maximal runs of characters that are not white space. -/
def words : Str → List Str
  | [] => []
  | c :: r =>
    if isSpace c then words r
    else if r = [] ∨ startsSpace r = true then [c] :: words r
    else (words r).modifyHead (c :: ·)

/-- The words separated by one space. -/
def join : List Str → Str
  | [] => []
  | [w] => w
  | w :: ws => w ++ 0x20 :: join ws

/-- The value space of the facet `collapse`: white space is a single space between two other characters. -/
structure Collapsed (s : Str) : Prop where
  spaces : ∀ c ∈ s, isSpace c = true → c = 0x20
  start : ∀ r, s ≠ 0x20 :: r
  «end» : ∀ r, s ≠ r ++ [0x20]
  double : ∀ a b, s ≠ a ++ 0x20 :: 0x20 :: b

/-- The string does not start with white space. -/
def NoLead (s : Str) : Prop := ∀ c r, s = c :: r → isSpace c = false

/-! ## Proofs -/

theorem words_space {c : Nat} {r : Str} (h : isSpace c = true) : words (c :: r) = words r := by
  rw [words]; simp [h]

theorem words_start {c : Nat} {r : Str} (h : isSpace c = false) (hr : r = [] ∨ startsSpace r = true) :
    words (c :: r) = [c] :: words r := by
  rw [words]; simp [h, hr]

theorem words_ne_nil {c : Nat} {r : Str} (h : isSpace c = false) : words (c :: r) ≠ [] := by
  induction r generalizing c with
  | nil => simp [words, h]
  | cons d r ih =>
    rw [words]
    simp only [h, Bool.false_eq_true, if_false]
    by_cases hd : isSpace d = true
    · simp [startsSpace, hd]
    · have hd' : isSpace d = false := by simpa using hd
      simp only [startsSpace, hd', reduceCtorEq, Bool.false_eq_true, or_self, if_false]
      have := ih hd'
      cases hw : words (d :: r) with
      | nil => exact absurd hw this
      | cons x ws => simp

theorem words_more {c d : Nat} {r : Str} (h : isSpace c = false) (hd : isSpace d = false) {w : Str} {ws : List Str}
    (hw : words (d :: r) = w :: ws) : words (c :: d :: r) = (c :: w) :: ws := by
  rw [words]; simp [h, hd, hw, startsSpace]

theorem join_cons_cons (w x : Str) (ws : List Str) : join (w :: x :: ws) = w ++ 0x20 :: join (x :: ws) := rfl

theorem join_cons_head (c : Nat) (w : Str) (ws : List Str) : join ((c :: w) :: ws) = c :: join (w :: ws) := by
  cases ws <;> simp [join]

/-- What the loop appends when the output is not empty. -/
theorem collapseLoop_some : ∀ (v out : Str) (g : Bool), out ≠ [] →
    collapseLoop v out g = out ++ (if words v = [] then [] else (if g = true ∨ startsSpace v = true then [0x20] else []) ++ join (words v)) := by
  intro v
  induction v with
  | nil => intro out g _; simp [collapseLoop, words]
  | cons c v ih =>
    intro out g ho
    rw [collapseLoop]
    by_cases hc : isSpace c = true
    · rw [if_pos hc, ih out true ho, words_space hc]
      simp [hc, startsSpace]
    · rw [if_neg hc]
      have hc' : isSpace c = false := by simpa using hc
      have hn := words_ne_nil (r := v) hc'
      rw [if_neg hn]
      have hg : ∀ (o : Str), o ≠ [] → collapseLoop v (o ++ [c]) false = o ++ join (words (c :: v)) := by
        intro o _
        rw [ih (o ++ [c]) false (by simp)]
        cases v with
        | nil => simp [words, hc', join]
        | cons d v =>
          by_cases hd : isSpace d = true
          · rw [words_start (r := d :: v) hc' (.inr hd)]
            by_cases hw : words (d :: v) = []
            · simp [hw, join]
            · obtain ⟨x, ws, e⟩ := List.exists_cons_of_ne_nil hw
              simp [e, hd, startsSpace, join_cons_cons]
          · have hd' : isSpace d = false := by simpa using hd
            obtain ⟨x, ws, e⟩ := List.exists_cons_of_ne_nil (words_ne_nil (r := v) hd')
            rw [words_more hc' hd' e, e, join_cons_head]
            simp [hd', startsSpace]
      by_cases hgg : g = true
      · rw [if_pos ⟨ho, hgg⟩, hg (out ++ [0x20]) (by simp)]
        simp [hgg]
      · rw [if_neg (by simp [hgg])]
        have : g = false := by simpa using hgg
        rw [this, hg out ho]
        simp [hc', startsSpace]

theorem collapse_lead : ∀ (v : Str) (g : Bool), collapseLoop v [] g =
    match v with
    | [] => []
    | c :: r => if isSpace c = true then collapseLoop r [] true else collapseLoop r [c] g := by
  intro v g
  cases v with
  | nil => rfl
  | cons c r =>
    rw [collapseLoop]
    simp

/-- The words of a string with words: the first character and the rest. -/
theorem words_head {c : Nat} {r : Str} (h : isSpace c = false) :
    join (words (c :: r)) = c :: (if words r = [] then [] else (if startsSpace r = true then [0x20] else []) ++ join (words r)) := by
  cases r with
  | nil => simp [words, h, join]
  | cons d r =>
    by_cases hd : isSpace d = true
    · rw [words_start (r := d :: r) h (.inr hd)]
      by_cases hw : words (d :: r) = []
      · simp [hw, join]
      · obtain ⟨x, ws, e⟩ := List.exists_cons_of_ne_nil hw
        simp [e, hd, startsSpace, join_cons_cons]
    · have hd' : isSpace d = false := by simpa using hd
      obtain ⟨x, ws, e⟩ := List.exists_cons_of_ne_nil (words_ne_nil (r := r) hd')
      rw [words_more h hd' e, e, join_cons_head]
      simp [hd', startsSpace]

/-- **C34**: `white_space_collapse` of a string that does not start with white space is its words separated by single
spaces. -/
theorem C34_collapse (v : Str) (h : NoLead v) : collapse v = join (words v) := by
  unfold collapse
  rw [collapse_lead]
  cases v with
  | nil => rfl
  | cons c r =>
    have hc := h c r rfl
    dsimp only
    rw [if_neg (by simp [hc]), collapseLoop_some r [c] false (by simp), words_head hc]
    simp

/-- C34 is violated by every string that starts with white space and whose first word has more than one character: the
first character becomes a word of its own. -/
theorem C34_leading_violation (p : Str) (hp : p ≠ []) (hs : ∀ c ∈ p, isSpace c = true) (c : Nat) (r : Str)
    (hc : isSpace c = false) : collapse (p ++ c :: r) = join ([c] :: words r) := by
  have key : ∀ (p : Str), (∀ c ∈ p, isSpace c = true) → collapseLoop (p ++ c :: r) [] true = join ([c] :: words r) := by
    intro p
    induction p with
    | nil =>
      intro _
      rw [collapse_lead]
      simp only [List.nil_append, hc, Bool.false_eq_true, if_false]
      rw [collapseLoop_some r [c] true (by simp)]
      by_cases hw : words r = []
      · simp [hw, join]
      · obtain ⟨x, ws, e⟩ := List.exists_cons_of_ne_nil hw
        simp [e, join_cons_cons]
    | cons x p ih =>
      intro hx
      rw [collapse_lead]
      simp only [List.cons_append, hx x (by simp), if_true]
      exact ih fun y hy => hx y (by simp [hy])
  cases p with
  | nil => exact absurd rfl hp
  | cons x p =>
    unfold collapse
    rw [collapse_lead]
    simp only [List.cons_append, hs x (by simp), if_true]
    exact key p fun y hy => hs y (by simp [hy])

/-- `" ab"` becomes `"a b"`, which is not what the facet says. -/
example : collapse [32, 97, 98] = [97, 32, 98] ∧ join (words [32, 97, 98]) = [97, 98] := by decide

/-- Lists of words. -/
def Words (ws : List Str) : Prop := ∀ w ∈ ws, w ≠ [] ∧ ∀ c ∈ w, isSpace c = false

theorem words_Words : ∀ (v : Str), Words (words v) := by
  intro v
  induction v with
  | nil => simp [words, Words]
  | cons c r ih =>
    by_cases hc : isSpace c = true
    · rw [words_space hc]; exact ih
    · have hc' : isSpace c = false := by simpa using hc
      by_cases hr : r = [] ∨ startsSpace r = true
      · rw [words_start hc' hr]
        intro w hw
        simp only [List.mem_cons] at hw
        rcases hw with rfl | hw
        · exact ⟨by simp, by simp [hc']⟩
        · exact ih w hw
      · obtain ⟨d, r', rfl, hd⟩ : ∃ d r', r = d :: r' ∧ isSpace d = false := by
          cases r with
          | nil => exact absurd (.inl rfl) hr
          | cons d r' =>
            refine ⟨d, r', rfl, ?_⟩
            cases hd : isSpace d with
            | false => rfl
            | true => exact absurd (.inr hd) hr
        obtain ⟨x, ws, e⟩ := List.exists_cons_of_ne_nil (words_ne_nil (r := r') hd)
        rw [words_more hc' hd e]
        rw [e] at ih
        intro w hw
        simp only [List.mem_cons] at hw
        rcases hw with rfl | hw
        · refine ⟨by simp, ?_⟩
          intro y hy
          simp only [List.mem_cons] at hy
          rcases hy with rfl | hy
          · exact hc'
          · exact (ih x (by simp)).2 y hy
        · exact ih w (by simp [hw])

theorem words_append {w v : Str} (hw : w ≠ []) (h : ∀ c ∈ w, isSpace c = false) :
    words (w ++ 0x20 :: v) = w :: words v := by
  induction w with
  | nil => exact absurd rfl hw
  | cons c w ih =>
    have hc := h c (by simp)
    cases w with
    | nil =>
      rw [List.singleton_append, words_start hc (.inr (by simp [startsSpace, isSpace])), words_space (by decide)]
    | cons d w =>
      rw [List.cons_append, List.cons_append]
      refine words_more hc (h d (by simp)) ?_
      exact ih (by simp) fun y hy => h y (by simp [hy])

theorem words_one {w : Str} (hw : w ≠ []) (h : ∀ c ∈ w, isSpace c = false) : words w = [w] := by
  induction w with
  | nil => exact absurd rfl hw
  | cons c w ih =>
    have hc := h c (by simp)
    cases w with
    | nil => simp [words, hc]
    | cons d w => exact words_more hc (h d (by simp)) (ih (by simp) fun y hy => h y (by simp [hy]))

theorem words_join : ∀ (ws : List Str), Words ws → words (join ws) = ws := by
  intro ws
  induction ws with
  | nil => intro _; rfl
  | cons w ws ih =>
    intro h
    obtain ⟨h1, h2⟩ := h w (by simp)
    cases ws with
    | nil => exact words_one h1 h2
    | cons x ws =>
      rw [join_cons_cons, words_append h1 h2, ih fun y hy => h y (by simp [hy])]

theorem join_noLead {ws : List Str} (h : Words ws) : NoLead (join ws) := by
  intro c r e
  cases ws with
  | nil => cases e
  | cons w ws =>
    obtain ⟨h1, h2⟩ := h w (by simp)
    cases w with
    | nil => exact absurd rfl h1
    | cons d w =>
      rw [join_cons_head] at e
      simp only [List.cons.injEq] at e
      rw [← e.1]
      exact h2 d (by simp)

theorem Collapsed_word {w : Str} (h : ∀ c ∈ w, isSpace c = false) : Collapsed w where
  spaces := by intro c hc hs; rw [h c hc] at hs; cases hs
  start := by rintro r rfl; exact absurd (h 0x20 (by simp)) (by decide)
  «end» := by rintro r rfl; exact absurd (h 0x20 (by simp)) (by decide)
  double := by rintro a b rfl; exact absurd (h 0x20 (by simp)) (by decide)

theorem Collapsed_cons {w s : Str} (hw : w ≠ []) (h : ∀ c ∈ w, isSpace c = false) (hs : Collapsed s) (hn : s ≠ []) :
    Collapsed (w ++ 0x20 :: s) where
  spaces := by
    intro c hc hx
    simp only [List.mem_append, List.mem_cons] at hc
    rcases hc with hc | hc | hc
    · rw [h c hc] at hx; cases hx
    · exact hc
    · exact hs.spaces c hc hx
  start := by
    intro r e
    cases w with
    | nil => exact hw rfl
    | cons c w =>
      simp only [List.cons_append, List.cons.injEq] at e
      have := h c (by simp)
      rw [e.1] at this
      exact absurd this (by decide)
  «end» := by
    intro r e
    obtain ⟨x, y, hx⟩ : ∃ x y, s = x ++ [y] := ⟨s.dropLast, s.getLast hn, (List.dropLast_concat_getLast hn).symm⟩
    rw [hx, ← List.cons_append, ← List.append_assoc] at e
    have e2 := (List.append_inj' e rfl).2
    simp only [List.cons.injEq, and_true] at e2
    exact hs.end x (by rw [hx, e2])
  double := by
    intro a b e
    rcases List.append_eq_append_iff.mp e with ⟨x, h1, h2⟩ | ⟨x, h1, h2⟩
    · -- the double space is inside `0x20 :: s`
      cases x with
      | nil =>
        simp only [List.nil_append, List.cons.injEq, true_and] at h2
        exact hs.start b h2
      | cons y x =>
        simp only [List.cons_append, List.cons.injEq] at h2
        exact hs.double x b h2.2
    · cases x with
      | nil =>
        simp only [List.nil_append, List.cons.injEq, true_and] at h2
        exact hs.start b h2.symm
      | cons y x =>
        simp only [List.cons_append, List.cons.injEq] at h2
        have := h y (by rw [h1]; simp)
        rw [← h2.1] at this
        exact absurd this (by decide)

theorem join_ne_nil {ws : List Str} (h : Words ws) (hn : ws ≠ []) : join ws ≠ [] := by
  intro e
  have := words_join ws h
  rw [e] at this
  exact hn this.symm

theorem Collapsed_join : ∀ (ws : List Str), Words ws → Collapsed (join ws) := by
  intro ws
  induction ws with
  | nil => intro _; exact Collapsed_word (w := []) (fun _ h => nomatch h)
  | cons w ws ih =>
    intro h
    obtain ⟨h1, h2⟩ := h w (by simp)
    have h3 : Words ws := fun y hy => h y (by simp [hy])
    cases ws with
    | nil => exact Collapsed_word h2
    | cons x ws =>
      rw [join_cons_cons]
      exact Collapsed_cons h1 h2 (ih h3) (join_ne_nil h3 (by simp))

theorem collapse_form (v : Str) : ∃ ws, Words ws ∧ collapse v = join ws := by
  by_cases h : NoLead v
  · exact ⟨_, words_Words v, C34_collapse v h⟩
  · have split : ∀ (v : Str), (∃ p c r, v = p ++ c :: r ∧ (∀ x ∈ p, isSpace x = true) ∧ isSpace c = false) ∨
        ∀ x ∈ v, isSpace x = true := by
      intro v
      induction v with
      | nil => exact .inr (by simp)
      | cons a v ih =>
        cases ha : isSpace a with
        | false => exact .inl ⟨[], a, v, rfl, by simp, ha⟩
        | true =>
          rcases ih with ⟨p, c, r, rfl, h1, h2⟩ | h1
          · exact .inl ⟨a :: p, c, r, rfl, by simpa [ha] using h1, h2⟩
          · exact .inr (by simpa [ha] using h1)
    rcases split v with ⟨p, c, r, rfl, h1, h2⟩ | h1
    · by_cases hp : p = []
      · subst hp
        exfalso
        apply h
        intro x y e
        simp only [List.nil_append, List.cons.injEq] at e
        rw [← e.1]; exact h2
      · refine ⟨_, ?_, C34_leading_violation p hp h1 c r h2⟩
        intro w hw
        simp only [List.mem_cons] at hw
        rcases hw with rfl | hw
        · exact ⟨by simp, by simp [h2]⟩
        · exact words_Words r w hw
    · have : ∀ (v : Str) g, (∀ x ∈ v, isSpace x = true) → collapseLoop v [] g = [] := by
        intro v
        induction v with
        | nil => intro g _; rfl
        | cons a v ih =>
          intro g hx
          rw [collapseLoop, if_pos (hx a (by simp))]
          exact ih true fun y hy => hx y (by simp [hy])
      exact ⟨[], by simp [Words], this v false h1⟩

/-- **C34**: the result of `white_space_collapse` (of any string) is collapsed: only single spaces, between words. -/
theorem C34_collapsed (v : Str) : Collapsed (collapse v) := by
  obtain ⟨ws, h1, h2⟩ := collapse_form v
  rw [h2]
  exact Collapsed_join ws h1

/-- **C34**: collapsing again changes nothing. -/
theorem C34_idempotent (v : Str) : collapse (collapse v) = collapse v := by
  obtain ⟨ws, h1, h2⟩ := collapse_form v
  rw [h2, C34_collapse _ (join_noLead h1), words_join ws h1]

/-- **C34**: `white_space_replace` replaces each tab, line feed and carriage return by a space, and is idempotent. -/
theorem C34_replace (v : Str) : (replace v).length = v.length ∧ (∀ c ∈ replace v, c ≠ 0x09 ∧ c ≠ 0x0A ∧ c ≠ 0x0D) ∧
    words (replace v) = words v ∧ replace (replace v) = replace v := by
  have hsp : ∀ c, isSpace (if c == 0x09 || c == 0x0A || c == 0x0D then 0x20 else c) = isSpace c := by
    intro c
    split
    · rename_i h; simp only [isSpace]; simp_all
    · rfl
  have hid : ∀ c, isSpace c = false → (if c == 0x09 || c == 0x0A || c == 0x0D then 0x20 else c) = c := by
    intro c h
    split
    · rename_i h2; simp only [isSpace, Bool.or_eq_false_iff] at h; simp_all
    · rfl
  refine ⟨by simp [replace], ?_, ?_, ?_⟩
  · intro c hc
    simp only [replace, List.mem_map] at hc
    obtain ⟨a, _, rfl⟩ := hc
    split
    · decide
    · rename_i h; simp only [Bool.not_eq_true, Bool.or_eq_false_iff, beq_eq_false_iff_ne, ne_eq] at h
      exact ⟨h.1.1, h.1.2, h.2⟩
  · induction v with
    | nil => rfl
    | cons c r ih =>
      have e : replace (c :: r) = (if c == 0x09 || c == 0x0A || c == 0x0D then 0x20 else c) :: replace r := rfl
      rw [e]
      cases hc : isSpace c with
      | true => rw [words_space (by rw [hsp]; exact hc), words_space hc, ih]
      | false =>
        rw [hid c hc]
        cases r with
        | nil => rfl
        | cons d r =>
          cases hd : isSpace d with
          | true =>
            rw [words_start (r := d :: r) hc (.inr hd), words_start hc (.inr (by simp only [replace, List.map_cons, startsSpace, hsp]; exact hd)), ih]
          | false =>
            obtain ⟨x, ws, e2⟩ := List.exists_cons_of_ne_nil (words_ne_nil (r := r) hd)
            rw [words_more hc hd e2]
            have e3 : replace (d :: r) = d :: replace r := by simp only [replace, List.map_cons, hid d hd]
            rw [e3] at ih ⊢
            exact words_more hc hd (by rw [ih, e2])
  · simp only [replace, List.map_map]
    apply List.map_congr_left
    intro c _
    simp only [Function.comp]
    split <;> simp_all

end Verif.Xsd

import Verif.CharClass.HeapLemmas
/-! # Property theorems C01 - C04 (character classes) -/
namespace Verif.CharClass

/-- **C01.** After every history of constructor arguments and method calls, `test_slow(c)` (and
`test(c)` of a fresh cache) answer membership in the set computed by set operations. -/
theorem C01_charclass_is_set (h : Hist) (c : Nat) :
    (testSlow h.ranges c = true ↔ h.set c) ∧
    ((Obj.test ⟨h.ranges, emptyCache⟩ c).2 = true ↔ h.set c) := by
  obtain ⟨h1, h2⟩ := hist_spec h
  exact ⟨(testSlow_iff h1 c).trans (h2 c),
    ((test_spec (coherent_empty h1) c).2.2).trans (h2 c)⟩

/-- A non-trivial history: `[a-z]` minus `[f-h]`, plus another class, negated. -/
def sampleHist : Hist :=
  .negate (.addClass (.subtractRange (.addRange .new 97 122) 104 102) (.addChar (.addChar .new 49) 48))

example : sampleHist.ranges = [(0, 47), (50, 96), (102, 104), (123, maxunicode)] := by decide +kernel
example : testSlow sampleHist.ranges 103 = true ∧ testSlow sampleHist.ranges 97 = false := by
  decide +kernel

/-- `subtract_class` with the object itself as argument is *not* in `Hist` (its arguments are other
objects).  For it the set reading fails: the loop iterates over the list it shrinks, so
subtracting a two-range class from itself leaves a range. -/
theorem C01_subtract_self_violation :
    ∃ h : Hist, (Heap.subtractSelf (h.ranges.length + 1) 0 h.ranges) ≠ [] :=
  ⟨.addChar (.addChar .new 97) 120, by decide +kernel⟩

/-- **C02.** `==` (equality of the stored range lists) is equality of the sets. -/
theorem C02_eq_iff_same_set (h k : Hist) : h.ranges = k.ranges ↔ ∀ c, (h.set c ↔ k.set c) := by
  obtain ⟨h1, h2⟩ := hist_spec h
  obtain ⟨k1, k2⟩ := hist_spec k
  constructor
  · intro e c; rw [← h2, ← k2, e]
  · intro hs; exact canon_unique h1 k1 (fun c => by rw [h2, k2]; exact hs c)

/-- C02, second half: the stored ranges are canonical after every history. -/
theorem C02_canonical (h : Hist) : Canon h.ranges := (hist_spec h).1

example : (Hist.addRange .new 97 99).ranges =
    (Hist.addChar (.addChar (.addChar .new 99) 97) 98).ranges := by decide +kernel

/-- **C03.** After every history of mutations and tests on one object, `test(c)` gives the answer of
`test_slow(c)` on the current ranges. -/
theorem C03_cache_invisible (evs : List Event) (hl : ∀ e ∈ evs, e.Legal) (c : Nat) :
    ((Obj.run evs).test c).2 = testSlow (Obj.run evs).ranges c := by
  have h := run_coherent evs hl
  have h1 := (test_spec h c).2.2
  have h2 := testSlow_iff h.1 c
  rw [Bool.eq_iff_iff, h1, h2]

/-- C03: a test never changes the set (only the cache). -/
theorem C03_test_keeps_ranges (evs : List Event) (hl : ∀ e ∈ evs, e.Legal) (c : Nat) :
    ((Obj.run evs).test c).1.ranges = (Obj.run evs).ranges :=
  (test_spec (run_coherent evs hl) c).2.1

/-- The ranges after a history of events are those of the mutations alone. -/
theorem C03_ranges_ignore_tests (evs : List Event) (hl : ∀ e ∈ evs, e.Legal) :
    (Obj.run evs).ranges = (evs.filterMap (fun e => match e with
      | .mutate op => some op | .tst _ => none)).foldl applyOp [] := by
  have gen : ∀ (evs : List Event) (o : Obj), Coherent o → (∀ e ∈ evs, e.Legal) →
      (evs.foldl Obj.step o).ranges = (evs.filterMap (fun e => match e with
        | .mutate op => some op | .tst _ => none)).foldl applyOp o.ranges := by
    intro evs
    induction evs with
    | nil => intro o _ _; rfl
    | cons e evs ih =>
      intro o ho hl
      have hs := step_coherent ho e (hl e (by simp))
      rw [List.foldl_cons, ih _ hs (fun e he => hl e (by simp [he]))]
      cases e with
      | mutate op => rfl
      | tst c =>
        simp only [Obj.step, List.filterMap_cons]
        rw [(test_spec ho c).2.1]
  exact gen evs _ (coherent_empty canon_nil) hl

/-- Non-vacuity: a history in which the block is cached before a mutation that changes the answer,
and a character beyond the 256 cached blocks. -/
def sampleEvents : List Event :=
  [.mutate (.addRange 97 122), .tst 98, .mutate (.subtractChar 98), .tst 98,
    .mutate (.addRange 0x1F600 0x1F64F)]
example : ∀ e ∈ sampleEvents, e.Legal := by simp [sampleEvents, Event.Legal, Op.Legal]
example : ((Obj.run sampleEvents).test 98).2 = false ∧ ((Obj.run sampleEvents).test 99).2 = true ∧
    ((Obj.run sampleEvents).test 0x1F601).2 = true := by decide +kernel

namespace Heap

/-- Calls as covered by the heap model: `subtract_class` takes another object. -/
def Call.Legal : Call → Prop
  | .subtractClass i j => i ≠ j
  | _ => True

/-- The full claim C04: whatever happened before, a call on object `i` never changes
what another object `j` contains. -/
def CopiesIndependent : Prop :=
  ∀ (cs : List Call), (∀ c ∈ cs, c.Legal) → ∀ (c : Call), c.Legal → ∀ j,
    c.target ≠ some j →
    ((World.init.run cs).call c).ranges j = (World.init.run cs).ranges j

/-- **C04 is violated.**  `a = CharClass(('a','z')); b = CharClass(a); b.subtract_range('d','f')`
changes `a`. -/
theorem C04_violation : ¬ CopiesIndependent := by
  intro h
  have := h [.create, .addRange 0 97 122, .create, .addClass 1 0] (by simp [Call.Legal])
    (.subtractRange 1 100 102) trivial 0 (by simp [Call.target])
  revert this
  decide +kernel

/-- C04, witness in terms of answers: after the copy is changed, the original
no longer contains `'z'` although it never was the target of a call. -/
theorem C04_violation_membership :
    let w := World.init.run [.create, .addRange 0 97 122, .create, .addClass 1 0]
    testSlow (w.ranges 0) 122 = true ∧
      testSlow ((w.call (.subtractRange 1 100 102)).ranges 0) 122 = false := by decide +kernel

/-- All references are valid in every reachable world. -/
theorem valid_step {w : World} (hv : ∀ k, ∀ x ∈ w.refs k, x < w.cells.length) (c : Call) :
    ∀ k, ∀ x ∈ (w.call c).refs k, x < (w.call c).cells.length := by
  have main : ∀ i (p : Cells × Refs), w.cells.length ≤ p.1.length → (∀ x ∈ p.2, x < p.1.length) →
      ∀ k, ∀ x ∈ (w.put i p).refs k, x < (w.put i p).cells.length := by
    intro i p hl hp k x hx
    rw [refs_put] at hx
    show x < p.1.length
    split at hx
    · exact hp x hx
    · exact Nat.lt_of_lt_of_le (hv k x hx) hl
  have fr : ∀ i (p : Cells × Refs), Fr (w.cells, w.refs i) p →
      ∀ k, ∀ x ∈ (w.put i p).refs k, x < (w.put i p).cells.length := by
    intro i p hf
    apply main i p hf.len
    intro x hx
    have := hf.len
    rcases hf.sub x hx with h | h
    · have := hv i x h; simp only at *; omega
    · exact h.2
  cases c with
  | create =>
    intro k x hx
    simp only [World.call, World.refs, List.getD_eq_getElem?_getD] at hx ⊢
    rw [List.getElem?_append] at hx
    split at hx
    · exact hv k x (by simpa [World.refs, List.getD_eq_getElem?_getD] using hx)
    · cases hk : ([[]] : List Refs)[k - w.objs.length]? with
      | none => rw [hk] at hx; simp at hx
      | some y =>
        rw [hk] at hx
        have := List.mem_of_getElem? hk
        simp at this; subst this; simp at hx
  | addChar i c => exact fr i _ (hAddChar_pure _ _ _).toFr
  | addRange i a z => exact fr i _ (hAddRange_pure _ _ _ _).toFr
  | addClass i j =>
    simp only [World.call, hAddClass]
    split
    · apply main i _ (Nat.le_refl _)
      intro x hx
      rcases List.mem_append.1 hx with h | h
      · exact hv i x h
      · exact hv j x h
    · exact fr i _ (foldAdd_pure _ _).toFr
  | subtractChar i c => exact fr i _ (hSubtractChar_fr _ _ _)
  | subtractRange i a z => exact fr i _ (hSubtractRange_fr _ _ _ _)
  | subtractClass i j => exact fr i _ (hSubtractClass_fr _ (_, _))
  | negate i => exact fr i _ (hNegate_keep _ _).toFr

theorem valid_run (cs : List Call) : ∀ k, ∀ x ∈ (World.init.run cs).refs k,
    x < (World.init.run cs).cells.length := by
  have gen : ∀ (cs : List Call) (w : World), (∀ k, ∀ x ∈ w.refs k, x < w.cells.length) →
      ∀ k, ∀ x ∈ (w.run cs).refs k, x < (w.run cs).cells.length := by
    intro cs
    induction cs with
    | nil => intro w h; exact h
    | cons c cs ih => intro w h; exact ih _ (valid_step h c)
  exact gen cs _ (by simp [World.init, World.refs])

/-- Calls that only add (or complement). -/
def Call.Additive : Call → Prop
  | .create | .addChar _ _ | .addRange _ _ _ | .addClass _ _ | .negate _ => True
  | _ => False

/-- **C04, first part that holds.**  In every reachable world, shared or not, the adding
methods and `negate` change no object but their target. -/
theorem C04_additive_calls_partial (cs : List Call) (_hcs : ∀ c ∈ cs, c.Legal) (c : Call)
    (hc : c.Additive) (j : Nat) (hj : c.target ≠ some j) :
    ((World.init.run cs).call c).ranges j = (World.init.run cs).ranges j := by
  have hv := valid_run cs
  generalize World.init.run cs = w at *
  have ne : ∀ i, some i ≠ some j → j ≠ i := by intro i h e; exact h (by rw [e])
  cases c with
  | create =>
    simp only [World.call, World.ranges, World.refs, List.getD_eq_getElem?_getD, List.getElem?_append]
    split
    · rfl
    · rename_i h
      rw [List.getElem?_eq_none (l := w.objs) (by omega)]
      cases hk : ([[]] : List Refs)[j - w.objs.length]? with
      | none => rfl
      | some y => have := List.mem_of_getElem? hk; simp at this; subst this; rfl
  | addChar i c => exact put_keep (ne i hj) (hv j) (hAddChar_pure _ _ _).keep
  | addRange i a z => exact put_keep (ne i hj) (hv j) (hAddRange_pure _ _ _ _).keep
  | addClass i k => exact put_keep (ne i hj) (hv j) (hAddClass_keep _ _ _)
  | negate i => exact put_keep (ne i hj) (hv j) (hNegate_keep _ _).keep
  | subtractChar i c => exact hc.elim
  | subtractRange i a z => exact hc.elim
  | subtractClass i k => exact hc.elim

/-! ### Programs without copies behave as values -/

/-- The value semantics: objects are independent lists of ranges. -/
def vcall (vs : List (List Range)) : Call → List (List Range)
  | .create => vs ++ [[]]
  | .addChar i c => vs.set i (CharClass.addChar (vs.getD i []) c)
  | .addRange i a z => vs.set i (CharClass.addRange (vs.getD i []) a z)
  | .addClass i j => vs.set i (CharClass.addClass (vs.getD i []) (vs.getD j []))
  | .subtractChar i c => vs.set i (CharClass.subtractChar (vs.getD i []) c)
  | .subtractRange i a z => vs.set i (CharClass.subtractRange (vs.getD i []) a z)
  | .subtractClass i j => vs.set i (CharClass.subtractClass (vs.getD i []) (vs.getD j []))
  | .negate i => vs.set i (CharClass.negate (vs.getD i []))

/-- The call does not copy: `add_class` of a non-empty class onto an empty one. -/
def NoCopy (vs : List (List Range)) : Call → Prop
  | .addClass i j => vs.getD i [] ≠ [] ∨ vs.getD j [] = []
  | .subtractClass i j => i ≠ j
  | _ => True

/-- No call of the program copies. -/
def NoCopies : List (List Range) → List Call → Prop
  | _, [] => True
  | vs, c :: cs => NoCopy vs c ∧ NoCopies (vcall vs c) cs

/-- The world shows the values `vs` and shares nothing. -/
def Shows (w : World) (vs : List (List Range)) : Prop :=
  Sep w ∧ w.objs.length = vs.length ∧ ∀ k, w.ranges k = vs.getD k []

theorem shows_put {w : World} {vs : List (List Range)} (h : Shows w vs) {i : Nat} {p : Cells × Refs}
    {rs : List Range} (hf : Fr (w.cells, w.refs i) p) (hok : Ok p rs) :
    Shows (w.put i p) (vs.set i rs) := by
  obtain ⟨h1, h2⟩ := put_sep h.1 hf hok
  refine ⟨h1, by simp [World.put, h.2.1], ?_⟩
  intro k
  rw [h2 k, h.2.2 k]
  simp only [List.getD_eq_getElem?_getD, List.getElem?_set, h.2.1]
  by_cases hik : i = k
  · subst hik
    by_cases hl : i < vs.length <;> simp [hl]
  · simp [hik]

theorem shows_call {w : World} {vs : List (List Range)} (h : Shows w vs) (c : Call)
    (hc : NoCopy vs c) : Shows (w.call c) (vcall vs c) := by
  have hr : ∀ k, view w.cells (w.refs k) = vs.getD k [] := h.2.2
  cases c with
  | create =>
    obtain ⟨⟨h1, h2⟩, h3, h4⟩ := h
    have hrefs : ∀ k, (w.call .create).refs k = w.refs k := by
      intro k
      simp only [World.call, World.refs, List.getD_eq_getElem?_getD, List.getElem?_append]
      split
      · rfl
      · rename_i h
        rw [List.getElem?_eq_none (l := w.objs) (by omega)]
        cases hk : ([[]] : List Refs)[k - w.objs.length]? with
        | none => rfl
        | some y => have := List.mem_of_getElem? hk; simp at this; subst this; rfl
    refine ⟨⟨?_, ?_⟩, by simp [World.call, vcall, h3], ?_⟩
    · intro i; rw [hrefs]; exact h1 i
    · intro i j hij; rw [hrefs, hrefs]; exact h2 i j hij
    · intro k
      simp only [World.ranges, hrefs, vcall]
      rw [show view (w.call .create).cells (w.refs k) = vs.getD k [] from h4 k]
      simp only [List.getD_eq_getElem?_getD, List.getElem?_append]
      split
      · rfl
      · rename_i h
        rw [List.getElem?_eq_none (l := vs) (by omega)]
        cases hk : ([[]] : List (List Range))[k - vs.length]? with
        | none => rfl
        | some y => have := List.mem_of_getElem? hk; simp at this; subst this; rfl
  | addChar i c =>
    have := shows_put h (hAddChar_pure _ _ c).toFr (hAddChar_ok (h.1.1 i) c)
    rwa [hr] at this
  | addRange i a z =>
    have := shows_put h (hAddRange_pure _ _ a z).toFr (hAddRange_ok (h.1.1 i) a z)
    rwa [hr] at this
  | subtractChar i c =>
    have := shows_put h (hSubtractChar_fr _ _ c) (hSubtractChar_ok (h.1.1 i) c)
    rwa [hr] at this
  | subtractRange i a z =>
    have := shows_put h (hSubtractRange_fr _ _ a z) (hSubtractRange_ok (h.1.1 i) a z)
    rwa [hr] at this
  | subtractClass i j =>
    have := shows_put h (hSubtractClass_fr (w.refs j) (w.cells, w.refs i))
      (hSubtractClass_ok (w.refs j) (w.cells, w.refs i) _ ⟨h.1.1 i, rfl⟩
        (fun y hy => ⟨(h.1.1 j).1 y hy, h.1.2 j i (Ne.symm hc) y hy⟩))
    simp only [hr] at this
    exact this
  | negate i =>
    have := shows_put h (hNegate_keep _ _).toFr (hNegate_ok (h.1.1 i))
    rwa [hr] at this
  | addClass i j =>
    by_cases hi : w.refs i = []
    · have hvi : vs.getD i [] = [] := by rw [← hr i, hi]; rfl
      have hvj : vs.getD j [] = [] := by
        rcases hc with h' | h'
        · exact absurd hvi h'
        · exact h'
      have hj : w.refs j = [] := by
        have := hr j; rw [hvj] at this; simpa [view] using this
      have := shows_put h (i := i) (p := (w.cells, w.refs i)) (Fr.refl _) ⟨h.1.1 i, rfl⟩
      simp only [World.call, vcall, hAddClass, addClass]
      rw [hr, hvi] at this
      rw [hvi, hvj, hj, hi]
      simp only [List.isEmpty_nil, if_true, List.append_nil]
      rw [hi] at this
      exact this
    · have := shows_put h (foldAdd_pure (w.refs j) (w.cells, w.refs i)).toFr
        (foldAdd_ok (w.refs j) (w.cells, w.refs i) _ ⟨h.1.1 i, rfl⟩ (h.1.1 j).1)
      simp only [hr] at this
      have hne : vs.getD i [] ≠ [] := by
        rw [← hr i]; intro hcn; apply hi; simpa [view] using hcn
      simp only [World.call, vcall, hAddClass, addClass]
      rw [if_neg (by simpa using hi), if_neg (by simpa using hne)]
      exact this

/-- **C04, second part that holds.**  A program that never adds a non-empty class onto
an empty one (so never shares range lists) shows, for every object, exactly the value it has when
objects are independent values. -/
theorem C04_no_copy_partial (cs : List Call) (hc : NoCopies [] cs) (k : Nat) :
    (World.init.run cs).ranges k = (cs.foldl vcall []).getD k [] := by
  have gen : ∀ (cs : List Call) (w : World) (vs : List (List Range)), Shows w vs → NoCopies vs cs →
      Shows (w.run cs) (cs.foldl vcall vs) := by
    intro cs
    induction cs with
    | nil => intro w vs h _; exact h
    | cons c cs ih => intro w vs h hc; exact ih _ _ (shows_call h c hc.1) hc.2
  refine (gen cs World.init [] ⟨⟨?_, ?_⟩, rfl, ?_⟩ hc).2.2 k
  · intro i; simp [Good, World.init, World.refs]
  · intro i j _; simp [World.init, World.refs]
  · intro k; simp [World.init, World.ranges, World.refs, view]

/-- Non-vacuity: a program with two objects, `add_class` and `subtract_*`, without copies. -/
example : NoCopies [] [.create, .create, .addRange 0 97 122, .addChar 1 48, .addClass 1 0,
    .subtractRange 1 100 102, .subtractClass 0 1, .negate 0] := by
  refine ⟨trivial, trivial, trivial, trivial, Or.inl ?_, trivial, ?_, trivial, trivial⟩
  · decide
  · show (0 : Nat) ≠ 1; decide

end Heap
end Verif.CharClass

import Verif.OUri.Model
import Mathlib.Data.List.Forall2
/-!
# C134: which resource paths are accepted
-/
namespace Verif.OUri

open Verif.OData

/-! ## Specification -/

/-- A segment that is not an option and can be decoded: a name, perhaps with a key predicate. -/
def NameSeg (ids : Ids) (s : Str) (n : Seg) : Prop := s.head? ≠ some 36 ∧ splitSegment ids s = some n

/-- A segment that is the given path option. -/
def OptSeg (s : Str) (o : PathOpt) : Prop := s.head? = some 36 ∧ pathOptOf s.tail = some o

/-- The shapes of resource paths: names only; names and then one of $count, $value, $metadata, $batch; names, $links and
one more name. -/
inductive Shape (ids : Ids) : List Str → List Seg → Option PathOpt → Option Str → Prop
  | names {ss : List Str} {ns : List Seg} : List.Forall₂ (NameSeg ids) ss ns → Shape ids ss ns none none
  | last {ss : List Str} {ns : List Seg} {s : Str} {o : PathOpt} : List.Forall₂ (NameSeg ids) ss ns → OptSeg s o → o ≠ .links →
      Shape ids (ss ++ [s]) ns (some o) none
  | links {ss : List Str} {ns : List Seg} {s t : Str} {n : Seg} : List.Forall₂ (NameSeg ids) ss ns → OptSeg s .links →
      NameSeg ids t n → Shape ids (ss ++ [s, t]) (ns ++ [n]) (some .links) (some n.1)

/-! ## Proofs -/

theorem splitE_ok {ids : Ids} {s : Str} {n : Seg} : splitE ids s = .ok n ↔ splitSegment ids s = some n := by
  unfold splitE
  cases h : splitSegment ids s with
  | none => simp
  | some m => simp

/-- After $links and its property nothing more is accepted. -/
theorem segLoop_linked (ids : Ids) (nav : List Seg) (x : Str) (ss : List Str) (st : PState) :
    segLoop ids ⟨nav, some .links, some x⟩ ss = .ok st ↔ ss = [] ∧ st = ⟨nav, some .links, some x⟩ := by
  cases ss with
  | nil => simp only [segLoop, Except.ok.injEq, true_and]; exact eq_comm
  | cons s r => simp [segLoop, segStep, bind, Except.bind]

theorem segLoop_links (ids : Ids) (nav : List Seg) (ss : List Str) (st : PState) :
    segLoop ids ⟨nav, some .links, none⟩ ss = .ok st ↔
      ss = [] ∧ st = ⟨nav, some .links, none⟩ ∨
      ∃ t n, ss = [t] ∧ NameSeg ids t n ∧ st = ⟨nav ++ [n], some .links, some n.1⟩ := by
  cases ss with
  | nil =>
    simp only [segLoop, Except.ok.injEq, true_and, List.nil_eq, reduceCtorEq, false_and, exists_false, or_false]
    constructor
    · exact fun h => h.symm
    · rintro h; simpa using h.symm
  | cons s r =>
    simp only [segLoop, segStep, if_true, Option.isSome_none, Bool.false_eq_true, if_false, reduceCtorEq, false_and, false_or]
    by_cases h36 : s.head? = some 36
    · rw [if_pos h36]
      simp only [bind, Except.bind, reduceCtorEq, false_iff]
      rintro ⟨t, n, h, hn, -⟩
      cases h
      exact hn.1 h36
    · rw [if_neg h36]
      cases hs : splitSegment ids s with
      | none =>
        have : splitE ids s = .error .value := by unfold splitE; rw [hs]
        simp only [this, bind, Except.bind, reduceCtorEq, false_iff]
        rintro ⟨t, n, h, hn, -⟩
        cases h
        rw [hn.2] at hs; cases hs
      | some n =>
        have : splitE ids s = .ok n := splitE_ok.mpr hs
        simp only [this, bind, Except.bind]
        rw [segLoop_linked]
        constructor
        · rintro ⟨rfl, rfl⟩
          exact ⟨s, n, rfl, ⟨h36, hs⟩, rfl⟩
        · rintro ⟨t, m, h, hn, rfl⟩
          cases h
          rw [hn.2] at hs; cases hs
          exact ⟨rfl, rfl⟩

/-- After another option nothing more is accepted. -/
theorem segLoop_opt (ids : Ids) (nav : List Seg) (o : PathOpt) (ho : o ≠ .links) (ss : List Str) (st : PState) :
    segLoop ids ⟨nav, some o, none⟩ ss = .ok st ↔ ss = [] ∧ st = ⟨nav, some o, none⟩ := by
  cases ss with
  | nil => simp only [segLoop, Except.ok.injEq, true_and]; exact eq_comm
  | cons s r =>
    have : some o ≠ some PathOpt.links := by simpa using ho
    simp only [segLoop, segStep, this, if_false, Option.isSome_some, if_true, reduceCtorEq, false_and, iff_false]
    by_cases h36 : s.head? = some 36
    · rw [if_pos h36]
      cases pathOptOf s.tail <;> simp [bind, Except.bind]
    · rw [if_neg h36]; simp [bind, Except.bind]

/-- The loop and the final test. -/
theorem segLoop_names (ids : Ids) (ss : List Str) : ∀ (nav : List Seg) (st : PState),
    (segLoop ids ⟨nav, none, none⟩ ss = .ok st ∧ ¬ (st.opt = some .links ∧ st.links = none)) ↔
      ∃ ns, st.nav = nav ++ ns ∧ Shape ids ss ns st.opt st.links := by
  induction ss with
  | nil =>
    intro nav st
    simp only [segLoop, Except.ok.injEq]
    constructor
    · rintro ⟨rfl, -⟩
      exact ⟨[], by simp, .names .nil⟩
    · rintro ⟨ns, h1, h2⟩
      generalize ho : st.opt = o at h2
      generalize hl : st.links = l at h2
      generalize he : ([] : List Str) = e at h2
      cases h2 with
      | names h =>
        subst he
        cases h
        obtain ⟨a, b, c⟩ := st
        simp at h1 ho hl
        subst h1 ho hl
        simp
      | last => simp at he
      | links => simp at he
  | cons s r ih =>
    intro nav st
    by_cases h36 : s.head? = some 36
    · -- an option
      have key : (∃ ns, st.nav = nav ++ ns ∧ Shape ids (s :: r) ns st.opt st.links) ↔
          (r = [] ∧ (∃ o, OptSeg s o ∧ o ≠ .links ∧ st = ⟨nav, some o, none⟩)) ∨
          (∃ t n, r = [t] ∧ OptSeg s .links ∧ NameSeg ids t n ∧ st = ⟨nav ++ [n], some .links, some n.1⟩) := by
        constructor
        · rintro ⟨ns, h1, h2⟩
          generalize ho : st.opt = o at h2
          generalize hl : st.links = l at h2
          generalize he : s :: r = e at h2
          cases h2 with
          | names h =>
            subst he
            cases h with
            | cons h _ => exact absurd h36 h.1
          | @last ss ns s' o h h' hne =>
            cases ss with
            | nil =>
              cases h
              simp at he
              obtain ⟨rfl, rfl⟩ := he
              obtain ⟨a, b, c⟩ := st
              simp at h1 ho hl
              subst h1 ho hl
              exact .inl ⟨rfl, o, h', hne, rfl⟩
            | cons x ss =>
              cases h with
              | cons h _ => simp at he; rw [← he.1] at h; exact absurd h36 h.1
          | @links ss ns s' t n h h' hn =>
            cases ss with
            | nil =>
              cases h
              simp at he
              obtain ⟨rfl, rfl⟩ := he
              obtain ⟨a, b, c⟩ := st
              simp at h1 ho hl
              subst h1 ho hl
              exact .inr ⟨t, n, rfl, h', hn, rfl⟩
            | cons x ss =>
              cases h with
              | cons h _ => simp at he; rw [← he.1] at h; exact absurd h36 h.1
        · rintro (⟨rfl, o, h1, h2, rfl⟩ | ⟨t, n, rfl, h1, h2, rfl⟩)
          · exact ⟨[], by simp, .last (ss := []) .nil h1 h2⟩
          · exact ⟨[n], rfl, .links (ss := []) (ns := []) .nil h1 h2⟩
      rw [key]
      simp only [segLoop, segStep, reduceCtorEq, if_false, h36, if_true, Option.isSome_none, Bool.false_eq_true]
      cases hp : pathOptOf s.tail with
      | none =>
        simp only [bind, Except.bind, reduceCtorEq, false_and, false_iff, not_or, not_and, not_exists]
        refine ⟨?_, ?_⟩
        · rintro - o h; exact absurd (hp.symm.trans h.2) (by simp)
        · rintro t n - h; exact absurd (hp.symm.trans h.2) (by simp)
      | some o =>
        have hos : OptSeg s o := ⟨h36, hp⟩
        have huniq : ∀ o', OptSeg s o' → o' = o := fun o' h => Option.some.inj (h.2.symm.trans hp)
        simp only [bind, Except.bind]
        by_cases hl : o = .links
        · subst hl
          rw [segLoop_links]
          constructor
          · rintro ⟨⟨rfl, rfl⟩ | ⟨t, n, rfl, h, rfl⟩, h2⟩
            · exact absurd ⟨rfl, rfl⟩ h2
            · exact .inr ⟨t, n, rfl, hos, h, rfl⟩
          · rintro (⟨rfl, o, h1, h2, rfl⟩ | ⟨t, n, rfl, h1, h2, rfl⟩)
            · exact absurd (huniq o h1) h2
            · exact ⟨.inr ⟨t, n, rfl, h2, rfl⟩, by simp⟩
        · rw [segLoop_opt ids nav o hl]
          constructor
          · rintro ⟨⟨rfl, rfl⟩, -⟩
            exact .inl ⟨rfl, o, hos, hl, rfl⟩
          · rintro (⟨rfl, o', h1, h2, rfl⟩ | ⟨t, n, rfl, h1, h2, rfl⟩)
            · cases huniq o' h1
              exact ⟨⟨rfl, rfl⟩, by simpa using hl⟩
            · exact absurd (huniq _ h1).symm hl
    · -- a name
      simp only [segLoop, segStep, reduceCtorEq, if_false, h36, Option.isSome_none, Bool.false_eq_true]
      have key : ∀ ns, Shape ids (s :: r) ns st.opt st.links ↔ ∃ n ns', ns = n :: ns' ∧ NameSeg ids s n ∧ Shape ids r ns' st.opt st.links := by
        intro ns
        constructor
        · intro h2
          generalize ho : st.opt = o at h2 ⊢
          generalize hl : st.links = l at h2 ⊢
          generalize he : s :: r = e at h2
          cases h2 with
          | names h =>
            subst he
            cases h with
            | cons h hr => exact ⟨_, _, rfl, h, .names hr⟩
          | @last ss ns s' o h h' hne =>
            cases ss with
            | nil => simp at he; rw [he.1] at h36; exact absurd h'.1 h36
            | cons x ss =>
              simp at he
              obtain ⟨rfl, rfl⟩ := he
              cases h with
              | cons h hr => exact ⟨_, _, rfl, h, .last hr h' hne⟩
          | @links ss ns s' t n h h' hn =>
            cases ss with
            | nil => simp at he; rw [he.1] at h36; exact absurd h'.1 h36
            | cons x ss =>
              simp at he
              obtain ⟨rfl, rfl⟩ := he
              cases h with
              | cons h hr => exact ⟨_, _, rfl, h, .links hr h' hn⟩
        · rintro ⟨n, ns', rfl, hn, h⟩
          generalize st.opt = o at h ⊢
          generalize st.links = l at h ⊢
          cases h with
          | names h => exact .names (.cons hn h)
          | @last ss ns s' o h h' hne => exact .last (ss := s :: ss) (.cons hn h) h' hne
          | @links ss ns s' t n' h h' hn' => exact .links (ss := s :: ss) (ns := n :: ns) (.cons hn h) h' hn'
      cases hs : splitSegment ids s with
      | none =>
        have : splitE ids s = .error .value := by unfold splitE; rw [hs]
        simp only [this, bind, Except.bind, reduceCtorEq, false_and, false_iff]
        rintro ⟨ns, -, h⟩
        obtain ⟨n, ns', -, hn, -⟩ := (key ns).mp h
        rw [hn.2] at hs; cases hs
      | some n =>
        have : splitE ids s = .ok n := splitE_ok.mpr hs
        simp only [this, bind, Except.bind]
        rw [ih]
        constructor
        · rintro ⟨ns, h1, h2⟩
          exact ⟨n :: ns, by simpa using h1, (key _).mpr ⟨n, ns, rfl, ⟨h36, hs⟩, h2⟩⟩
        · rintro ⟨ns, h1, h2⟩
          obtain ⟨m, ns', rfl, hm, h⟩ := (key ns).mp h2
          rw [hm.2] at hs
          cases hs
          exact ⟨ns', by simpa using h1, h⟩

/-- C134: a resource path is accepted exactly when its segments (what follows each "/") have one of the shapes: names only;
names and then $count, $value, $metadata or $batch; names, $links and a name.  The navigation path is the list of the
decoded names in order, the path option is the option that occurs, and the links property is the name after $links. -/
theorem C134_path_shape (ids : Ids) (path : Str) (st : PState) :
    resourcePath ids path = .ok st ↔
      Shape ids (if path = [47] then [] else (Uri.splitOn 47 path).tail) st.nav st.opt st.links := by
  unfold resourcePath
  by_cases hp : path = [47]
  · rw [if_pos hp, if_pos hp]
    have := segLoop_names ids [] [] st
    simp only [segLoop, List.nil_append] at this
    constructor
    · intro h
      have h' : (⟨[], none, none⟩ : PState) = st := by simpa using h
      subst h'
      exact .names .nil
    · intro h
      exact (this.mpr ⟨st.nav, rfl, h⟩).1
  · rw [if_neg hp, if_neg hp]
    have := segLoop_names ids (Uri.splitOn 47 path).tail [] st
    simp only [List.nil_append] at this
    cases hl : segLoop ids ⟨[], none, none⟩ (Uri.splitOn 47 path).tail with
    | error e =>
      rw [hl] at this
      simp only [bind, Except.bind, reduceCtorEq, false_iff, false_and] at this ⊢
      exact fun h => this ⟨st.nav, rfl, h⟩
    | ok st' =>
      rw [hl] at this
      simp only [bind, Except.bind, Except.ok.injEq] at this ⊢
      constructor
      · intro h
        split at h
        · cases h
        · next hn =>
          cases h
          obtain ⟨ns, h1, h2⟩ := this.mp ⟨rfl, hn⟩
          rw [h1]; exact h2
      · intro h
        obtain ⟨rfl, h2⟩ := this.mpr ⟨st.nav, rfl, h⟩
        rw [if_neg h2]

/-- Every accepted path has at most one option, and only $links is followed by anything. -/
theorem C134_one_option (ids : Ids) (path : Str) (st : PState) (h : resourcePath ids path = .ok st) (hp : path ≠ [47]) :
    ((Uri.splitOn 47 path).tail.filter fun s => s.head? = some 36).length = if st.opt.isSome then 1 else 0 := by
  have hs := (C134_path_shape ids path st).mp h
  rw [if_neg hp] at hs
  have names : ∀ {ss : List Str} {ns : List Seg}, List.Forall₂ (NameSeg ids) ss ns → ss.filter (fun s => s.head? = some 36) = [] := by
    intro ss ns h
    induction h with
    | nil => rfl
    | cons h _ ih => rw [List.filter_cons_of_neg (by simpa using h.1), ih]
  generalize (Uri.splitOn 47 path).tail = l at hs
  generalize st.opt = o at hs ⊢
  generalize st.links = k at hs
  generalize st.nav = n at hs
  cases hs with
  | names h => simp [names h]
  | last h h' _ => rw [List.filter_append, names h, List.filter_cons_of_pos (by simpa using h'.1)]; rfl
  | links h h' hn =>
    rw [List.filter_append, names h, List.filter_cons_of_pos (by simpa using h'.1), List.filter_cons_of_neg (by simpa using hn.1)]
    rfl

/-- An identifier table for examples. -/
def exIds' : Ids where
  start := Uri.isAlpha
  cont := fun c => Uri.isAlnum c || c == 95
  start_cont := by intro c h; simp [Uri.isAlpha, Uri.isAlnum] at *; rcases h with h | h <;> simp [h]
  start_ascii := fun _ _ => rfl
  cont_ascii := fun _ _ => rfl

/-- Non-vacuity: /Customers/$count and /Customers/$links/Orders are accepted. -/
example : (match resourcePath exIds' (chars "/Customers/$count") with | .ok st => st.nav == [(chars "Customers", none)] && st.opt == some .count | _ => false) = true ∧
    (match resourcePath exIds' (chars "/Customers/$LINKS/Orders") with
      | .ok st => st.nav.map Prod.fst == [chars "Customers", chars "Orders"] && st.links == some (chars "Orders") | _ => false) = true := by
  decide +kernel

/-- Violation: the tests meant to refuse $metadata after a name and $links before any look at the wrong variable: both are
accepted.  And an unknown option is not reported as an invalid path option. -/
theorem C134_misplaced_option_violation :
    (match resourcePath exIds' (chars "/Customers/$metadata") with | .ok st => st.opt == some .metadata | _ => false) = true ∧
    (match resourcePath exIds' (chars "/$links/Orders") with | .ok st => st.opt == some .links | _ => false) = true ∧
    (match resourcePath exIds' (chars "/$nonsense") with | .error e => e == .value | _ => false) = true := by decide +kernel

end Verif.OUri

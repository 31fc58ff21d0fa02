import Verif.OUri.C134
/-!
# C135: the query options of a data service URI
-/
namespace Verif.OUri

open Verif.OData Verif.Text
open Verif.Uri (unescapeData)

variable {F : Type} (ids : Ids) (fmt : Str → Option F)

/-! ## Specification -/

/-- The text without its percent escapes. -/
def plainText (s t : Str) : Prop := (unescapeData s).bind utf8Decode = some t

/-- The piece of the query is a system query option with this value: "$" name "=" value. -/
def Gives (d : Str) (o : SysOpt) (v : OptVal F) : Prop :=
  ∃ n w n' w', d = 36 :: (n ++ 61 :: w) ∧ 61 ∉ n ∧ plainText n n' ∧ strip n' = o.name ∧ plainText w w' ∧ optValue ids fmt o w' = some v

/-- The piece of the query is a custom option, and when it has an "=" the name before it can be decoded. -/
def CustomOk (d : Str) : Prop := d.head? ≠ some 36 ∧ ∀ n w, d = n ++ 61 :: w → 61 ∉ n → ∃ n', plainText n n'

/-- The piece of the query gives a value to the parameter: name "=" value. -/
def Binds (d name value : Str) : Prop := d.head? ≠ some 36 ∧ ∃ n, d = n ++ 61 :: value ∧ 61 ∉ n ∧ plainText n name

/-! ## Proofs -/

theorem atEquals_iff (s n w : Str) : atEquals s = some (n, w) ↔ s = n ++ 61 :: w ∧ 61 ∉ n := by
  unfold atEquals
  constructor
  · intro h
    split at h
    · next hm =>
      simp only [Option.some.injEq, Prod.mk.injEq] at h
      obtain ⟨rfl, rfl⟩ := h
      refine ⟨?_, ?_⟩
      · conv => lhs; rw [← List.takeWhile_append_dropWhile (p := (· ≠ 61)) (l := s)]
        congr 1
        cases hd : s.dropWhile (· ≠ 61) with
        | nil =>
          have e := List.takeWhile_append_dropWhile (p := (· ≠ 61)) (l := s)
          rw [hd, List.append_nil] at e
          rw [← e] at hm
          have := List.all_eq_true.1 (List.all_takeWhile (p := fun x => decide (x ≠ 61)) (l := s)) 61 hm
          simp at this
        | cons c r =>
          have := List.head?_dropWhile_not (fun x => decide (x ≠ 61)) s
          rw [hd] at this
          simp at this
          rw [this]; rfl
      · intro hm
        have := List.all_eq_true.1 (List.all_takeWhile (p := fun x => decide (x ≠ 61)) (l := s)) 61 hm
        simp at this
    · cases h
  · rintro ⟨rfl, hn⟩
    have key := takeWhile_stop (p := fun x => decide (x ≠ 61)) (w := n) (r := 61 :: w)
      (fun c hc => by simp only [decide_eq_true_eq]; rintro rfl; exact hn hc) (fun c hc => by cases hc; rfl)
    rw [if_pos (by simp), key.1, key.2]
    rfl

theorem atEquals_none (s : Str) : atEquals s = none ↔ ∀ n w, s = n ++ 61 :: w → 61 ∈ n := by
  constructor
  · intro h n w e
    by_cases hm : 61 ∈ n
    · exact hm
    · rw [(atEquals_iff s n w).mpr ⟨e, hm⟩] at h; cases h
  · intro h
    cases ha : atEquals s with
    | none => rfl
    | some p =>
      obtain ⟨e, hm⟩ := (atEquals_iff s p.1 p.2).mp ha
      exact absurd (h _ _ e) hm

theorem decodeE_ok {s t : Str} : decodeE s = .ok t ↔ plainText s t := by
  unfold decodeE plainText
  cases (unescapeData s).bind utf8Decode <;> simp

theorem sysOptOf_iff (s : Str) (o : SysOpt) : sysOptOf s = some o ↔ strip s = o.name := by
  unfold sysOptOf
  constructor
  · intro h
    have := List.find?_some h
    simp only [decide_eq_true_eq] at this
    exact this.symm
  · intro h
    rw [h]
    cases o <;> decide

theorem sysOption_ok (n w : Str) (o : SysOpt) (v : OptVal F) :
    sysOption ids fmt n w = .ok (o, v) ↔ strip n = o.name ∧ optValue ids fmt o w = some v := by
  unfold sysOption
  rw [← sysOptOf_iff]
  cases h : sysOptOf n with
  | none => simp
  | some o' =>
    dsimp only
    constructor
    · intro h'
      cases hv : optValue ids fmt o' w with
      | none => rw [hv] at h'; cases h'
      | some v' =>
        rw [hv] at h'
        simp only [Except.ok.injEq, Prod.mk.injEq] at h'
        obtain ⟨rfl, rfl⟩ := h'
        exact ⟨rfl, hv⟩
    · rintro ⟨h1, h2⟩
      cases h1
      rw [h2]

/-- One step. -/
theorem optStep_ok (st st' : QState F) (d : Str) : optStep ids fmt st d = .ok st' ↔
    (∃ o v, Gives ids fmt d o v ∧ st' = { st with sys := (o, v) :: st.sys }) ∨
    (CustomOk d ∧ ((∃ name value, Binds d name value ∧ st' = { st with params := (name, st.custom.length) :: st.params, custom := st.custom ++ [d] }) ∨
      61 ∉ d ∧ st' = { st with custom := st.custom ++ [d] })) := by
  unfold optStep
  by_cases h36 : d.head? = some 36
  · rw [if_pos h36]
    obtain ⟨t, rfl⟩ : ∃ t, d = 36 :: t := by
      cases d with
      | nil => cases h36
      | cons c t => cases h36; exact ⟨t, rfl⟩
    have hno : ¬ CustomOk (36 :: t) := fun h => h.1 rfl
    simp only [hno, false_and, or_false, List.tail_cons]
    cases ha : atEquals t with
    | none =>
      simp only [reduceCtorEq, false_iff, not_exists]
      rintro o v ⟨⟨n, w, n', w', e, hn, -⟩, -⟩
      simp only [List.cons.injEq, true_and] at e
      exact hn ((atEquals_none t).mp ha n w e)
    | some nw =>
      obtain ⟨n, w⟩ := nw
      obtain ⟨e, hn⟩ := (atEquals_iff t n w).mp ha
      have huniq : ∀ n1 w1, t = n1 ++ 61 :: w1 → 61 ∉ n1 → n1 = n ∧ w1 = w := by
        intro n1 w1 e1 h1
        have := (atEquals_iff t n1 w1).mpr ⟨e1, h1⟩
        rw [ha] at this
        simp only [Option.some.injEq, Prod.mk.injEq] at this
        exact ⟨this.1.symm, this.2.symm⟩
      dsimp only
      constructor
      · intro h
        cases h1 : decodeE n with
        | error x => rw [h1] at h; cases h
        | ok n' =>
          cases h2 : decodeE w with
          | error x => rw [h1, h2] at h; cases h
          | ok w' =>
            cases h3 : sysOption ids fmt n' w' with
            | error x => rw [h1, h2] at h; simp only [bind, Except.bind, h3] at h; cases h
            | ok ov =>
              rw [h1, h2] at h
              simp only [bind, Except.bind, h3, Except.ok.injEq] at h
              obtain ⟨k1, k2⟩ := (sysOption_ok ids fmt n' w' ov.1 ov.2).mp h3
              exact ⟨ov.1, ov.2, ⟨n, w, n', w', by rw [e], hn, decodeE_ok.mp h1, k1, decodeE_ok.mp h2, k2⟩, h.symm⟩
      · rintro ⟨o, v, ⟨n1, w1, n', w', e1, hn1, h1, k1, h2, k2⟩, rfl⟩
        simp only [List.cons.injEq, true_and] at e1
        obtain ⟨rfl, rfl⟩ := huniq n1 w1 e1 hn1
        rw [decodeE_ok.mpr h1, decodeE_ok.mpr h2]
        simp only [bind, Except.bind, (sysOption_ok ids fmt n' w' o v).mpr ⟨k1, k2⟩]
  · rw [if_neg h36]
    have hno : ∀ o v, ¬ Gives ids fmt d o v := by
      rintro o v ⟨n, w, n', w', rfl, -⟩; exact h36 rfl
    simp only [hno, false_and, exists_false, false_or]
    cases ha : atEquals d with
    | none =>
      have hn := (atEquals_none d).mp ha
      have h61 : 61 ∉ d := by
        intro hm
        unfold atEquals at ha; rw [if_pos hm] at ha; cases ha
      dsimp only
      simp only [Except.ok.injEq]
      constructor
      · rintro rfl
        exact ⟨⟨h36, fun n w e h => absurd (hn n w e) h⟩, .inr ⟨h61, rfl⟩⟩
      · rintro ⟨-, ⟨name, value, ⟨-, n, e, hm, -⟩, -⟩ | ⟨-, h⟩⟩
        · exact absurd (hn n value e) hm
        · exact h.symm
    | some nw =>
      obtain ⟨n, w⟩ := nw
      obtain ⟨e, hn⟩ := (atEquals_iff d n w).mp ha
      have huniq : ∀ n1 w1, d = n1 ++ 61 :: w1 → 61 ∉ n1 → n1 = n ∧ w1 = w := by
        intro n1 w1 e1 h1
        have := (atEquals_iff d n1 w1).mpr ⟨e1, h1⟩
        rw [ha] at this
        simp only [Option.some.injEq, Prod.mk.injEq] at this
        exact ⟨this.1.symm, this.2.symm⟩
      have h61 : 61 ∈ d := by rw [e]; simp
      dsimp only
      constructor
      · intro h
        cases h1 : decodeE n with
        | error x => rw [h1] at h; cases h
        | ok n' =>
          rw [h1] at h
          simp only [bind, Except.bind, Except.ok.injEq] at h
          refine ⟨⟨h36, ?_⟩, .inl ⟨n', w, ⟨h36, n, e, hn, decodeE_ok.mp h1⟩, h.symm⟩⟩
          intro n1 w1 e1 hn1
          obtain ⟨rfl, rfl⟩ := huniq n1 w1 e1 hn1
          exact ⟨n', decodeE_ok.mp h1⟩
      · rintro ⟨-, ⟨name, value, ⟨-, n1, e1, hm, hp⟩, rfl⟩ | ⟨h, -⟩⟩
        · obtain ⟨rfl, rfl⟩ := huniq n1 value e1 hm
          rw [decodeE_ok.mpr hp]
          simp only [bind, Except.bind]
        · exact absurd h61 h

theorem gives_fun {d : Str} {o o' : SysOpt} {v v' : OptVal F} (h : Gives ids fmt d o v) (h' : Gives ids fmt d o' v') :
    o = o' ∧ v = v' := by
  have a := (optStep_ok ids fmt ⟨[], [], []⟩ _ d).mpr (.inl ⟨o, v, h, rfl⟩)
  have b := (optStep_ok ids fmt ⟨[], [], []⟩ _ d).mpr (.inl ⟨o', v', h', rfl⟩)
  rw [a] at b
  simpa using b

theorem binds_fun {d name name' value value' : Str} (h : Binds d name value) (h' : Binds d name' value') : name = name' ∧ value = value' := by
  obtain ⟨-, n, e, hn, hp⟩ := h
  obtain ⟨-, n', e', hn', hp'⟩ := h'
  have a := (atEquals_iff d n value).mpr ⟨e, hn⟩
  have b := (atEquals_iff d n' value').mpr ⟨e', hn'⟩
  rw [a] at b
  simp only [Option.some.injEq, Prod.mk.injEq] at b
  obtain ⟨rfl, rfl⟩ := b
  unfold plainText at hp hp'
  rw [hp] at hp'
  exact ⟨Option.some.inj hp', rfl⟩

/-- What the loop leaves, in terms of the pieces that have been read. -/
structure Inv (ds : List Str) (st : QState F) : Prop where
  ok : ∀ d ∈ ds, (∃ o v, Gives ids fmt d o v) ∨ CustomOk d
  custom : st.custom = ds.filter fun d => d.head? ≠ some 36
  sys : ∀ o v, st.sys.lookup o = some v ↔ ∃ a d b, ds = a ++ d :: b ∧ Gives ids fmt d o v ∧ ∀ d' ∈ b, ∀ v', ¬ Gives ids fmt d' o v'
  mem : ∀ o v, (o, v) ∈ st.sys ↔ ∃ d ∈ ds, Gives ids fmt d o v
  params : ∀ name i, st.params.lookup name = some i → ∃ a d b value, ds = a ++ d :: b ∧ Binds d name value ∧
    (∀ d' ∈ b, ∀ v', ¬ Binds d' name v') ∧ st.custom[i]? = some d
  noparam : ∀ name, st.params.lookup name = none → ∀ d ∈ ds, ∀ v, ¬ Binds d name v

/-- Splitting at the last piece. -/
theorem snoc_split {ds a b : List Str} {x d : Str} : ds ++ [x] = a ++ d :: b ↔
    (b = [] ∧ ds = a ∧ x = d) ∨ ∃ b', b = b' ++ [x] ∧ ds = a ++ d :: b' := by
  constructor
  · intro e
    rcases List.eq_nil_or_concat b with rfl | ⟨b', y, rfl⟩
    · have := List.append_inj' (s₁ := ds) (t₁ := [x]) (s₂ := a) (t₂ := [d]) e rfl
      exact .inl ⟨rfl, this.1, (List.cons.inj this.2).1⟩
    · have : ds ++ [x] = (a ++ d :: b') ++ [y] := by rw [e]; simp
      have := List.append_inj' this rfl
      have hxy := (List.cons.inj this.2).1
      exact .inr ⟨b', by rw [hxy]; simp, this.1⟩
  · rintro (⟨rfl, rfl, rfl⟩ | ⟨b', rfl, rfl⟩) <;> simp

theorem inv_step {ds : List Str} {st st' : QState F} {d : Str} (h : Inv ids fmt ds st) (hs : optStep ids fmt st d = .ok st') :
    Inv ids fmt (ds ++ [d]) st' := by
  rcases (optStep_ok ids fmt st st' d).mp hs with ⟨o, v, hg, rfl⟩ | ⟨hc, hb⟩
  · have hd36 : d.head? = some 36 := by obtain ⟨n, w, n', w', rfl, -⟩ := hg; rfl
    have hnb : ∀ n v, ¬ Binds d n v := fun n v hb => hb.1 hd36
    refine ⟨?_, ?_, ?_, ?_, ?_, ?_⟩
    · intro x hx
      rcases List.mem_append.mp hx with hx | hx
      · exact h.ok x hx
      · simp at hx; subst hx; exact .inl ⟨o, v, hg⟩
    · simp only [List.filter_append, h.custom]
      simp [hd36]
    · intro o' v'
      rw [List.lookup_cons]
      by_cases ho : o' = o
      · subst ho
        simp only [beq_self_eq_true, Option.some.injEq]
        constructor
        · rintro rfl
          exact ⟨ds, d, [], rfl, hg, by simp⟩
        · rintro ⟨a, x, b, e, hx, hb⟩
          rcases snoc_split.mp e with ⟨rfl, rfl, rfl⟩ | ⟨b', rfl, -⟩
          · exact (gives_fun ids fmt hg hx).2
          · exact absurd hg (hb d (by simp) v)
      · have : (o' == o) = false := by simpa using ho
        simp only [this]
        rw [h.sys]
        constructor
        · rintro ⟨a, x, b, rfl, hx, hb⟩
          refine ⟨a, x, b ++ [d], by simp, hx, ?_⟩
          intro d' hd' v'' hg'
          rcases List.mem_append.mp hd' with hd' | hd'
          · exact hb d' hd' v'' hg'
          · simp at hd'; subst hd'
            exact ho (gives_fun ids fmt hg' hg).1
        · rintro ⟨a, x, b, e, hx, hb⟩
          rcases snoc_split.mp e with ⟨rfl, rfl, rfl⟩ | ⟨b', rfl, rfl⟩
          · exact absurd (gives_fun ids fmt hx hg).1 ho
          · exact ⟨a, x, b', rfl, hx, fun d' hd' => hb d' (by simp [hd'])⟩
    · intro o' v'
      rw [List.mem_cons, h.mem]
      constructor
      · rintro (h' | ⟨x, hx, hg'⟩)
        · cases h'; exact ⟨d, by simp, hg⟩
        · exact ⟨x, by simp [hx], hg'⟩
      · rintro ⟨x, hx, hg'⟩
        rcases List.mem_append.mp hx with hx | hx
        · exact .inr ⟨x, hx, hg'⟩
        · simp at hx; subst hx
          obtain ⟨rfl, rfl⟩ := gives_fun ids fmt hg' hg
          exact .inl rfl
    · intro name i hl
      obtain ⟨a, x, b, value, rfl, hx, hb, hi⟩ := h.params name i hl
      refine ⟨a, x, b ++ [d], value, by simp, hx, ?_, hi⟩
      intro d' hd' v' hb'
      rcases List.mem_append.mp hd' with hd' | hd'
      · exact hb d' hd' v' hb'
      · simp at hd'; subst hd'; exact hnb _ _ hb'
    · intro name hl x hx w hb'
      rcases List.mem_append.mp hx with hx | hx
      · exact h.noparam name hl x hx w hb'
      · simp at hx; subst hx; exact hnb _ _ hb'
  · have hng : ∀ o v, ¬ Gives ids fmt d o v := by rintro o v ⟨n, w, n', w', rfl, -⟩; exact hc.1 rfl
    have hsys : st'.sys = st.sys := by rcases hb with ⟨n, w, -, rfl⟩ | ⟨-, rfl⟩ <;> rfl
    have hcus : st'.custom = st.custom ++ [d] := by rcases hb with ⟨n, w, -, rfl⟩ | ⟨-, rfl⟩ <;> rfl
    refine ⟨?_, ?_, ?_, ?_, ?_, ?_⟩
    · intro x hx
      rcases List.mem_append.mp hx with hx | hx
      · exact h.ok x hx
      · simp at hx; subst hx; exact .inr hc
    · rw [hcus, h.custom, List.filter_append]
      congr 1
      rw [List.filter_cons_of_pos (by simpa using hc.1)]
      rfl
    · intro o' v'
      rw [hsys, h.sys]
      constructor
      · rintro ⟨a, x, b, rfl, hx, hb⟩
        refine ⟨a, x, b ++ [d], by simp, hx, ?_⟩
        intro d' hd' v'' hg'
        rcases List.mem_append.mp hd' with hd' | hd'
        · exact hb d' hd' v'' hg'
        · simp at hd'; subst hd'; exact hng _ _ hg'
      · rintro ⟨a, x, b, e, hx, hb⟩
        rcases snoc_split.mp e with ⟨rfl, rfl, rfl⟩ | ⟨b', rfl, rfl⟩
        · exact absurd hx (hng _ _)
        · exact ⟨a, x, b', rfl, hx, fun d' hd' => hb d' (by simp [hd'])⟩
    · intro o' v'
      rw [hsys, h.mem]
      constructor
      · rintro ⟨x, hx, hg'⟩; exact ⟨x, by simp [hx], hg'⟩
      · rintro ⟨x, hx, hg'⟩
        rcases List.mem_append.mp hx with hx | hx
        · exact ⟨x, hx, hg'⟩
        · simp at hx; subst hx; exact absurd hg' (hng _ _)
    · intro name i hl
      have keep : st.params.lookup name = some i → (∀ v, ¬ Binds d name v) → ∃ a x b value, ds ++ [d] = a ++ x :: b ∧ Binds x name value ∧
          (∀ d' ∈ b, ∀ v', ¬ Binds d' name v') ∧ st'.custom[i]? = some x := by
        intro hl hnb
        obtain ⟨a, x, b, value, rfl, hx, hb, hi⟩ := h.params name i hl
        refine ⟨a, x, b ++ [d], value, by simp, hx, ?_, ?_⟩
        · intro d' hd' v' hb'
          rcases List.mem_append.mp hd' with hd' | hd'
          · exact hb d' hd' v' hb'
          · simp at hd'; subst hd'; exact hnb _ hb'
        · rw [hcus, List.getElem?_append_left]
          · exact hi
          · exact (List.getElem?_eq_some_iff.mp hi).1
      rcases hb with ⟨n, w, hbd, rfl⟩ | ⟨h61, rfl⟩
      · rw [List.lookup_cons] at hl
        by_cases hn : name = n
        · subst hn
          simp only [beq_self_eq_true, Option.some.injEq] at hl
          subst hl
          exact ⟨ds, d, [], w, rfl, hbd, by simp, by simp⟩
        · have : (name == n) = false := by simpa using hn
          simp only [this] at hl
          exact keep hl (fun v hb' => hn (binds_fun hb' hbd).1)
      · refine keep hl (fun v hb' => ?_)
        obtain ⟨-, n, e, -⟩ := hb'
        exact h61 (by rw [e]; simp)
    · intro name hl x hx w hb'
      rcases List.mem_append.mp hx with hx | hx
      · refine h.noparam name ?_ x hx w hb'
        rcases hb with ⟨n, w, hbd, rfl⟩ | ⟨h61, rfl⟩
        · rw [List.lookup_cons] at hl
          split at hl
          · cases hl
          · exact hl
        · exact hl
      · simp at hx; subst hx
        rcases hb with ⟨n, w', hbd, rfl⟩ | ⟨h61, rfl⟩
        · obtain ⟨rfl, -⟩ := binds_fun hbd hb'
          rw [List.lookup_cons, beq_self_eq_true] at hl
          cases hl
        · obtain ⟨-, n, e, -⟩ := hb'
          exact h61 (by rw [e]; simp)

theorem inv_nil : Inv ids fmt [] (⟨[], [], []⟩ : QState F) := by
  refine ⟨by simp, rfl, ?_, ?_, ?_, ?_⟩
  · intro o v; simp
  · intro o v; simp
  · intro n i h; simp at h
  · intro n _ d hd; cases hd

theorem optsLoop_inv (ds : List Str) : ∀ (pre : List Str) (st st' : QState F), Inv ids fmt pre st → optsLoop ids fmt st ds = .ok st' →
    Inv ids fmt (pre ++ ds) st' := by
  induction ds with
  | nil => intro pre st st' h he; simp only [optsLoop, Except.ok.injEq] at he; subst he; simpa using h
  | cons d r ih =>
    intro pre st st' h he
    unfold optsLoop at he
    cases hs : optStep ids fmt st d with
    | error e => rw [hs] at he; cases he
    | ok st1 =>
      rw [hs] at he
      have := ih (pre ++ [d]) st1 st' (inv_step ids fmt h hs) he
      simpa using this

theorem optsLoop_total (ds : List Str) (hall : ∀ d ∈ ds, (∃ o v, Gives ids fmt d o v) ∨ CustomOk d) : ∀ st : QState F,
    ∃ st', optsLoop ids fmt st ds = .ok st' := by
  induction ds with
  | nil => intro st; exact ⟨st, rfl⟩
  | cons d r ih =>
    intro st
    have : ∃ st1, optStep ids fmt st d = .ok st1 := by
      rcases hall d (by simp) with ⟨o, v, h⟩ | h
      · exact ⟨_, (optStep_ok ids fmt st _ d).mpr (.inl ⟨o, v, h, rfl⟩)⟩
      · cases ha : atEquals d with
        | none =>
          refine ⟨_, (optStep_ok ids fmt st _ d).mpr (.inr ⟨h, .inr ⟨?_, rfl⟩⟩)⟩
          intro hm; unfold atEquals at ha; rw [if_pos hm] at ha; cases ha
        | some nw =>
          obtain ⟨e, hn⟩ := (atEquals_iff d nw.1 nw.2).mp ha
          obtain ⟨n', hp⟩ := h.2 _ _ e hn
          exact ⟨_, (optStep_ok ids fmt st _ d).mpr (.inr ⟨h, .inl ⟨n', nw.2, ⟨h.1, nw.1, e, hn, hp⟩, rfl⟩⟩)⟩
    obtain ⟨st1, h1⟩ := this
    obtain ⟨st', h2⟩ := ih (fun d hd => hall d (by simp [hd])) st1
    exact ⟨st', by unfold optsLoop; rw [h1]; exact h2⟩

/-- C135: the query is refused unless every "&"-separated piece is a well formed system query option or a custom option whose name
can be decoded, and otherwise it is accepted. -/
theorem C135_accepted (q : Str) :
    (∃ st, queryOptions ids fmt (some q) = .ok st) ↔ ∀ d ∈ Uri.splitOn 38 q, (∃ o v, Gives ids fmt d o v) ∨ CustomOk d := by
  constructor
  · rintro ⟨st, h⟩
    have := optsLoop_inv ids fmt _ [] _ st (inv_nil ids fmt) h
    simpa using this.ok
  · exact fun h => optsLoop_total ids fmt _ h _

/-- C135: each system query option has the value of its last occurrence; the others do not count. -/
theorem C135_last_wins (q : Str) (st : QState F) (h : queryOptions ids fmt (some q) = .ok st) (o : SysOpt) (v : OptVal F) :
    st.sys.lookup o = some v ↔ ∃ a d b, Uri.splitOn 38 q = a ++ d :: b ∧ Gives ids fmt d o v ∧ ∀ d' ∈ b, ∀ v', ¬ Gives ids fmt d' o v' := by
  have := (optsLoop_inv ids fmt _ [] _ st (inv_nil ids fmt) h).sys o v
  simpa using this

/-- C135: the custom options are kept as they are, in order. -/
theorem C135_custom (q : Str) (st : QState F) (h : queryOptions ids fmt (some q) = .ok st) :
    st.custom = (Uri.splitOn 38 q).filter fun d => d.head? ≠ some 36 := by
  have := (optsLoop_inv ids fmt _ [] _ st (inv_nil ids fmt) h).custom
  simpa using this

/-- C135: a parameter has the value that its last occurrence gives it, and null when it does not occur. -/
theorem C135_parameter (q : Str) (st : QState F) (h : queryOptions ids fmt (some q) = .ok st) (name : Str) :
    (∀ a d b value, Uri.splitOn 38 q = a ++ d :: b → Binds d name value → (∀ d' ∈ b, ∀ v, ¬ Binds d' name v) →
      paramValue ids st name = match uriLiteral ids value with | some v => .ok v | none => .error .value) ∧
    ((∀ d ∈ Uri.splitOn 38 q, ∀ v, ¬ Binds d name v) → paramValue ids st name = .ok .null) := by
  have inv := optsLoop_inv ids fmt _ [] _ st (inv_nil ids fmt) h
  simp only [List.nil_append] at inv
  constructor
  · intro a d b value e hb hl
    unfold paramValue
    cases hp : st.params.lookup name with
    | none => exact absurd hb (inv.noparam name hp d (by rw [e]; simp) value)
    | some i =>
      obtain ⟨a', d', b', value', e', hb', hl', hi⟩ := inv.params name i hp
      have hd : d = d' := by
        rw [e'] at e
        rcases List.append_eq_append_iff.mp e with ⟨c, rfl, hc⟩ | ⟨c, rfl, hc⟩
        · cases c with
          | nil => simp at hc; exact hc.1.symm
          | cons y ys =>
            simp at hc
            exact absurd hb (hl' d (by rw [hc.2]; simp) value)
        · cases c with
          | nil => simp at hc; exact hc.1
          | cons y ys =>
            simp at hc
            exact absurd hb' (hl d' (by rw [hc.2]; simp) value')
      subst hd
      obtain ⟨-, n, en, hn, -⟩ := hb
      simp only [hi, Option.bind_some, (atEquals_iff d n value).mpr ⟨en, hn⟩]
      rfl
  · intro hno
    unfold paramValue
    cases hp : st.params.lookup name with
    | none => rfl
    | some i =>
      obtain ⟨a', d', b', value', e', hb', -, -⟩ := inv.params name i hp
      exact absurd hb' (hno d' (by rw [e']; simp) value')

/-- The last segment of the path has a key predicate (an empty one, as in Customers(), does not count). -/
def LastKeyed (nav : List Seg) : Prop := ∃ n ks, nav.getLast? = some (n, some ks) ∧ ks ≠ []

/-- Which options make sense with a path option: none with $metadata and $batch; $format, $skip, $top, $skiptoken, $inlinecount
with $links; $expand, $filter, $orderby, $skip, $top with $count of a collection; $expand, $filter with $count after a key
predicate; the others are checked when the resource is known. -/
def Allowed (opt : Option PathOpt) (nav : List Seg) (o : SysOpt) : Prop :=
  (opt ≠ some .metadata ∧ opt ≠ some .batch) ∧
  (opt = some .links → o = .format ∨ o = .skip ∨ o = .top ∨ o = .skiptoken ∨ o = .inlinecount) ∧
  (opt = some .count → o = .expand ∨ o = .filter ∨ (¬ LastKeyed nav ∧ (o = .orderby ∨ o = .skip ∨ o = .top)))

theorem keyed_iff (nav : List Seg) : keyed nav = true ↔ LastKeyed nav := by
  unfold keyed LastKeyed
  rcases h : nav.getLast? with _ | ⟨n, _ | ks⟩
  · simp
  · simp
  · cases ks <;> simp

theorem validate_iff (q : QState F) (n : Nat) : validate q n = .ok () ↔ ∀ o v, (o, v) ∈ q.sys → o ∈ supported n := by
  unfold validate
  split
  · next h =>
    simp only [true_iff]
    intro o v hm
    simpa using List.all_eq_true.mp h _ hm
  · next h =>
    simp only [reduceCtorEq, false_iff]
    intro hall
    exact h (List.all_eq_true.mpr fun ov hm => by simpa using hall ov.1 ov.2 hm)

theorem checkOption_iff (p : PState) (q : QState F) : checkOption p q = .ok () ↔ ∀ o v, (o, v) ∈ q.sys → Allowed p.opt p.nav o := by
  unfold checkOption Allowed
  rcases h : p.opt with _ | (_ | _ | _ | _ | _)
  · simp
  · simp [validate_iff, supported]
  · simp [validate_iff, supported]
  · dsimp only
    by_cases hk : keyed p.nav = true
    · rw [if_pos hk, validate_iff]
      simp [supported, (keyed_iff _).mp hk]
    · rw [if_neg hk, validate_iff]
      have : ¬ LastKeyed p.nav := fun h => hk ((keyed_iff _).mpr h)
      simp [supported, this]
  · simp
  · simp [validate_iff, supported]

/-- C135: the URI is accepted exactly if the path starts with the prefix, its query and the rest of its path can be read and each of
its options makes sense with the path option; and it is what was read. -/
theorem C135_allowed (pre path : Str) (query : Option Str) (u : OUri F) : mkUri ids fmt pre path query = .ok (some u) ↔
    path = pre ++ u.resource ∧ queryOptions ids fmt query = .ok u.query ∧ resourcePath ids u.resource = .ok u.path ∧
    ∀ o v, (o, v) ∈ u.query.sys → Allowed u.path.opt u.path.nav o := by
  rw [← checkOption_iff]
  unfold mkUri
  cases hp : pre.isPrefixOf path with
  | false =>
    simp only [Bool.not_false, if_true, Except.ok.injEq, reduceCtorEq, false_iff]
    rintro ⟨rfl, -⟩
    have : pre.isPrefixOf (pre ++ u.resource) = true := List.isPrefixOf_iff_prefix.mpr (List.prefix_append _ _)
    rw [this] at hp
    cases hp
  | true =>
    obtain ⟨t, rfl⟩ := List.isPrefixOf_iff_prefix.mp hp
    simp only [Bool.not_true, Bool.false_eq_true, if_false, List.drop_left, List.append_cancel_left_eq]
    constructor
    · intro h
      cases h1 : queryOptions ids fmt query with
      | error e => rw [h1] at h; cases h
      | ok q =>
        rw [h1] at h
        cases h2 : resourcePath ids t with
        | error e => rw [h2] at h; cases h
        | ok p =>
          rw [h2] at h
          cases h3 : checkOption p q with
          | error e => simp only [bind, Except.bind, h3] at h; cases h
          | ok x =>
            simp only [bind, Except.bind, h3, Except.ok.injEq, Option.some.injEq] at h
            subst h
            exact ⟨rfl, rfl, h2, h3⟩
    · rintro ⟨rfl, h1, h2, h3⟩
      simp only [bind, Except.bind, h1, h2, h3]

/-- C135: $skip and $top take digits only, so they are never negative. -/
theorem C135_numbers (s : Str) (n : Nat) : numOption s = some n ↔ s ≠ [] ∧ (∀ c ∈ s, isDigit c = true) ∧ decVal s = n := by
  unfold numOption digits
  dsimp only
  have split : s = s.takeWhile isDigit ++ s.dropWhile isDigit := List.takeWhile_append_dropWhile.symm
  have hdrop : s.drop (s.takeWhile isDigit).length = s.dropWhile isDigit := by
    conv => lhs; rw [split]
    rw [List.drop_left' (by rw [← split])]
  rw [hdrop]
  have hall : ∀ c ∈ s.takeWhile isDigit, isDigit c = true := fun c hc => List.all_eq_true.1 List.all_takeWhile c hc
  constructor
  · intro h
    split at h
    · next d heq =>
      split at heq
      · cases heq
      · next hl =>
        simp only [R.ok.injEq] at heq
        simp only [Option.some.injEq] at h
        rw [heq.2, List.append_nil] at split
        rw [← split] at hall hl heq
        refine ⟨?_, hall, ?_⟩
        · rintro rfl; simp at hl
        · rw [heq.1]; exact h
    · cases h
  · rintro ⟨hne, hd, rfl⟩
    have hts : s.takeWhile isDigit = s := by
      have := takeWhile_stop (r := []) hd (fun c hc => by cases hc)
      simpa using this.1
    have hds : s.dropWhile isDigit = [] := by
      have := takeWhile_stop (r := []) hd (fun c hc => by cases hc)
      simpa using this.2
    rw [hts, hds, if_neg]
    have := List.length_pos_iff.mpr hne
    omega

/-- Non-vacuity: $top=5&x=1&$top=7&x=2: $top is 7 and x is 2. -/
example : (match queryOptions (F := Unit) exIds' (fun _ => none) (some (chars "$top=5&x=1&$top=7&x=2")) with
    | .ok st => (match st.sys.lookup .top with | some (.num n) => n == 7 | _ => false) && st.custom == [chars "x=1", chars "x=2"] &&
        (match paramValue exIds' st (chars "x") with | .ok v => v == .i32 2 | _ => false)
    | _ => false) = true := by decide +kernel
/-- An option without "=" is a ValueError, not an invalid system query option. -/
example : (match queryOptions (F := Unit) exIds' (fun _ => none) (some (chars "$top")) with | .error e => e == .value | _ => false) = true := by
  decide +kernel

/-- Violation: the prefix is compared as text, and what is left of its last segment is dropped: with the service at /odata, the path
/odataX/Customers is taken for /odata/Customers. -/
theorem C135_prefix_violation :
    (match mkUri (F := Unit) exIds' (fun _ => none) (chars "/odata") (chars "/odataX/Customers") none with
      | .ok (some u) => u.path.nav.map Prod.fst == [chars "Customers"] | _ => false) = true := by decide +kernel

end Verif.OUri

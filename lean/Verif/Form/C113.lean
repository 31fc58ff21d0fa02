import Verif.Form.Arrange
import Mathlib.Tactic.ByContra

/-!
# C113: every form of a test obeys its selection and ordering rules
-/

namespace Verif.Form

theorem formSections_spec (t : Test) : ∀ ps s l s', noHollowL ps →
    formSections t.get ps s = .ok (l, s') →
    ∃ ss : List (List Comp), List.Forall₂ (SectForm t) ps ss ∧ l = ss.flatten := by
  intro ps
  induction ps with
  | nil =>
    intro s l s' _ h
    simp only [formSections, Except.ok.injEq, Prod.mk.injEq] at h
    exact ⟨[], .nil, h.1.symm⟩
  | cons p ps ih =>
    intro s l s' hh h
    simp only [noHollowL] at hh
    unfold formSections at h
    split at h
    · cases h
    · rename_i b s0 hb
      split at h
      · cases h
      · rename_i r s1 hr
        simp only [Except.ok.injEq, Prod.mk.injEq] at h
        obtain ⟨ss, e1, e2⟩ := ih _ _ _ hh.2 hr
        refine ⟨_ :: ss, .cons ⟨b, (select_legal t p hh.1 _ _ _ _ hb).1, rfl⟩ e1, ?_⟩
        rw [← h.1, e2]
        simp

theorem formParts_spec (t : Test) : ∀ ps s l s', (∀ p ∈ ps, noHollowL p.sections) →
    formParts t.get ps s = .ok (l, s') →
    ∃ parts : List (List Comp), l = parts.flatten ∧
      List.Forall₂ (fun (p : TPart) b => ∃ ss : List (List Comp),
        List.Forall₂ (SectForm t) p.sections ss ∧
        b = some p.id :: (ss.flatten ++ [some (45 :: p.id)])) ps parts := by
  intro ps
  induction ps with
  | nil =>
    intro s l s' _ h
    simp only [formParts, Except.ok.injEq, Prod.mk.injEq] at h
    exact ⟨[], h.1.symm, .nil⟩
  | cons p ps ih =>
    intro s l s' hh h
    unfold formParts at h
    split at h
    · cases h
    · rename_i b s0 hb
      split at h
      · cases h
      · rename_i r s1 hr
        simp only [Except.ok.injEq, Prod.mk.injEq] at h
        obtain ⟨parts, e1, e2⟩ := ih _ _ _ (fun q hq => hh q (List.mem_cons_of_mem _ hq)) hr
        obtain ⟨ss, f1, f2⟩ := formSections_spec t _ _ _ _ (hh p (by simp)) hb
        refine ⟨_ :: parts, ?_, .cons ⟨ss, f1, rfl⟩ e2⟩
        rw [← h.1, e1, f2]
        simp

/-- C113. Whatever the random choices, a form that is built has all the parts
and sections of the test in order, and in every section it has the wanted number of
children, every required child, no child twice unless replacement is allowed;
children stay in order, or, in a shuffled section, the fixed ones stay in order
and the others are permuted among the remaining places. -/
theorem C113_form_legal (t : Test) (s : Src) (l : List Comp) (hh : t.NoHollow)
    (h : form t s = .ok l) : FormSpec t l := by
  unfold form at h
  split at h
  · cases h
  · rename_i r s' hr
    simp only [Except.ok.injEq] at h
    obtain ⟨parts, e1, e2⟩ := formParts_spec t _ _ _ _ hh hr
    exact ⟨parts, by rw [← h, e1], e2⟩

/-! ## Nesting -/

theorem Balanced.append {P C : Id → Prop} {a b : List Comp} (ha : Balanced P C a)
    (hb : Balanced P C b) : Balanced P C (a ++ b) := by
  induction ha with
  | nil => exact hb
  | item hx _ ih => exact .item hx ih
  | @block x c l hx hc _ _ ih =>
    have := Balanced.block (x := x) hx hc ih
    simpa using this

theorem Balanced.wrap {P C : Id → Prop} {x : Id} (hx : C x) {a : List Comp}
    (ha : Balanced P C a) : Balanced P C (some x :: (a ++ [some (45 :: x)])) := .block hx ha .nil

theorem Balanced.flatMap {P C : Id → Prop} {α} (f : α → List Comp) (l : List α)
    (h : ∀ x ∈ l, Balanced P C (f x)) : Balanced P C (l.flatMap f) := by
  induction l with
  | nil => exact .nil
  | cons x l ih =>
    rw [List.flatMap_cons]
    exact (h x (by simp)).append (ih (fun y hy => h y (List.mem_cons_of_mem _ hy)))

theorem Balanced.items {P C : Id → Prop} {l : List Id} (h : ∀ x ∈ l, P x) :
    Balanced P C (l.map some) := by
  induction l with
  | nil => exact .nil
  | cons x l ih => exact .item (h x (by simp)) (ih (fun y hy => h y (List.mem_cons_of_mem _ hy)))

/-- An item reference of the test. -/
def IsItem (t : Test) (x : Id) : Prop := ∃ i ∈ t.all, i.id = x ∧ i.isSect = false

/-- A section or a part of the test. -/
def IsCont (t : Test) (x : Id) : Prop :=
  (∃ i ∈ t.all, i.id = x ∧ i.isSect = true) ∨ ∃ p ∈ t, p.id = x

theorem SPart.info_mem (p : SPart) : p.info ∈ p.all := by
  cases p <;> simp [SPart.info, SPart.all]

theorem allL_mem {ch : List SPart} {p : SPart} (h : p ∈ ch) : ∀ i ∈ p.all, i ∈ allL ch := by
  induction ch with
  | nil => cases h
  | cons q ch ih =>
    intro i hi
    simp only [allL, List.mem_append]
    rcases List.mem_cons.1 h with e | e
    · exact Or.inl (e ▸ hi)
    · exact Or.inr (ih e i hi)

mutual
theorem legal_balanced (t : Test) : ∀ (p : SPart), (∀ i ∈ p.all, i ∈ t.all) → ∀ l,
    legal t p true l → Balanced (IsItem t) (IsCont t) l
  | .item _, _ => by intro l h; simp [legal] at h
  | .sect i sel sh ch, hm => by
    intro l h
    simp only [legal] at h
    obtain ⟨rows, -, rfl, -, hr⟩ := h
    have hm' : ∀ i ∈ allL ch, i ∈ t.all := fun i hi => hm i (by simp [SPart.all, hi])
    have hsub := legals_balanced t ch hm'
    apply Balanced.flatMap
    intro r hr'
    obtain ⟨c, hc, h1, h2⟩ := hr r hr'
    rw [legals_get] at hc
    cases hp : ch[r.pick]? with
    | none => rw [hp] at hc; cases hc
    | some p =>
      rw [hp] at hc
      simp only [Option.map_some, Option.some.injEq] at hc
      subst hc
      have hpm : p ∈ ch := List.mem_of_getElem? hp
      by_cases hx : sh = true ∧ p.info.fixed = false
      · obtain ⟨-, e2, e3, -⟩ := h1 hx
        rw [e2]
        exact Balanced.items e3
      · obtain ⟨-, -, e3⟩ := h2 hx
        unfold Block at e3
        split at e3
        · rename_i hy
          obtain ⟨body, g1, g2⟩ := e3
          rw [g2]
          exact (hsub p hpm _ g1).wrap
            (Or.inl ⟨p.info, hm' _ (allL_mem hpm _ p.info_mem), rfl, hy.1⟩)
        · rename_i hn
          rw [e3]
          refine .item ⟨p.info, hm' _ (allL_mem hpm _ p.info_mem), rfl, ?_⟩ .nil
          simpa using hn
theorem legals_balanced (t : Test) : ∀ (ps : List SPart), (∀ i ∈ allL ps, i ∈ t.all) →
    ∀ p ∈ ps, ∀ l, legal t p true l → Balanced (IsItem t) (IsCont t) l
  | [], _ => by intro p hp; cases hp
  | q :: ps, hm => by
    intro p hp
    rcases List.mem_cons.1 hp with e | e
    · exact e ▸ legal_balanced t q (fun i hi => hm i (by simp [allL, hi]))
    · exact legals_balanced t ps (fun i hi => hm i (by simp [allL, hi])) p e
end

theorem mem_all {t : Test} {p : TPart} (h : p ∈ t) : ∀ i ∈ allL p.sections, i ∈ t.all := by
  intro i hi
  exact List.mem_flatMap.2 ⟨p, h, hi⟩

theorem sections_balanced (t : Test) : ∀ (ps : List SPart) (ss : List (List Comp)),
    (∀ i ∈ allL ps, i ∈ t.all) → List.Forall₂ (SectForm t) ps ss →
    Balanced (IsItem t) (IsCont t) ss.flatten := by
  intro ps ss hm h
  induction h with
  | nil => exact .nil
  | @cons p b ps ss hp _ ih =>
    rw [List.flatten_cons]
    obtain ⟨body, h1, h2⟩ := hp
    refine Balanced.append ?_ (ih (fun i hi => hm i (by simp [allL, hi])))
    rw [h2]
    refine (legal_balanced t p (fun i hi => hm i (by simp [allL, hi])) _ h1).wrap
      (Or.inl ⟨p.info, hm _ (by simp [allL, p.info_mem]), rfl, ?_⟩)
    cases p with
    | item i => simp [legal] at h1
    | sect i _ _ _ => rfl

/-- C113. In every form each section and each part is closed after it was
opened, inside whatever was open at that point; what is not a part or section is
an item reference of the test. -/
theorem C113_form_nested (t : Test) (s : Src) (l : List Comp) (hh : t.NoHollow)
    (h : form t s = .ok l) :
    ∃ r, l = some [] :: r ∧ Balanced (IsItem t) (IsCont t) r := by
  obtain ⟨parts, e1, e2⟩ := C113_form_legal t s l hh h
  refine ⟨_, e1, ?_⟩
  have : ∀ (ps : List TPart) (parts : List (List Comp)), (∀ p ∈ ps, p ∈ t) →
      List.Forall₂ (fun (p : TPart) b => ∃ ss : List (List Comp),
        List.Forall₂ (SectForm t) p.sections ss ∧
        b = some p.id :: (ss.flatten ++ [some (45 :: p.id)])) ps parts →
      Balanced (IsItem t) (IsCont t) parts.flatten := by
    intro ps parts hm h
    induction h with
    | nil => exact .nil
    | @cons p b ps parts hp _ ih =>
      rw [List.flatten_cons]
      obtain ⟨ss, h1, h2⟩ := hp
      refine Balanced.append ?_ (ih (fun q hq => hm q (List.mem_cons_of_mem _ hq)))
      rw [h2]
      exact (sections_balanced t _ _ (mem_all (hm p (by simp))) h1).wrap
        (Or.inr ⟨p, hm p (by simp), rfl⟩)
  exact this t parts (fun p hp => hp) e2

/-! ## Success -/

theorem get_of_mem {t : Test} (hu : t.Unique) {i : Info} (h : i ∈ t.all) :
    t.get i.id = some i := by
  unfold Test.get
  unfold Test.Unique at hu
  generalize t.all = l at *
  induction l with
  | nil => cases h
  | cons j l ih =>
    rw [List.map_cons, List.nodup_cons] at hu
    rcases List.mem_cons.1 h with e | e
    · subst e; simp
    · rw [List.find?_cons_of_neg]
      · exact ih hu.2 e
      · intro hj
        simp only [decide_eq_true_eq] at hj
        apply hu.1
        rw [hj]
        exact List.mem_map_of_mem e

theorem place_ok (get : Id → Option Info) (shuffle expand : Bool) (ch : List SPart)
    (hsub : ∀ p ∈ ch, p.info.isSect = true → ∀ s, ∃ r, select get p true s = .ok r)
    (hsh : shuffle = true → ∀ c ∈ ch, c.info.fixed = false → c.info.isSect = false) :
    ∀ is new shuf s, (∀ i ∈ is, i < ch.length) →
    ∃ r, place get shuffle expand (selects get ch) is new shuf s = .ok r := by
  intro is
  induction is with
  | nil => intro new shuf s _; exact ⟨_, rfl⟩
  | cons i is ih =>
    intro new shuf s hi
    have hlt := hi i (by simp)
    have ih' := fun new shuf s => ih new shuf s (fun j hj => hi j (List.mem_cons_of_mem _ hj))
    unfold place
    rw [selects_get, List.getElem?_eq_getElem hlt]
    simp only [Option.map_some]
    have hpm : ch[i] ∈ ch := List.getElem_mem hlt
    split
    · rename_i hc
      have := hsh hc.1 _ hpm hc.2
      rw [if_neg (by simp [this])]
      exact ih' _ _ _
    · split
      · rename_i hx
        obtain ⟨⟨b, s'⟩, hb⟩ := hsub _ hpm hx.1 s
        rw [hb]
        exact ih' _ _ _
      · exact ih' _ _ _

theorem mkBuckets_ok : ∀ sel xs, xs.length = sel.count none →
    ∃ b, mkBuckets sel xs = .ok (b, []) := by
  intro sel
  induction sel with
  | nil => 
    intro xs h
    have : xs = [] := List.length_eq_zero_iff.1 (by simpa using h)
    subst this
    exact ⟨[], rfl⟩
  | cons c sel ih =>
    intro xs h
    cases c with
    | some y =>
      rw [List.count_cons_of_ne (by simp)] at h
      exact ih xs h
    | none =>
      rw [List.count_cons_self] at h
      cases xs with
      | nil => simp at h
      | cons x xs =>
        obtain ⟨b, hb⟩ := ih xs (by simpa using h)
        refine ⟨[x] :: b, ?_⟩
        unfold mkBuckets
        rw [hb]

theorem newBucket_ok (t : Test) (hu : t.Unique) (b : List Id) (h : ∀ x ∈ b, IsItem t x) :
    newBucket t.get b = .ok (b.map some) := by
  induction b with
  | nil => rfl
  | cons x b ih =>
    unfold newBucket
    obtain ⟨i, hi, hx, hs⟩ := h x (by simp)
    rw [← hx, get_of_mem hu hi]
    simp only [hs, Bool.false_eq_true, if_false]
    rw [ih (fun y hy => h y (List.mem_cons_of_mem _ hy))]
    rfl

theorem splice_ok (t : Test) (hu : t.Unique) : ∀ (bs : List (List Id)) (sel : List Comp),
    bs.length = sel.count none → (∀ b ∈ bs, ∀ x ∈ b, IsItem t x) →
    ∃ l, splice t.get bs sel = .ok l := by
  intro bs
  induction bs with
  | nil => intro sel _ _; exact ⟨_, rfl⟩
  | cons b bs ih =>
    intro sel hlen hit
    unfold splice
    rw [newBucket_ok t hu b (hit b (by simp))]
    dsimp only
    have hm : none ∈ sel := by
      by_contra hn
      rw [List.count_eq_zero.2 hn] at hlen
      simp at hlen
    obtain ⟨pre, post, e, hn⟩ := List.eq_append_cons_of_mem hm
    subst e
    rw [replaceNone_spec _ _ _ hn]
    dsimp only
    apply ih
    · have hz : (b.map some : List Comp).count none = 0 := List.count_eq_zero.2 (by simp)
      simp only [List.count_append, List.count_cons_self, List.count_eq_zero.2 hn,
        List.length_cons] at hlen ⊢
      omega
    · exact fun z hz => hit z (List.mem_cons_of_mem _ hz)

theorem rows_count (t : Test) (shuffle expand : Bool) (ch : List SPart) (rows : List Row)
    (hsh : shuffle = true → ∀ c ∈ ch, c.info.fixed = false → c.info.isSect = false)
    (h : ∀ r ∈ rows, RowPre t shuffle expand ch r) :
    (rows.flatMap Row.offered).length = (rows.flatMap Row.block).count none := by
  induction rows with
  | nil => rfl
  | cons r rows ih =>
    have := ih (fun r hr => h r (List.mem_cons_of_mem _ hr))
    simp only [List.flatMap_cons, List.length_append, List.count_append, this]
    congr 1
    obtain ⟨-, p, hp, h1, h2⟩ := h r (by simp)
    by_cases hc : shuffle = true ∧ p.info.fixed = false
    · obtain ⟨e1, -, -, e4⟩ := h1 hc
      rw [e1, e4]
      · simp
      · intro hm
        have := hsh hc.1 p (List.mem_of_getElem? hp) hc.2
        rw [hm.1] at this; cases this
    · obtain ⟨e1, e2, -⟩ := h2 hc
      rw [e1, List.count_eq_zero.2 e2]; rfl

theorem feasible_topUp {sel : Option Sel} {infos : List Info} (hf : Feasible sel infos) :
    ∃ tg repl, target sel infos.length = (some tg, repl) ∧
      ¬ ((requiredIdx infos).length : Int) > tg ∧
      ∀ s, ∃ r, topUp repl (tg - (requiredIdx infos).length).toNat (bag infos repl)
        (requiredIdx infos) s = .ok r := by
  have hadd := req_add_bag infos
  cases sel with
  | none =>
    refine ⟨_, _, rfl, by omega, ?_⟩
    intro s
    apply topUp_ok
    · intro _; omega
    · by_cases hb : bag infos false = []
      · left; rw [hb] at hadd; simp only [List.length_nil] at hadd; omega
      · exact Or.inr hb
  | some x =>
    obtain ⟨k, h1, h2, h3, h4⟩ := hf
    rw [← requiredIdx_length] at h2
    refine ⟨k, x.repl, by simp [target, h1], by omega, ?_⟩
    intro s
    apply topUp_ok
    · intro hr; have := h3 hr; rw [hr]; omega
    · cases hr : x.repl with
      | false =>
        have := h3 hr
        by_cases hb : bag infos false = []
        · left; rw [hb] at hadd; simp only [List.length_nil] at hadd; omega
        · exact Or.inr hb
      | true =>
        rcases h4 with e | e
        · left; omega
        · right
          unfold bag
          simpa using e

theorem selectBody_ok (t : Test) (hu : t.Unique) (sel : Option Sel) (shuffle : Bool)
    (ch : List SPart) (hall : ∀ i ∈ allL ch, i ∈ t.all)
    (hf : Feasible sel (ch.map SPart.info))
    (hsub : ∀ p ∈ ch, SubOk t p) (hh : ∀ p ∈ ch, p.NoHollow)
    (hok : ∀ p ∈ ch, p.info.isSect = true → ∀ s, ∃ r, select t.get p true s = .ok r)
    (hsh : shuffle = true → ∀ c ∈ ch, c.info.fixed = false → c.info.isSect = false)
    (expand : Bool) (s : Src) :
    ∃ r, selectBody t.get sel shuffle (selects t.get ch) expand s = .ok r := by
  unfold selectBody
  dsimp only
  rw [selects_infos]
  obtain ⟨tg, repl, e1, e2, e3⟩ := feasible_topUp hf
  obtain ⟨⟨picks, s0⟩, htop⟩ := e3 s
  rw [e1]
  dsimp only
  rw [if_neg e2, htop]
  dsimp only
  have hpk := picks_ok e1 e2 htop
  obtain ⟨⟨new, shuf, s1⟩, hpl⟩ := place_ok t.get shuffle expand ch hok hsh (sortNat picks) [] [] s0
    (fun i hi => by simpa using hpk.2.1 i hi)
  rw [hpl]
  dsimp only
  obtain ⟨rows, f1, f2, f3, f4⟩ := place_rows t shuffle expand ch hsub hh _ _ _ _ _ _ _ hpl
  rw [List.nil_append] at f2 f3
  have hcount := rows_count t shuffle expand ch rows hsh f4
  rw [← f2, ← f3] at hcount
  unfold step5
  split
  · exact ⟨_, rfl⟩
  · dsimp only
    have hperm := shuffleList_perm shuf.length shuf s1 rfl
    obtain ⟨b, hb⟩ := mkBuckets_ok new (shuffleList shuf.length shuf s1).1
      (by rw [hperm.length_eq, hcount])
    rw [hb]
    dsimp only [spread]
    obtain ⟨b1, b2, b3⟩ := mkBuckets_spec _ _ _ _ hb
    obtain ⟨l, hl⟩ := splice_ok t hu b new b1 (by
      intro z hz x hx
      have : x ∈ shuf := by
        apply hperm.subset
        rw [← b2, List.append_nil]
        exact List.mem_flatten.2 ⟨z, hz, hx⟩
      rw [f3] at this
      obtain ⟨r, hr, hxr⟩ := List.mem_flatMap.1 this
      obtain ⟨-, p, hp, h1, h2⟩ := f4 r hr
      have hpm := List.mem_of_getElem? hp
      by_cases hc : shuffle = true ∧ p.info.fixed = false
      · have hns := hsh hc.1 p hpm hc.2
        obtain ⟨-, -, -, e4⟩ := h1 hc
        rw [e4 (by intro hm; rw [hm.1] at hns; cases hns)] at hxr
        rw [List.mem_singleton] at hxr
        exact ⟨p.info, hall _ (allL_mem hpm _ p.info_mem), hxr.symm, hns⟩
      · rw [(h2 hc).1] at hxr; cases hxr)
    rw [hl]
    exact ⟨_, rfl⟩

mutual
theorem select_ok (t : Test) (hu : t.Unique) : ∀ (p : SPart), (∀ i ∈ p.all, i ∈ t.all) →
    p.Good → p.NoHollow → p.info.isSect = true → ∀ ex s, ∃ r, select t.get p ex s = .ok r
  | .item _, _, _, _, h => by simp [SPart.info] at h
  | .sect i sel sh ch, hm, hg, hh, _ => by
    intro ex s
    simp only [SPart.Good] at hg
    simp only [SPart.NoHollow] at hh
    simp only [select]
    have hm' : ∀ i ∈ allL ch, i ∈ t.all := fun i hi => hm i (by simp [SPart.all, hi])
    exact selectBody_ok t hu sel sh ch hm' hg.1 (selects_legal t ch hh.2) (noHollow_mem hh.2)
      (selects_ok t hu ch hm' hg.2.2 hh.2) hg.2.1 ex s
theorem selects_ok (t : Test) (hu : t.Unique) : ∀ (ps : List SPart), (∀ i ∈ allL ps, i ∈ t.all) →
    goodL ps → noHollowL ps → ∀ p ∈ ps, p.info.isSect = true →
    ∀ s, ∃ r, select t.get p true s = .ok r
  | [], _, _, _ => by intro p hp; cases hp
  | q :: ps, hm, hg, hh => by
    simp only [goodL] at hg
    simp only [noHollowL] at hh
    intro p hp
    rcases List.mem_cons.1 hp with e | e
    · intro hs s
      exact e ▸ select_ok t hu q (fun i hi => hm i (by simp [allL, hi])) hg.1 hh.1 (e ▸ hs) true s
    · exact selects_ok t hu ps (fun i hi => hm i (by simp [allL, hi])) hg.2 hh.2 p e
end

theorem formSections_ok (t : Test) : ∀ (ps : List SPart),
    (∀ p ∈ ps, ∀ s, ∃ r, select t.get p true s = .ok r) →
    ∀ s, ∃ r, formSections t.get ps s = .ok r := by
  intro ps
  induction ps with
  | nil => intro _ s; exact ⟨_, rfl⟩
  | cons p ps ih =>
    intro h s
    unfold formSections
    obtain ⟨⟨b, s0⟩, hb⟩ := h p (by simp) s
    rw [hb]
    dsimp only
    obtain ⟨⟨r, s1⟩, hr⟩ := ih (fun q hq => h q (List.mem_cons_of_mem _ hq)) s0
    rw [hr]
    exact ⟨_, rfl⟩

/-- C113. If every selection rule can be met and shuffled sections hold no
sub-section that may move, then for all random choices a form is built, and it
obeys the rules. -/
theorem C113_form_total (t : Test) (hu : t.Unique) (hg : t.Good) (hh : t.NoHollow) (s : Src) :
    ∃ l, form t s = .ok l ∧ FormSpec t l := by
  have : ∀ ps : List TPart, (∀ p ∈ ps, p ∈ t) → ∀ s, ∃ r, formParts t.get ps s = .ok r := by
    intro ps
    induction ps with
    | nil => intro _ s; exact ⟨_, rfl⟩
    | cons p ps ih =>
      intro hm s
      have hp := hm p (by simp)
      unfold formParts
      obtain ⟨⟨b, s0⟩, hb⟩ := formSections_ok t p.sections
        (fun q hq => selects_ok t hu _ (mem_all hp) (hg p hp).1 (hh p hp) q hq ((hg p hp).2 q hq)) s
      rw [hb]
      dsimp only
      obtain ⟨⟨r, s1⟩, hr⟩ := ih (fun q hq => hm q (List.mem_cons_of_mem _ hq)) s0
      rw [hr]
      exact ⟨_, rfl⟩
  obtain ⟨⟨r, s'⟩, hr⟩ := this t (fun p hp => hp) s
  have hl : form t s = .ok (some [] :: r) := by unfold form; rw [hr]
  exact ⟨_, hl, C113_form_legal t s _ hh hl⟩

/-- C113. A section whose selection rule asks for fewer children than are
required, or for more children than there are without replacement, is refused
with a SelectionError whatever the random choices. -/
theorem C113_impossible_selection (get : Id → Option Info) (i : Info) (x : Sel) (sh : Bool)
    (ch : List SPart) (k : Int) (hk : x.select = some k)
    (hbad : k < (ch.map SPart.info).countP Info.required ∨
      (x.repl = false ∧ (ch.length : Int) < k)) (ex : Bool) (s : Src) :
    select get (.sect i (some x) sh ch) ex s = .error .selection := by
  simp only [select]
  unfold selectBody
  dsimp only
  rw [selects_infos]
  simp only [target, hk]
  have hlen := requiredIdx_length (ch.map SPart.info)
  have hadd := req_add_bag (ch.map SPart.info)
  simp only [List.length_map] at hadd
  split
  · rfl
  · rename_i h
    rcases hbad with hb | ⟨hb, hc⟩
    · omega
    · rw [hb, topUp_fail]
      omega

/-! ## Document order -/

mutual
/-- The section part with all its contents in document order. -/
def docOrder : SPart → List Comp
  | .item i => [some i.id]
  | .sect i _ _ ch => some i.id :: (docOrderL ch ++ [some (45 :: i.id)])
/-- A list of section parts in document order. -/
def docOrderL : List SPart → List Comp
  | [] => []
  | p :: ps => docOrder p ++ docOrderL ps
end

mutual
/-- The section has no selection rule and does not shuffle, nor do the sections
in it. -/
def SPart.Plain : SPart → Prop
  | .item _ => True
  | .sect _ sel sh ch => sel = none ∧ sh = false ∧ plainL ch
/-- The same for a list. -/
def plainL : List SPart → Prop
  | [] => True
  | p :: ps => p.Plain ∧ plainL ps
end

theorem docOrderL_eq (ch : List SPart) : docOrderL ch = ch.flatMap docOrder := by
  induction ch with
  | nil => rfl
  | cons p ps ih => simp [docOrderL, ih]

theorem rows_range {α} (f : Nat → List α) (rows : List Row) (g : Row → List α)
    (h : ∀ r ∈ rows, g r = f r.pick) : rows.flatMap g = (rows.map Row.pick).flatMap f := by
  induction rows with
  | nil => rfl
  | cons r rows ih =>
    simp only [List.flatMap_cons, List.map_cons]
    rw [h r (by simp), ih (fun r hr => h r (List.mem_cons_of_mem _ hr))]

theorem range_flatMap (ch : List SPart) :
    (List.range ch.length).flatMap (fun i => (ch[i]?.map docOrder).getD []) =
      ch.flatMap docOrder := by
  rw [List.flatMap_def, List.flatMap_def]
  congr 1
  exact map_range_get (fun o : Option SPart => (o.map docOrder).getD []) ch

mutual
theorem legal_plain (t : Test) : ∀ (p : SPart), p.Plain → ∀ l, legal t p true l →
    some p.info.id :: (l ++ [some (45 :: p.info.id)]) = docOrder p
  | .item _, _ => by intro l h; simp [legal] at h
  | .sect i sel sh ch, hp => by
    intro l h
    simp only [SPart.Plain] at hp
    obtain ⟨rfl, rfl, hch⟩ := hp
    simp only [legal] at h
    obtain ⟨rows, hpk, rfl, -, hr⟩ := h
    simp only [docOrder, SPart.info]
    congr 2
    have hsub := legals_plain t ch hch
    rw [rows_range (fun i => (ch[i]?.map docOrder).getD [])]
    · have := hpk.2.2.2
      simp only [legals_infos, List.length_map] at this
      rw [this, docOrderL_eq, range_flatMap]
    · intro r hr'
      obtain ⟨c, hc, -, h2⟩ := hr r hr'
      rw [legals_get] at hc
      cases hq : ch[r.pick]? with
      | none => rw [hq] at hc; cases hc
      | some q =>
        rw [hq] at hc
        simp only [Option.map_some, Option.some.injEq] at hc
        subst hc
        have e3 := (h2 (by simp)).2.2
        unfold Block at e3
        simp only [Option.map_some, Option.getD_some]
        split at e3
        · obtain ⟨body, g1, g2⟩ := e3
          rw [g2]
          exact hsub q (List.mem_of_getElem? hq) body g1
        · rename_i hn
          rw [e3]
          cases q with
          | item j => simp [docOrder, SPart.info]
          | sect j a b c => simp [SPart.info] at hn
theorem legals_plain (t : Test) : ∀ (ps : List SPart), plainL ps → ∀ p ∈ ps, ∀ l,
    legal t p true l → some p.info.id :: (l ++ [some (45 :: p.info.id)]) = docOrder p
  | [], _ => by intro p hp; cases hp
  | q :: ps, h => by
    simp only [plainL] at h
    intro p hp
    rcases List.mem_cons.1 hp with e | e
    · exact e ▸ legal_plain t q h.1
    · exact legals_plain t ps h.2 p e
end

/-- The whole test in document order. -/
def docTest (t : Test) : List Comp :=
  some [] :: t.flatMap (fun p => some p.id :: (docOrderL p.sections ++ [some (45 :: p.id)]))

/-- C113. Without selection rules and shuffling there is one form: the test in
document order. -/
theorem C113_document_order (t : Test) (s : Src) (l : List Comp) (hh : t.NoHollow)
    (hp : ∀ p ∈ t, plainL p.sections) (h : form t s = .ok l) : l = docTest t := by
  obtain ⟨parts, e1, e2⟩ := C113_form_legal t s l hh h
  unfold docTest
  rw [e1]
  congr 1
  have sec : ∀ (ps : List SPart) ss, plainL ps → List.Forall₂ (SectForm t) ps ss →
      ss.flatten = docOrderL ps := by
    intro ps ss hpl h
    induction h with
    | nil => rfl
    | @cons p b ps ss hb _ ih =>
      simp only [plainL] at hpl
      obtain ⟨body, g1, g2⟩ := hb
      rw [List.flatten_cons, docOrderL, ih hpl.2, g2, legal_plain t p hpl.1 _ g1]
  have : ∀ (ps : List TPart) (parts : List (List Comp)), (∀ p ∈ ps, plainL p.sections) →
      List.Forall₂ (fun (p : TPart) b => ∃ ss : List (List Comp),
        List.Forall₂ (SectForm t) p.sections ss ∧
        b = some p.id :: (ss.flatten ++ [some (45 :: p.id)])) ps parts →
      parts.flatten =
        ps.flatMap (fun p => some p.id :: (docOrderL p.sections ++ [some (45 :: p.id)])) := by
    intro ps parts hm h
    induction h with
    | nil => rfl
    | @cons p b ps parts hb _ ih =>
      rw [List.flatten_cons, List.flatMap_cons, ih (fun q hq => hm q (List.mem_cons_of_mem _ hq))]
      obtain ⟨ss, h1, h2⟩ := hb
      rw [h2, sec _ _ (hm p (by simp)) h1]
  exact this t parts hp e2

/-! ## What goes wrong -/

/-- Items Q1 ... for the examples. -/
def q (n : Nat) (fixed required : Bool := false) : SPart :=
  .item { id := [81, n], fixed := fixed, required := required }

theorem draw_one (s : Src) : draw 1 s = 0 := Nat.mod_one _

/-- C113, violated. A shuffled section with a visible sub-section that may move
and that is the only child: no form can be built, whatever the random choices
(`self.Select(childID, True)` is given the identifier). -/
theorem C113_shuffled_section_violated (t : Test) (i j : Info) (hv : j.visible = true)
    (hf : j.fixed = false) (sel : Option Sel) (sh : Bool) (ch : List SPart)
    (hu : t.Unique) (hj : ({ j with isSect := true } : Info) ∈ t.all) (ex : Bool) (s : Src) :
    select t.get (.sect i none true [.sect j sel sh ch]) ex s = .error .attribute := by
  simp only [select]
  unfold selectBody
  dsimp only
  rw [selects_infos]
  have hg := get_of_mem hu hj
  simp only at hg
  by_cases hr : j.required = true
  all_goals
    simp [target, requiredIdx, SPart.info, bag, hr, topUp, sortNat, insertNat, place, selects,
      hf, hv, step5, shuffleList, mkBuckets, spread, splice, newBucket, hg, List.range_succ, draw_one]

/-- A section that shuffles an empty invisible section. -/
def hollowTest : Test :=
  [⟨[80], [.sect { id := [83] } none true
    [.sect { id := [72], visible := false, keep := false } none false []]]⟩]

/-- C113, violated. When the only children that may move are empty mixed
sections, the form contains a free slot, which is not an identifier of anything. -/
theorem C113_free_slot_violated (s : Src) :
    form hollowTest s = .ok [some [], some [80], some [83], none, some [45, 83], some [45, 80]] := by
  simp [form, hollowTest, formParts, formSections, select, selects, selectBody, target,
    requiredIdx, bag, SPart.info, topUp, List.range_succ, draw_one, sortNat, insertNat, place,
    addGrand, step5]

/-- With an item beside it, there are two slots and one identifier: IndexError. -/
theorem C113_hollow_index_error (s : Src) :
    form [⟨[80], [.sect { id := [83] } none true
      [.sect { id := [72], visible := false, keep := false, required := true } none false [],
        q 1 false true]]⟩] s = .error .index := by
  simp [form, formParts, formSections, select, selects, selectBody, target, q,
    requiredIdx, bag, SPart.info, topUp, List.range_succ, draw_one, sortNat, insertNat, place,
    addGrand, step5, shuffleList, mkBuckets]

/-! ## Examples -/

/-- A test with a selection rule, required, fixed and shuffled items, and a
mixed section. -/
def sampleTest : Test :=
  [⟨[80], [.sect { id := [83] } (some ⟨some 4, false⟩) true
    [q 1 true true, q 2, .sect { id := [72], visible := false, keep := false, required := true } none false
      [q 3, q 4], q 5, q 6 true true]]⟩]

example : form sampleTest (fun _ => 0) = .ok [some [], some [80], some [83],
    some [81, 1], some [81, 2], some [81, 4], some [81, 3], some [81, 6], some [45, 83],
    some [45, 80]] := by decide +kernel

example : sampleTest.NoHollow := by
  simp [Test.NoHollow, sampleTest, noHollowL, SPart.NoHollow, q, picksSome]

/-- A test that satisfies all the hypotheses of the totality theorem. -/
def goodTest : Test :=
  [⟨[80], [.sect { id := [83] } (some ⟨some 3, false⟩) true
    [q 1 true true, q 2, q 3, .sect { id := [84], fixed := true } none false [q 4, q 5]]]⟩]

example : goodTest.Unique := by
  unfold Test.Unique
  decide +kernel

example : goodTest.Good := by
  intro p hp
  simp only [goodTest, List.mem_singleton] at hp
  subst hp
  simp [goodL, SPart.Good, Feasible, q, SPart.info]
  exact ⟨3, by decide⟩

example : goodTest.NoHollow := by
  simp [Test.NoHollow, goodTest, noHollowL, SPart.NoHollow, q]


example : form goodTest (fun n => n + 1) = .ok [some [], some [80], some [83],
    some [81, 1], some [81, 3], some [81, 2], some [45, 83], some [45, 80]] := by decide +kernel

example : plainL [.sect { id := [84] } none false [q 4, q 5]] := by
  simp [plainL, SPart.Plain, q]

end Verif.Form

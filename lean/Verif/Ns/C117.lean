import Verif.Ns.Lemmas

/-!
# C117: names survive being written and read
-/
namespace Verif.Ns

/-- The prefix given to an attribute makes its name readable in the chain. -/
def Serves (chain : List Frame) (ns : Option Str) (p : Str) : Prop :=
  ∃ n, ns = some n ∧ ((n = XML ∧ p = xmlP) ∨ (n = NONS ∧ p = []) ∨
    (p ≠ [] ∧ Good p ∧ (∃ c s, n = c :: s) ∧ bind chain p = some n))

/-- Nothing that is in force is lost. -/
def Keeps (a b : List Frame) : Prop := ∀ p c s, bind a p = some (c :: s) → bind b p = some (c :: s)

theorem Keeps.refl (a : List Frame) : Keeps a a := fun _ _ _ h => h
theorem Keeps.trans {a b c : List Frame} (h : Keeps a b) (h2 : Keeps b c) : Keeps a c :=
  fun p x s hp => h2 p x s (h p x s hp)

theorem Serves.mono {a b : List Frame} (h : Keeps a b) {ns : Option Str} {p : Str} (hs : Serves a ns p) : Serves b ns p := by
  obtain ⟨n, e, h1 | h1 | ⟨h1, h2, ⟨c, s, rfl⟩, h3⟩⟩ := hs
  · exact ⟨n, e, .inl h1⟩
  · exact ⟨n, e, .inr (.inl h1)⟩
  · exact ⟨_, e, .inr (.inr ⟨h1, h2, ⟨c, s, rfl⟩, h _ _ _ h3⟩)⟩

theorem bind_good {E : Str → Prop} {chain : List Frame} (h : ∀ f ∈ chain, Fit E f) {p v : Str} (hb : bind chain p = some v) :
    Good p := by
  induction chain with
  | nil => cases hb
  | cons f r ih =>
    simp only [bind] at hb
    cases hg : get f.p2n p with
    | none => rw [hg] at hb; exact ih (fun g hg => h g (.tail _ hg)) hb
    | some w => exact (h f (.head _)).good _ (get_mem _ _ _ hg)

/-- A prefix found that is empty stands for a namespace of elements. -/
theorem search_nil {E : Str → Prop} (ns : Str) (near chain : List Frame) (h : ∀ f ∈ chain, Fit E f)
    (hs : search ns near chain = some []) : E ns := by
  induction chain generalizing near with
  | nil => cases hs
  | cons f r ih =>
    have hr : ∀ f ∈ r, Fit E f := fun g hg => h g (.tail _ hg)
    simp only [search] at hs
    cases hg : get f.n2p ns with
    | none => rw [hg] at hs; exact ih _ hr hs
    | some q =>
      rw [hg] at hs; dsimp only at hs
      split at hs
      · exact ih _ hr hs
      · injection hs with hs; subst hs; exact (h f (.head _)).dflt _ hg

theorem attrPrefix_ok {E : Str → Prop} (dflt : Option Str) (anc : List Frame) (f f1 : Frame) (a : Attr) (p : Str)
    (hanc : ∀ g ∈ anc, Fit E g) (hf : Fit E f) (ha : FineAttr E a) (h : attrPrefix dflt anc f a.ns = some (p, f1)) :
    Fit E f1 ∧ Keeps (f :: anc) (f1 :: anc) ∧ Serves (f1 :: anc) a.ns p := by
  have hall : ∀ g ∈ f :: anc, Fit E g := by
    intro g hg; cases hg with
    | head => exact hf
    | tail _ hg => exact hanc g hg
  unfold attrPrefix at h
  obtain ⟨-, ha | ⟨ha, -⟩ | ⟨c, s, ha, hn, hE⟩⟩ := ha
  · rw [ha] at h
    simp only [getPrefix, if_true] at h
    injection h with h; injection h with h1 h2; subst h1; subst h2
    exact ⟨hf, Keeps.refl _, ⟨_, ha, .inl ⟨rfl, rfl⟩⟩⟩
  · rw [ha] at h
    simp only [getPrefix, if_neg (show ¬ NONS = XML by decide), if_true] at h
    injection h with h; injection h with h1 h2; subst h1; subst h2
    exact ⟨hf, Keeps.refl _, ⟨_, ha, .inr (.inl ⟨rfl, rfl⟩)⟩⟩
  · rw [ha] at h
    by_cases hx : c :: s = XML
    · simp only [getPrefix, if_pos hx] at h
      injection h with h; injection h with h1 h2; subst h1; subst h2
      exact ⟨hf, Keeps.refl _, ⟨_, ha, .inl ⟨hx, rfl⟩⟩⟩
    · simp only [getPrefix, if_neg hx, if_neg hn] at h
      cases hs : search (c :: s) [] (f :: anc) with
      | some q =>
        rw [hs] at h; dsimp only at h
        injection h with h; injection h with h1 h2; subst h1; subst h2
        have hb := search_bind (c :: s) [] (f :: anc) (fun g hg => (hall g hg).inv) _ hs
        refine ⟨hf, Keeps.refl _, ⟨_, ha, .inr (.inr ⟨?_, bind_good hall hb, ⟨c, s, rfl⟩, hb⟩)⟩⟩
        intro e; subst e; exact hE (search_nil _ _ _ hall hs)
      | none =>
        rw [hs] at h; dsimp only at h
        obtain ⟨m, hm, -, hfree, -⟩ := newPrefix_spec dflt (f :: anc)
        rw [hm] at h; dsimp only [Option.getD] at h
        cases hmk : makePrefix f (c :: s) (nsN m) with
        | none => rw [hmk] at h; cases h
        | some g =>
          rw [hmk] at h
          simp only [Option.map_some, Option.some.injEq, Prod.mk.injEq] at h
          obtain ⟨rfl, rfl⟩ := h
          have hfit := fit_make hf (nsN_good m) (fun e => (nsN_ne_nil m e).elim) hmk
          obtain ⟨hnone, rfl⟩ := makePrefix_some hmk
          refine ⟨hfit, ?_, ⟨_, ha, .inr (.inr ⟨nsN_ne_nil m, nsN_good m, ⟨c, s, rfl⟩, ?_⟩)⟩⟩
          · intro q c' s' hq
            have hne : nsN m ≠ q := by
              intro e; subst e
              rw [getNs_of_bind dflt _ _ _ _ (nsN_ne_xml m) hq] at hfree
              cases hfree
            simp only [bind, get_append_new _ _ _ _ hnone, if_neg hne] at hq ⊢
            exact hq
          · simp [bind, get_append_new _ _ _ _ hnone]

theorem writeAttrs_ok {E : Str → Prop} (dflt : Option Str) (anc : List Frame) (hanc : ∀ g ∈ anc, Fit E g) (l : List Attr)
    (f f2 : Frame) (out : List (Str × Str)) (hf : Fit E f) (hl : ∀ a ∈ l, FineAttr E a)
    (h : writeAttrs dflt anc f l = some (out, f2)) :
    Fit E f2 ∧ Keeps (f :: anc) (f2 :: anc) ∧
      List.Forall₂ (fun a o => ∃ p, o = (qn p a.name, a.val) ∧ Serves (f2 :: anc) a.ns p) l out := by
  induction l generalizing f out with
  | nil =>
    simp only [writeAttrs, Option.some.injEq, Prod.mk.injEq] at h
    obtain ⟨rfl, rfl⟩ := h
    exact ⟨hf, Keeps.refl _, .nil⟩
  | cons a r ih =>
    simp only [writeAttrs] at h
    cases hp : attrPrefix dflt anc f a.ns with
    | none => rw [hp] at h; cases h
    | some pf =>
      obtain ⟨p, f1⟩ := pf
      rw [hp] at h; dsimp only at h
      obtain ⟨h1, h2, h3⟩ := attrPrefix_ok dflt anc f f1 a p hanc hf (hl a (.head _)) hp
      cases hw : writeAttrs dflt anc f1 r with
      | none => rw [hw] at h; cases h
      | some of =>
        obtain ⟨o, f3⟩ := of
        rw [hw] at h
        simp only [Option.some.injEq, Prod.mk.injEq] at h
        obtain ⟨rfl, rfl⟩ := h
        obtain ⟨k1, k2, k3⟩ := ih f1 o h1 (fun b hb => hl b (.tail _ hb)) hw
        exact ⟨k1, h2.trans k2, .cons ⟨p, rfl, h3.mono k2⟩ k3⟩

/-! ## The start tag, read -/

theorem takeWhile_colon (p n : Str) (h : 58 ∉ p) : (p ++ [58] ++ n).takeWhile (· ≠ 58) = p := by
  induction p with
  | nil => simp
  | cons c r ih =>
    simp only [List.mem_cons, not_or] at h
    have hc : c ≠ 58 := fun e => h.1 e.symm
    simp only [List.append_assoc, ne_eq, decide_not, List.cons_append, List.nil_append] at ih ⊢
    rw [List.takeWhile_cons, if_pos (by simp [hc]), ih h.2]

theorem dropWhile_colon (p n : Str) (h : 58 ∉ p) : ((p ++ [58] ++ n).dropWhile (· ≠ 58)).tail = n := by
  induction p with
  | nil => simp
  | cons c r ih =>
    simp only [List.mem_cons, not_or] at h
    have hc : c ≠ 58 := fun e => h.1 e.symm
    simp only [List.append_assoc, ne_eq, decide_not, List.cons_append, List.nil_append] at ih ⊢
    rw [List.dropWhile_cons, if_pos (by simp [hc]), ih h.2]

theorem expand_prefixed (dflt : Option Str) (ctx : List Frame) (ns : Dict) (u : Bool) (p n : Str) (hp : p ≠ []) (hc : 58 ∉ p)
    (hn : 58 ∉ n) :
    expand dflt ctx ns u (qn p n) =
      if p = xmlP then some (some XML, n) else if p = xmlnsP then some (some XMLNS, n)
      else some ((get ns p).or (getNs dflt ctx p), n) := by
  unfold expand qn
  rw [if_neg hp]
  rw [if_pos (show 58 ∈ p ++ [58] ++ n by simp)]
  simp only [takeWhile_colon p n hc, dropWhile_colon p n hc, if_neg hn]

theorem Good.ne_xml {p : Str} (h : Good p) : p ≠ xmlP := fun e => h.2 (e ▸ List.prefix_rfl)

theorem Good.not_xmlns {p : Str} (h : Good p) (n : Str) : p ≠ [] → ¬ xmlnsP <+: qn p n := by
  intro hp hx
  unfold qn at hx
  rw [if_neg hp] at hx
  obtain ⟨hc, hx3⟩ := h
  match p, hp with
  | [a], _ => simp [xmlnsP, List.cons_prefix_cons] at hx
  | [a, b], _ => simp [xmlnsP, List.cons_prefix_cons] at hx
  | a :: b :: c :: r, _ =>
    simp only [xmlnsP, List.cons_append, List.cons_prefix_cons] at hx
    refine hx3 ?_
    simp only [xmlP, List.cons_prefix_cons]
    exact ⟨hx.1, hx.2.1, hx.2.2.1, List.nil_prefix⟩

theorem Good.ne_xmlns {p : Str} (h : Good p) : p ≠ xmlnsP := by
  intro e; subst e; exact h.2 (by decide)

theorem get_or_getNs (dflt : Option Str) (f : Frame) (ctx : List Frame) (p : Str) (c : Nat) (s : Str) (hp : p ≠ xmlP)
    (h : bind (f :: ctx) p = some (c :: s)) :
    (get f.p2n p).or (getNs dflt ctx p) = some (c :: s) := by
  simp only [bind] at h
  cases hg : get f.p2n p with
  | some v => rw [hg] at h; exact h
  | none => rw [hg] at h; simpa using getNs_of_bind _ _ _ _ _ hp h

theorem expand_attr {E : Str → Prop} (dflt : Option Str) (f : Frame) (ctx : List Frame) (a : Attr) (p : Str)
    (ha : FineAttr E a) (hs : Serves (f :: ctx) a.ns p) :
    expand dflt ctx f.p2n false (qn p a.name) = some (a.ns, a.name) ∧ ¬ xmlnsP <+: qn p a.name := by
  obtain ⟨n, hn, ⟨rfl, rfl⟩ | ⟨rfl, rfl⟩ | ⟨hp, hg, ⟨c, s, rfl⟩, hb⟩⟩ := hs
  · constructor
    · rw [expand_prefixed _ _ _ _ _ _ (by decide) (by decide) ha.1, if_pos rfl, hn]
    · simp [qn, xmlP, xmlnsP, List.cons_prefix_cons]
  · have hnx : ¬ xmlnsP <+: a.name := by
      obtain ⟨-, h | ⟨-, h⟩ | ⟨c, s, h, h2, -⟩⟩ := ha
      · rw [hn] at h; exact absurd h (by decide)
      · exact h
      · rw [hn] at h; injection h with h; exact absurd h.symm h2
    constructor
    · unfold expand qn
      rw [if_pos rfl, if_neg ha.1, if_neg (fun e : a.name = xmlnsP => hnx (e ▸ List.prefix_rfl)), hn]
      simp
    · unfold qn; rw [if_pos rfl]; exact hnx
  · constructor
    · rw [expand_prefixed _ _ _ _ _ _ hp hg.1 ha.1, if_neg hg.ne_xml, if_neg hg.ne_xmlns,
        get_or_getNs _ _ _ _ _ _ hg.ne_xml hb, hn]
    · exact hg.not_xmlns _ hp

theorem putAttr_new (l : List Attr) (a : Attr) (h : (a.ns, a.name) ∉ l.map (fun a => (a.ns, a.name))) :
    putAttr l a = l ++ [a] := by
  induction l with
  | nil => rfl
  | cons b r ih =>
    simp only [List.map_cons, List.mem_cons, not_or, Prod.mk.injEq] at h
    simp only [putAttr]
    rw [if_neg (fun e => h.1 ⟨e.1.symm, e.2.symm⟩), ih h.2]
    rfl

theorem expandAll_ok {E : Str → Prop} (dflt : Option Str) (f : Frame) (ctx : List Frame) (l : List Attr)
    (out : List (Str × Str)) (hl : ∀ a ∈ l, FineAttr E a)
    (h : List.Forall₂ (fun a o => ∃ p, o = (qn p a.name, a.val) ∧ Serves (f :: ctx) a.ns p) l out)
    (acc : List Attr) (hnd : ((acc ++ l).map (fun a => (a.ns, a.name))).Nodup) :
    expandAll dflt ctx f.p2n out acc = some (acc ++ l) := by
  induction h generalizing acc with
  | nil => simp [expandAll]
  | @cons a o r out' ho _ ih =>
    obtain ⟨p, rfl, hs⟩ := ho
    simp only [expandAll]
    rw [(expand_attr dflt f ctx a p (hl a (.head _)) hs).1]
    dsimp only
    rw [putAttr_new, ih (fun b hb => hl b (.tail _ hb))]
    · simp
    · simpa using hnd
    · intro hm
      simp only [List.map_append, List.map_cons] at hnd
      exact (List.nodup_append.1 hnd).2.2 _ hm _ (.head _) rfl

theorem out_names {E : Str → Prop} (dflt : Option Str) (f : Frame) (ctx : List Frame) (l : List Attr)
    (out : List (Str × Str)) (hl : ∀ a ∈ l, FineAttr E a)
    (h : List.Forall₂ (fun a o => ∃ p, o = (qn p a.name, a.val) ∧ Serves (f :: ctx) a.ns p) l out) :
    (out.map Prod.fst).map (expand dflt ctx f.p2n false) = l.map (fun a => some (a.ns, a.name)) ∧
      ∀ o ∈ out, ¬ xmlnsP <+: o.1 := by
  induction h with
  | nil => exact ⟨rfl, fun _ h => (nomatch h)⟩
  | @cons a o r out' ho _ ih =>
    obtain ⟨p, rfl, hs⟩ := ho
    obtain ⟨h1, h2⟩ := ih (fun b hb => hl b (.tail _ hb))
    obtain ⟨h3, h4⟩ := expand_attr dflt f ctx a p (hl a (.head _)) hs
    refine ⟨?_, ?_⟩
    · simp only [List.map_cons, h3, h1]
    · intro o ho
      cases ho with
      | head => exact h4
      | tail _ ho => exact h2 o ho

/-! ## The declarations, read -/

theorem declName_prefix (p : Str) : xmlnsP <+: declName p := by
  unfold declName; split
  · exact List.prefix_rfl
  · rw [List.append_assoc]; exact List.prefix_append _ _

theorem declName_inj {p q : Str} (h : declName p = declName q) : p = q := by
  unfold declName at h
  split at h <;> split at h
  · simp_all
  · simp [xmlnsP] at h
  · simp [xmlnsP] at h
  · exact List.append_cancel_left h

theorem decls_map (l : Dict) (out : List (Str × Str)) (acc : Dict) :
    decls (l.map (fun pv => (declName pv.1, pv.2)) ++ out) acc =
      decls out (l.foldl (fun d pv => put d pv.1 pv.2) acc) := by
  induction l generalizing acc with
  | nil => rfl
  | cons x r ih =>
    obtain ⟨p, v⟩ := x
    simp only [List.map_cons, List.cons_append, decls, if_pos (declName_prefix p), List.foldl_cons]
    rw [ih]
    congr 2
    unfold declName
    by_cases hp : p = []
    · subst hp; simp [xmlnsP]
    · simp [xmlnsP, hp]

theorem decls_plain (out : List (Str × Str)) (acc : Dict) (h : ∀ o ∈ out, ¬ xmlnsP <+: o.1) : decls out acc = acc := by
  induction out generalizing acc with
  | nil => rfl
  | cons x r ih =>
    obtain ⟨a, v⟩ := x
    simp only [decls, if_neg (h _ (.head _))]
    exact ih _ (fun o ho => h o (.tail _ ho))

theorem plain_decls (l : Dict) (out : List (Str × Str)) (h : ∀ o ∈ out, ¬ xmlnsP <+: o.1) :
    plain (l.map (fun pv => (declName pv.1, pv.2)) ++ out) = out := by
  unfold plain
  rw [List.filter_append]
  have h1 : (l.map (fun pv => (declName pv.1, pv.2))).filter (fun a => decide (¬ xmlnsP <+: a.1)) = [] := by
    rw [List.filter_eq_nil_iff]
    intro a ha
    obtain ⟨pv, _, rfl⟩ := List.mem_map.1 ha
    simp [declName_prefix pv.1]
  have h2 : out.filter (fun a => decide (¬ xmlnsP <+: a.1)) = out := by
    rw [List.filter_eq_self]
    intro a ha
    simpa using h a ha
  rw [h1, h2]; rfl

theorem get_addMap (d acc : Dict) (p : Str) :
    get (addMap acc d) p = match get acc p with | some v => some v | none => get d p := by
  induction d generalizing acc with
  | nil => simp only [addMap]; cases get acc p <;> rfl
  | cons x r ih =>
    obtain ⟨q, v⟩ := x
    simp only [addMap, ih]
    by_cases hq : (get acc q).isSome
    · rw [if_pos hq]
      cases hp : get acc p with
      | some w => rfl
      | none =>
        simp only [get]
        rw [if_neg]
        intro e; subst e; rw [hp] at hq; cases hq
    · rw [if_neg hq]
      have hn : get acc q = none := by cases h : get acc q with | none => rfl | some w => rw [h] at hq; simp at hq
      rw [get_append_new _ _ _ _ hn]
      by_cases e : q = p
      · subst e; simp [hn, get]
      · rw [if_neg e]
        cases get acc p with
        | some w => rfl
        | none => simp [get, e]

theorem keys_addMap (d acc : Dict) (h : (acc.map Prod.fst).Nodup) : ((addMap acc d).map Prod.fst).Nodup := by
  induction d generalizing acc with
  | nil => exact h
  | cons x r ih =>
    obtain ⟨q, v⟩ := x
    simp only [addMap]
    refine ih _ ?_
    split
    · exact h
    · rename_i hq
      simp only [List.map_append, List.map_cons, List.map_nil]
      refine List.nodup_append.2 ⟨h, by simp, ?_⟩
      intro a ha b hb e
      simp at hb; subst hb; subst e
      have : get acc a = none := by cases h : get acc a with | none => rfl | some w => rw [h] at hq; simp at hq
      exact (get_none_iff _ _).1 this ha

theorem prefixMap_ok (chain : List Frame) :
    (∀ p, get (prefixMap chain) p = bind chain p) ∧ ((prefixMap chain).map Prod.fst).Nodup := by
  have key : ∀ (chain : List Frame) (acc : Dict), (acc.map Prod.fst).Nodup →
      (∀ p, get (chain.foldl (fun acc f => addMap acc f.p2n) acc) p =
        match get acc p with | some v => some v | none => bind chain p) ∧
      ((chain.foldl (fun acc f => addMap acc f.p2n) acc).map Prod.fst).Nodup := by
    intro chain
    induction chain with
    | nil => intro acc h; refine ⟨fun p => ?_, h⟩; simp only [List.foldl_nil, bind]; cases get acc p <;> rfl
    | cons f r ih =>
      intro acc h
      obtain ⟨h1, h2⟩ := ih (addMap acc f.p2n) (keys_addMap _ _ h)
      refine ⟨fun p => ?_, h2⟩
      simp only [List.foldl_cons, h1 p, get_addMap, bind]
      cases get acc p with
      | some v => rfl
      | none => dsimp only; cases get f.p2n p <;> rfl
  obtain ⟨h1, h2⟩ := key chain [] (by simp)
  exact ⟨fun p => by rw [prefixMap, h1 p]; rfl, h2⟩

/-! ## The whole tree -/

theorem elemPrefix_ok {E : Str → Prop} (anc : List Frame) (f f1 : Frame) (c : Nat) (s p : Str)
    (hanc : ∀ g ∈ anc, Fit E g) (hf : Fit E f) (hn : c :: s ≠ NONS) (hE : E (c :: s))
    (h : elemPrefix anc f (some (c :: s)) = some (p, f1)) :
    Fit E f1 ∧ ((c :: s = XML ∧ p = xmlP) ∨ (Good p ∧ bind (f1 :: anc) p = some (c :: s))) := by
  have hall : ∀ g ∈ f :: anc, Fit E g := by
    intro g hg; cases hg with
    | head => exact hf
    | tail _ hg => exact hanc g hg
  simp only [elemPrefix] at h
  by_cases hx : c :: s = XML
  · simp only [getPrefix, if_pos hx] at h
    injection h with h; injection h with h1 h2; subst h1; subst h2
    exact ⟨hf, .inl ⟨hx, rfl⟩⟩
  · simp only [getPrefix, if_neg hx, if_neg hn] at h
    cases hs : search (c :: s) [] (f :: anc) with
    | some q =>
      rw [hs] at h; dsimp only at h
      injection h with h; injection h with h1 h2; subst h1; subst h2
      have hb := search_bind (c :: s) [] (f :: anc) (fun g hg => (hall g hg).inv) _ hs
      exact ⟨hf, .inr ⟨bind_good hall hb, hb⟩⟩
    | none =>
      rw [hs] at h; dsimp only at h
      cases hmk : makePrefix f (c :: s) [] with
      | none => rw [hmk] at h; cases h
      | some g =>
        rw [hmk] at h
        simp only [Option.map_some, Option.some.injEq, Prod.mk.injEq] at h
        obtain ⟨rfl, rfl⟩ := h
        have hg : Good [] := ⟨by simp, by decide⟩
        refine ⟨fit_make hf hg (fun _ => hE) hmk, .inr ⟨hg, ?_⟩⟩
        obtain ⟨hnone, rfl⟩ := makePrefix_some hmk
        simp [bind, get_append_new _ _ _ _ hnone]

theorem expand_elem (dflt : Option Str) (f : Frame) (ctx : List Frame) (c : Nat) (s p name : Str) (hname : 58 ∉ name)
    (hx : name ≠ xmlnsP) (h : (c :: s = XML ∧ p = xmlP) ∨ (Good p ∧ bind (f :: ctx) p = some (c :: s))) :
    expand dflt ctx f.p2n true (qn p name) = some (some (c :: s), name) := by
  rcases h with ⟨he, rfl⟩ | ⟨hg, hb⟩
  · rw [expand_prefixed _ _ _ _ _ _ (by decide) (by decide) hname, if_pos rfl, he]
  · by_cases hp : p = []
    · subst hp
      unfold expand qn
      rw [if_pos rfl, if_neg hname, if_neg hx, if_pos rfl, get_or_getNs _ _ _ _ _ _ (by decide) hb]
    · rw [expand_prefixed _ _ _ _ _ _ hp hg.1 hname, if_neg hg.ne_xml, if_neg hg.ne_xmlns,
        get_or_getNs _ _ _ _ _ _ hg.ne_xml hb]

/-- The declarations written for a node, as a dictionary. -/
theorem nsAttrs_eq {E : Str → Prop} (root : Bool) (f : Frame) (anc : List Frame) (hf : Fit E f) :
    ∃ l : Dict, nsAttrs root (f :: anc) = l.map (fun pv => (declName pv.1, pv.2)) ∧ (l.map Prod.fst).Nodup ∧
      ∀ p, get l p = if root then bind (f :: anc) p else get f.p2n p := by
  cases root with
  | true =>
    obtain ⟨h1, h2⟩ := prefixMap_ok (f :: anc)
    refine ⟨(prefixMap (f :: anc)).mergeSort (fun a b => decide (a.1 ≤ b.1)), rfl, ?_, ?_⟩
    · exact ((List.mergeSort_perm _ _).map _).nodup_iff.2 h2
    · intro p
      rw [get_perm _ _ (List.mergeSort_perm _ _).symm h2, if_pos rfl]
      exact h1 p
  | false =>
    refine ⟨f.p2n.mergeSort (fun a b => decide (a.1 ≤ b.1)), rfl, ?_, ?_⟩
    · exact ((List.mergeSort_perm _ _).map _).nodup_iff.2 hf.keys
    · intro p
      rw [get_perm _ _ (List.mergeSort_perm _ _).symm hf.keys]
      rfl

theorem nodup_decls (l : Dict) (h : (l.map Prod.fst).Nodup) (out : List (Str × Str)) (ho : (out.map Prod.fst).Nodup)
    (hx : ∀ o ∈ out, ¬ xmlnsP <+: o.1) :
    unique (l.map (fun pv => (declName pv.1, pv.2)) ++ out) = true := by
  unfold unique
  rw [decide_eq_true_iff, List.map_append]
  refine List.nodup_append.2 ⟨?_, ho, ?_⟩
  · rw [List.map_map]
    have : (Prod.fst ∘ fun pv : Str × Str => (declName pv.1, pv.2)) = declName ∘ Prod.fst := rfl
    rw [this, ← List.map_map]
    exact h.map (fun a b e => declName_inj e)
  · intro a ha b hb e
    subst e
    rw [List.map_map] at ha
    obtain ⟨pv, _, rfl⟩ := List.mem_map.1 ha
    obtain ⟨o, h1, h2⟩ := List.mem_map.1 hb
    refine hx o h1 ?_
    rw [h2]; exact declName_prefix _

mutual
theorem read_write {E : Str → Prop} (dflt rdflt : Option Str) (anc ctx : List Frame) (hanc : ∀ g ∈ anc, Fit E g)
    (root : Bool) (hrel : root = false → Keeps anc ctx) :
    (e : Elem) → Fine E e → (t : Tag) → (e' : Elem) → write dflt anc root e = some (t, e') →
      ∃ r, read rdflt ctx t = some r ∧ Same e r
  | .mk ns name attrs map kids, hfine, t, e', h => by
    simp only [Fine] at hfine
    obtain ⟨⟨c, s, rfl, hnn, hE⟩, hcol, hxn, hattrs, hnd, hfit, hkids⟩ := hfine
    simp only [write] at h
    cases hp : elemPrefix anc map (some (c :: s)) with
    | none => rw [hp] at h; cases h
    | some pf =>
      obtain ⟨p, f1⟩ := pf
      rw [hp] at h; dsimp only at h
      obtain ⟨hf1, hserve⟩ := elemPrefix_ok anc map f1 c s p hanc hfit hnn hE hp
      cases hw : writeAttrs dflt anc f1 (attrs.mergeSort Attr.le) with
      | none => rw [hw] at h; cases h
      | some of =>
        obtain ⟨out, f2⟩ := of
        rw [hw] at h; dsimp only at h
        have hperm := List.mergeSort_perm attrs Attr.le
        have hsorted : ∀ a ∈ attrs.mergeSort Attr.le, FineAttr E a := fun a ha => hattrs a (hperm.mem_iff.1 ha)
        obtain ⟨hf2, hkeep, hout⟩ := writeAttrs_ok dflt anc hanc _ f1 f2 out hf1 hsorted hw
        cases hk : writeAll dflt (f2 :: anc) kids with
        | none => rw [hk] at h; cases h
        | some tk =>
          obtain ⟨ts, ks⟩ := tk
          rw [hk] at h
          simp only [Option.some.injEq, Prod.mk.injEq] at h
          obtain ⟨rfl, rfl⟩ := h
          obtain ⟨l, hl1, hl2, hl3⟩ := nsAttrs_eq root f2 anc hf2
          have hrel2 : ∀ g : Frame, g.p2n = l → Keeps (f2 :: anc) (g :: ctx) := by
            intro g hg q c' s' hq
            have h3 := hl3 q
            cases root with
            | true =>
              simp only [if_true] at h3
              simp only [bind, hg, h3]
              simp only [bind] at hq
              rw [hq]
            | false =>
              simp only [Bool.false_eq_true, if_false] at h3
              simp only [bind, hg, h3]
              simp only [bind] at hq
              cases hgq : get f2.p2n q with
              | some v => rw [hgq] at hq; exact hq
              | none => rw [hgq] at hq; exact hrel rfl _ _ _ hq
          let g : Frame := ⟨l, reverse l⟩
          have hmono : List.Forall₂ (fun a o => ∃ p, o = (qn p a.name, a.val) ∧ Serves (g :: ctx) a.ns p)
              (attrs.mergeSort Attr.le) out := by
            refine hout.imp ?_
            rintro a o ⟨q, ho, hs⟩
            exact ⟨q, ho, hs.mono (hrel2 g rfl)⟩
          obtain ⟨hnames, hplain⟩ := out_names rdflt g ctx _ out hsorted hmono
          have hkeys : ((attrs.mergeSort Attr.le).map (fun a => (a.ns, a.name))).Nodup := (hperm.map _).nodup_iff.2 hnd
          have hond : (out.map Prod.fst).Nodup := by
            refine List.Nodup.of_map (expand rdflt ctx g.p2n false) ?_
            rw [hnames]
            have : (fun a : Attr => some (a.ns, a.name)) = some ∘ (fun a : Attr => (a.ns, a.name)) := rfl
            rw [this, ← List.map_map]
            exact hkeys.map (fun a b e => by injection e)
          have hdecl : decls (nsAttrs root (f2 :: anc) ++ out) [] = l := by
            rw [hl1, decls_map, decls_plain _ _ hplain, foldl_put l [] (by simpa using hl2)]
            rfl
          have hanc2 : ∀ g ∈ f2 :: anc, Fit E g := by
            intro g hg; cases hg with
            | head => exact hf2
            | tail _ hg => exact hanc g hg
          obtain ⟨rs, hrs, hsame⟩ := readAll_write dflt rdflt (f2 :: anc) (g :: ctx) hanc2 (hrel2 g rfl) kids hkids ts ks hk
          have hexp := expand_elem rdflt g ctx c s p name hcol hxn (by
            rcases hserve with h | ⟨h1, h2⟩
            · exact .inl h
            · exact .inr ⟨h1, hrel2 g rfl _ _ _ (hkeep _ _ _ h2)⟩)
          have hall := expandAll_ok rdflt g ctx _ out hsorted hmono [] (by simpa using hkeys)
          refine ⟨.mk (some (c :: s)) name (attrs.mergeSort Attr.le) g rs, ?_, .mk _ _ _ _ _ _ _ _ hperm.symm hsame⟩
          simp only [read, hdecl]
          rw [if_pos (by rw [hl1]; exact nodup_decls l hl2 out hond hplain)]
          rw [hl1, plain_decls l out hplain]
          change (match expandAll rdflt ctx g.p2n out [] with | none => none | some as => _) = _
          rw [hall]
          dsimp only
          change (match expand rdflt ctx g.p2n true (qn p name) with | none => none | some (n, l) => _) = _
          rw [hexp]
          dsimp only
          change (match readAll rdflt (g :: ctx) ts with | none => none | some ks => _) = _
          rw [hrs]
          rfl
theorem readAll_write {E : Str → Prop} (dflt rdflt : Option Str) (anc ctx : List Frame) (hanc : ∀ g ∈ anc, Fit E g)
    (hrel : Keeps anc ctx) :
    (es : List Elem) → FineAll E es → (ts : List Tag) → (es' : List Elem) → writeAll dflt anc es = some (ts, es') →
      ∃ rs, readAll rdflt ctx ts = some rs ∧ SameAll es rs
  | [], _, ts, es', h => by
    simp only [writeAll, Option.some.injEq, Prod.mk.injEq] at h
    obtain ⟨rfl, rfl⟩ := h
    exact ⟨[], by simp [readAll], .nil⟩
  | e :: r, hfine, ts, es', h => by
    simp only [FineAll] at hfine
    simp only [writeAll] at h
    cases hw : write dflt anc false e with
    | none => rw [hw] at h; cases h
    | some te =>
      obtain ⟨t, e1⟩ := te
      rw [hw] at h; dsimp only at h
      cases hr : writeAll dflt anc r with
      | none => rw [hr] at h; cases h
      | some tr =>
        obtain ⟨ts1, es1⟩ := tr
        rw [hr] at h
        simp only [Option.some.injEq, Prod.mk.injEq] at h
        obtain ⟨rfl, rfl⟩ := h
        obtain ⟨a, ha, hsa⟩ := read_write dflt rdflt anc ctx hanc false (fun _ => hrel) e hfine.1 t e1 hw
        obtain ⟨as, has, hsas⟩ := readAll_write dflt rdflt anc ctx hanc hrel r hfine.2 ts1 es1 hr
        refine ⟨a :: as, ?_, .cons _ _ _ _ hsa hsas⟩
        simp only [readAll, ha, has]
end

end Verif.Ns

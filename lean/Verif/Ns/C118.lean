import Verif.Ns.C117

/-!
# C117-C119: the claims
-/
namespace Verif.Ns
open Verif.Text

/-! ## Writing again -/

/-- Prefixes found stay the same. -/
def Stable (a b : List Frame) : Prop := ∀ c s p, getPrefix a (some (c :: s)) = some p → getPrefix b (some (c :: s)) = some p

theorem search_stable (ns : Str) (f g : Frame) (p : Str) (h1 : ∀ x, (get f.p2n x).isSome → (get g.p2n x).isSome)
    (h2 : (get g.p2n p).isSome → (get f.p2n p).isSome) (near chain : List Frame)
    (h : search ns (f :: near) chain = some p) : search ns (g :: near) chain = some p := by
  induction chain generalizing near with
  | nil => cases h
  | cons k r ih =>
    simp only [search] at h ⊢
    cases hk : get k.n2p ns with
    | none => rw [hk] at h; dsimp only; exact ih _ h
    | some q =>
      rw [hk] at h; dsimp only at h ⊢
      by_cases hq : ((f :: near).any fun g => (get g.p2n q).isSome) = true
      · rw [if_pos hq] at h
        have hq2 : ((g :: near).any fun g => (get g.p2n q).isSome) = true := by
          simp only [List.any_cons, Bool.or_eq_true] at hq ⊢
          rcases hq with hq | hq
          · exact .inl (h1 _ hq)
          · exact .inr hq
        rw [if_pos hq2]
        exact ih _ h
      · rw [if_neg hq] at h
        injection h with h; subst h
        rw [if_neg]
        intro hq2; apply hq
        simp only [List.any_cons, Bool.or_eq_true] at hq2 ⊢
        rcases hq2 with hq2 | hq2
        · exact .inl (h2 hq2)
        · exact .inr hq2

theorem make_stable {E : Str → Prop} (anc : List Frame) (f g : Frame) (a q : Str) (hall : ∀ k ∈ f :: anc, Fit E k)
    (hnone : search a [] (f :: anc) = none) (hfree : ∀ c s, bind (f :: anc) q ≠ some (c :: s))
    (hm : makePrefix f a q = some g) : Stable (f :: anc) (g :: anc) := by
  obtain ⟨hn, rfl⟩ := makePrefix_some hm
  intro c s p h
  simp only [getPrefix] at h ⊢
  split at h
  · rename_i hx; rw [if_pos hx]; exact h
  · rename_i hx; rw [if_neg hx]
    split at h
    · rename_i ho; rw [if_pos ho]; exact h
    · rename_i ho; rw [if_neg ho]
      have hb := search_bind _ [] (f :: anc) (fun k hk => (hall k hk).inv) _ h
      have hqp : q ≠ p := by intro e; subst e; exact hfree _ _ hb
      have hne : a ≠ c :: s := by intro e; subst e; rw [h] at hnone; cases hnone
      simp only [search] at h ⊢
      simp only [get_put, if_neg hne]
      cases hf : get f.n2p (c :: s) with
      | some p' => rw [hf] at h; simpa using h
      | none =>
        rw [hf] at h
        dsimp only at h ⊢
        refine search_stable _ f _ p ?_ ?_ [] anc h
        · intro x hx
          simp only [get_append_new _ _ _ _ hn]
          split
          · rfl
          · exact hx
        · simp only [get_append_new _ _ _ _ hn, if_neg hqp]
          exact id

theorem make_found (anc : List Frame) (f g : Frame) (c : Nat) (s q : Str) (hx : c :: s ≠ XML) (ho : c :: s ≠ NONS)
    (hm : makePrefix f (c :: s) q = some g) : getPrefix (g :: anc) (some (c :: s)) = some q := by
  obtain ⟨hn, rfl⟩ := makePrefix_some hm
  simp [getPrefix, if_neg hx, if_neg ho, search, get_put]

theorem attrPrefix_stable {E : Str → Prop} (dflt : Option Str) (anc : List Frame) (f f1 : Frame) (a : Attr) (p : Str)
    (hall : ∀ k ∈ f :: anc, Fit E k) (ha : FineAttr E a) (h : attrPrefix dflt anc f a.ns = some (p, f1)) :
    Stable (f :: anc) (f1 :: anc) ∧ getPrefix (f1 :: anc) a.ns = some p := by
  unfold attrPrefix at h
  cases hg : getPrefix (f :: anc) a.ns with
  | some q =>
    rw [hg] at h; dsimp only at h
    injection h with h; injection h with h1 h2; subst h1; subst h2
    exact ⟨fun _ _ _ h => h, hg⟩
  | none =>
    rw [hg] at h; dsimp only at h
    have hform : ∃ c s, a.ns = some (c :: s) ∧ c :: s ≠ XML ∧ c :: s ≠ NONS := by
      obtain ⟨-, h | ⟨h, -⟩ | ⟨c, s, h, hn, -⟩⟩ := ha
      · rw [h] at hg; simp [getPrefix] at hg
      · rw [h] at hg; simp [getPrefix] at hg; split at hg <;> cases hg
      · refine ⟨c, s, h, ?_, hn⟩
        intro e; rw [h, e] at hg; simp [getPrefix] at hg
    obtain ⟨c, s, hns, hx, ho⟩ := hform
    obtain ⟨m, hm, -, hfree, -⟩ := newPrefix_spec dflt (f :: anc)
    rw [hm, hns] at h; dsimp only [Option.getD] at h
    cases hmk : makePrefix f (c :: s) (nsN m) with
    | none => rw [hmk] at h; cases h
    | some g =>
      rw [hmk] at h
      simp only [Option.map_some, Option.some.injEq, Prod.mk.injEq] at h
      obtain ⟨rfl, rfl⟩ := h
      rw [hns] at hg
      simp only [getPrefix, if_neg hx, if_neg ho] at hg
      refine ⟨make_stable anc f _ _ _ hall hg ?_ hmk, by rw [hns]; exact make_found _ _ _ _ _ _ hx ho hmk⟩
      intro c' s' hb
      rw [getNs_of_bind dflt _ _ _ _ (nsN_ne_xml m) hb] at hfree
      cases hfree

theorem writeAttrs_stable {E : Str → Prop} (dflt : Option Str) (anc : List Frame) (hanc : ∀ g ∈ anc, Fit E g) (l : List Attr)
    (f f2 : Frame) (out : List (Str × Str)) (hf : Fit E f) (hl : ∀ a ∈ l, FineAttr E a)
    (h : writeAttrs dflt anc f l = some (out, f2)) :
    Stable (f :: anc) (f2 :: anc) ∧ writeAttrs dflt anc f2 l = some (out, f2) := by
  have key : Stable (f :: anc) (f2 :: anc) ∧
      List.Forall₂ (fun (a : Attr) o => ∃ p, o = (qn p a.name, a.val) ∧ getPrefix (f2 :: anc) a.ns = some p) l out := by
    induction l generalizing f out with
    | nil =>
      simp only [writeAttrs, Option.some.injEq, Prod.mk.injEq] at h
      obtain ⟨rfl, rfl⟩ := h
      exact ⟨fun _ _ _ h => h, .nil⟩
    | cons a r ih =>
      have hall : ∀ g ∈ f :: anc, Fit E g := by
        intro g hg; cases hg with
        | head => exact hf
        | tail _ hg => exact hanc g hg
      simp only [writeAttrs] at h
      cases hp : attrPrefix dflt anc f a.ns with
      | none => rw [hp] at h; cases h
      | some pf =>
        obtain ⟨p, f1⟩ := pf
        rw [hp] at h; dsimp only at h
        have ha := hl a (.head _)
        obtain ⟨h1, h2⟩ := attrPrefix_stable dflt anc f f1 a p hall ha hp
        obtain ⟨hfit, -, -⟩ := attrPrefix_ok dflt anc f f1 a p hanc hf ha hp
        cases hw : writeAttrs dflt anc f1 r with
        | none => rw [hw] at h; cases h
        | some of =>
          obtain ⟨o, f3⟩ := of
          rw [hw] at h
          simp only [Option.some.injEq, Prod.mk.injEq] at h
          obtain ⟨rfl, rfl⟩ := h
          obtain ⟨k1, k2⟩ := ih f1 o hfit (fun b hb => hl b (.tail _ hb)) hw
          refine ⟨fun c s q hq => k1 c s q (h1 c s q hq), .cons ⟨p, rfl, ?_⟩ k2⟩
          obtain ⟨-, hx | ⟨hx, -⟩ | ⟨c, s, hx, -, -⟩⟩ := ha
          · rw [hx] at h2 ⊢; exact k1 _ _ p h2
          · rw [hx] at h2 ⊢; exact k1 _ _ p h2
          · rw [hx] at h2 ⊢; exact k1 _ _ p h2
  refine ⟨key.1, ?_⟩
  have h2 := key.2
  clear key h hl
  induction h2 with
  | nil => rfl
  | @cons a o r out' ho _ ih =>
    obtain ⟨p, rfl, hp⟩ := ho
    simp only [writeAttrs, attrPrefix, hp, ih]

mutual
theorem write_again {E : Str → Prop} (dflt : Option Str) (anc : List Frame) (hanc : ∀ g ∈ anc, Fit E g) (root : Bool) :
    (e : Elem) → Fine E e → (t : Tag) → (e' : Elem) → write dflt anc root e = some (t, e') →
      write dflt anc root e' = some (t, e')
  | .mk ns name attrs map kids, hfine, t, e', h => by
    simp only [Fine] at hfine
    obtain ⟨⟨c, s, rfl, hnn, hE⟩, -, -, hattrs, -, hfit, hkids⟩ := hfine
    simp only [write] at h
    cases hp : elemPrefix anc map (some (c :: s)) with
    | none => rw [hp] at h; cases h
    | some pf =>
      obtain ⟨p, f1⟩ := pf
      rw [hp] at h; dsimp only at h
      obtain ⟨hf1, -⟩ := elemPrefix_ok anc map f1 c s p hanc hfit hnn hE hp
      have hfound : getPrefix (f1 :: anc) (some (c :: s)) = some p := by
        simp only [elemPrefix] at hp
        cases hg : getPrefix (map :: anc) (some (c :: s)) with
        | some q =>
          rw [hg] at hp; dsimp only at hp
          injection hp with hp; injection hp with h1 h2; subst h1; subst h2
          exact hg
        | none =>
          rw [hg] at hp; dsimp only at hp
          cases hmk : makePrefix map (c :: s) [] with
          | none => rw [hmk] at hp; cases hp
          | some g =>
            rw [hmk] at hp
            simp only [Option.map_some, Option.some.injEq, Prod.mk.injEq] at hp
            obtain ⟨rfl, rfl⟩ := hp
            refine make_found _ _ _ _ _ _ ?_ hnn hmk
            intro e; rw [e] at hg; simp [getPrefix] at hg
      cases hw : writeAttrs dflt anc f1 (attrs.mergeSort Attr.le) with
      | none => rw [hw] at h; cases h
      | some of =>
        obtain ⟨out, f2⟩ := of
        rw [hw] at h; dsimp only at h
        have hperm := List.mergeSort_perm attrs Attr.le
        have hsorted : ∀ a ∈ attrs.mergeSort Attr.le, FineAttr E a := fun a ha => hattrs a (hperm.mem_iff.1 ha)
        obtain ⟨hf2, -, -⟩ := writeAttrs_ok dflt anc hanc _ f1 f2 out hf1 hsorted hw
        obtain ⟨hst, hagain⟩ := writeAttrs_stable dflt anc hanc _ f1 f2 out hf1 hsorted hw
        cases hk : writeAll dflt (f2 :: anc) kids with
        | none => rw [hk] at h; cases h
        | some tk =>
          obtain ⟨ts, ks⟩ := tk
          rw [hk] at h
          simp only [Option.some.injEq, Prod.mk.injEq] at h
          obtain ⟨rfl, rfl⟩ := h
          have hanc2 : ∀ g ∈ f2 :: anc, Fit E g := by
            intro g hg; cases hg with
            | head => exact hf2
            | tail _ hg => exact hanc g hg
          have hkk := writeAll_again dflt (f2 :: anc) hanc2 kids hkids ts ks hk
          simp only [write, elemPrefix, hst _ _ _ hfound, hagain, hkk]
theorem writeAll_again {E : Str → Prop} (dflt : Option Str) (anc : List Frame) (hanc : ∀ g ∈ anc, Fit E g) :
    (es : List Elem) → FineAll E es → (ts : List Tag) → (es' : List Elem) → writeAll dflt anc es = some (ts, es') →
      writeAll dflt anc es' = some (ts, es')
  | [], _, ts, es', h => by
    simp only [writeAll, Option.some.injEq, Prod.mk.injEq] at h
    obtain ⟨rfl, rfl⟩ := h
    simp [writeAll]
  | e :: r, hfine, ts, es', h => by
    simp only [FineAll] at hfine
    simp only [writeAll] at h
    cases hw : write dflt anc false e with
    | none => rw [hw] at h; cases h
    | some te =>
      obtain ⟨t, e1⟩ := te
      rw [hw] at h; dsimp only at h
      cases hr : writeAll dflt anc r with
      | none => rw [hr] at h; cases h
      | some tr =>
        obtain ⟨ts1, es1⟩ := tr
        rw [hr] at h
        simp only [Option.some.injEq, Prod.mk.injEq] at h
        obtain ⟨rfl, rfl⟩ := h
        simp only [writeAll, write_again dflt anc hanc false e hfine.1 t e1 hw,
          writeAll_again dflt anc hanc r hfine.2 ts1 es1 hr]
end

/-! ## Writing succeeds -/

/-- No prefix is declared for the empty namespace. -/
def Full (f : Frame) : Prop := ∀ pv ∈ f.p2n, pv.2 ≠ []

theorem free_of_new (dflt : Option Str) (f : Frame) (anc : List Frame) (hf : Full f) (n : Nat)
    (h : getNs dflt (f :: anc) (nsN n) = none) : get f.p2n (nsN n) = none := by
  cases hg : get f.p2n (nsN n) with
  | none => rfl
  | some v =>
    cases v with
    | nil => exact absurd rfl (hf _ (get_mem _ _ _ hg))
    | cons c s =>
      rw [getNs_of_bind dflt _ _ c s (nsN_ne_xml n) (by simp [bind, hg])] at h
      cases h

theorem full_make {f g : Frame} {c : Nat} {s p : Str} (hf : Full f) (h : makePrefix f (c :: s) p = some g) : Full g := by
  obtain ⟨hn, rfl⟩ := makePrefix_some h
  intro pv hpv
  simp only [List.mem_append, List.mem_cons, List.not_mem_nil, or_false] at hpv
  rcases hpv with hpv | rfl
  · exact hf _ hpv
  · simp

theorem writeAttrs_succeeds {E : Str → Prop} (dflt : Option Str) (anc : List Frame) (l : List Attr) (f : Frame)
    (hf : Full f) (hl : ∀ a ∈ l, FineAttr E a) : ∃ out f2, writeAttrs dflt anc f l = some (out, f2) := by
  induction l generalizing f with
  | nil => exact ⟨_, _, rfl⟩
  | cons a r ih =>
    have hstep : ∃ p f1, attrPrefix dflt anc f a.ns = some (p, f1) ∧ Full f1 := by
      unfold attrPrefix
      cases hg : getPrefix (f :: anc) a.ns with
      | some p => exact ⟨p, f, rfl, hf⟩
      | none =>
        obtain ⟨m, hm, -, hfree, -⟩ := newPrefix_spec dflt (f :: anc)
        have hfr := free_of_new dflt f anc hf m hfree
        have hns : ∃ c s, a.ns = some (c :: s) := by
          obtain ⟨-, h | ⟨h, -⟩ | ⟨c, s, h, -, -⟩⟩ := hl a (.head _)
          · exact ⟨_, _, h⟩
          · exact ⟨_, _, h⟩
          · exact ⟨c, s, h⟩
        obtain ⟨c, s, hns⟩ := hns
        rw [hns, hm]
        have hmk : makePrefix f (c :: s) (nsN m) = some ⟨put f.p2n (nsN m) (c :: s), put f.n2p (c :: s) (nsN m)⟩ := by
          unfold makePrefix; rw [hfr]; rfl
        refine ⟨nsN m, _, ?_, full_make hf hmk⟩
        simp only [Option.getD_some, hmk, Option.map_some]
    obtain ⟨p, f1, h1, h2⟩ := hstep
    obtain ⟨out, f2, h3⟩ := ih f1 h2 (fun b hb => hl b (.tail _ hb))
    exact ⟨_, _, by simp only [writeAttrs, h1, h3]; rfl⟩

mutual
/-- No element declares a prefix for the empty namespace. -/
def FullTree : Elem → Prop
  | .mk _ _ _ map kids => Full map ∧ FullAll kids
/-- The same for a list. -/
def FullAll : List Elem → Prop
  | [] => True
  | e :: r => FullTree e ∧ FullAll r
end

mutual
theorem write_succeeds {E : Str → Prop} (dflt : Option Str) (anc : List Frame) (root : Bool) :
    (e : Elem) → Fine E e → Plain e → FullTree e → ∃ t e', write dflt anc root e = some (t, e')
  | .mk ns name attrs map kids, hfine, hplain, hfull => by
    simp only [Fine] at hfine
    obtain ⟨⟨c, s, rfl, hnn, hE⟩, -, -, hattrs, -, -, hkids⟩ := hfine
    simp only [Plain] at hplain
    simp only [FullTree] at hfull
    have h1 : ∃ p f1, elemPrefix anc map (some (c :: s)) = some (p, f1) ∧ Full f1 := by
      simp only [elemPrefix]
      cases hg : getPrefix (map :: anc) (some (c :: s)) with
      | some p => exact ⟨p, map, rfl, hfull.1⟩
      | none =>
        have hmk : makePrefix map (c :: s) [] = some ⟨put map.p2n [] (c :: s), put map.n2p (c :: s) []⟩ := by
          unfold makePrefix; rw [hplain.1]; rfl
        refine ⟨[], _, ?_, full_make hfull.1 hmk⟩
        simp only [hmk, Option.map_some]
    obtain ⟨p, f1, h1, hf1⟩ := h1
    obtain ⟨out, f2, h2⟩ := writeAttrs_succeeds dflt anc (attrs.mergeSort Attr.le) f1 hf1
      (fun a ha => hattrs a ((List.mergeSort_perm attrs Attr.le).mem_iff.1 ha))
    obtain ⟨ts, ks, h3⟩ := writeAll_succeeds dflt (f2 :: anc) kids hkids hplain.2 hfull.2
    exact ⟨_, _, by simp only [write, h1, h2, h3]; rfl⟩
theorem writeAll_succeeds {E : Str → Prop} (dflt : Option Str) (anc : List Frame) :
    (es : List Elem) → FineAll E es → PlainAll es → FullAll es → ∃ ts es', writeAll dflt anc es = some (ts, es')
  | [], _, _, _ => ⟨[], [], rfl⟩
  | e :: r, h1, h2, h3 => by
    simp only [FineAll] at h1
    simp only [PlainAll] at h2
    simp only [FullAll] at h3
    obtain ⟨t, e', h4⟩ := write_succeeds dflt anc false e h1.1 h2.1 h3.1
    obtain ⟨ts, es', h5⟩ := writeAll_succeeds dflt anc r h1.2 h2.2 h3.2
    exact ⟨_, _, by simp only [writeAll, h4, h5]; rfl⟩
end

/-! ## Claims -/

/-- **C117**: a document whose elements all have namespaces, and whose attributes are in no namespace, in
the XML namespace or in namespaces other than those of the elements, is read back with the names and
attributes it had, whatever prefixes its nodes had declared, whatever prefixes had to be made up, and
whatever the document it is read into declares (`rdoc`, `rdflt`).  Missing: elements without namespace
below a default namespace, and attributes in the default namespace, see `C117_lost_attribute` and
`C117_wrong_element`. -/
theorem C117_names_partial (E : Str → Prop) (dflt rdflt : Option Str) (doc rdoc : Frame) (e : Elem) (hdoc : Fit E doc)
    (he : Fine E e) (t : Tag) (e' : Elem) (h : writeDoc dflt doc e = some (t, e')) :
    ∃ r, read rdflt [rdoc] t = some r ∧ Same e r := by
  refine read_write dflt rdflt [doc] [rdoc] ?_ true (fun h => nomatch h) e he t e' h
  intro g hg
  simp at hg; subst hg; exact hdoc

/-- The maps brought about with `make_prefix` meet the condition of C117. -/
theorem C117_made (E : Str → Prop) (f : Frame) (h : Made E f) : Fit E f := fit_made h

theorem get_reverse (d : Dict) (ns p : Str) (h : get (reverse d) ns = some p) : (p, ns) ∈ d := by
  have key : ∀ (d acc : Dict), get (d.foldl (fun acc pv => put acc pv.2 pv.1) acc) ns = some p →
      get acc ns = some p ∨ (p, ns) ∈ d := by
    intro d
    induction d with
    | nil => intro acc h; exact .inl h
    | cons x r ih =>
      obtain ⟨q, v⟩ := x
      intro acc h
      simp only [List.foldl_cons] at h
      rcases ih _ h with h | h
      · rw [get_put] at h
        split at h
        · rename_i e; injection h with h; subst h; subst e; exact .inr (.head _)
        · exact .inl h
      · exact .inr (.tail _ h)
  rcases key d [] h with h | h
  · cases h
  · exact h

/-- The maps that an element has after being read meet the condition of C117, if the prefixes declared in its
tag are good ones and its default namespace is one of those used for elements. -/
theorem C117_read (E : Str → Prop) (d : Dict) (hk : (d.map Prod.fst).Nodup) (hg : ∀ pv ∈ d, Good pv.1)
    (hE : ∀ v, get d [] = some v → E v) : Fit E ⟨d, reverse d⟩ :=
  ⟨fun _ _ h => mem_get d hk _ _ (get_reverse d _ _ h), hk, hg,
    fun _ h => hE _ (mem_get d hk _ _ (get_reverse d _ _ h))⟩

/-- **C117**: such a document can always be written, when no element declares a default namespace of its
own and no prefix is declared for the empty namespace. -/
theorem C117_written (E : Str → Prop) (dflt : Option Str) (doc : Frame) (e : Elem) (he : Fine E e) (hp : Plain e)
    (hf : FullTree e) : ∃ t e', writeDoc dflt doc e = some (t, e') :=
  write_succeeds dflt [doc] true e he hp hf

/-- **C118**: writing changes the maps of the nodes, but writing a second time gives the same tags and
changes nothing more. -/
theorem C118_again (E : Str → Prop) (dflt : Option Str) (doc : Frame) (e : Elem) (hdoc : Fit E doc) (he : Fine E e)
    (t : Tag) (e' : Elem) (h : writeDoc dflt doc e = some (t, e')) : writeDoc dflt doc e' = some (t, e') := by
  refine write_again dflt [doc] ?_ true e he t e' h
  intro g hg
  simp at hg; subst hg; exact hdoc

/-- **C119**: a new prefix is always found; it is "ns" and the first number from 1 for which the prefix
means nothing yet; and when no prefix is declared for the empty namespace, it is not declared by the node or
any of its parents. -/
theorem C119_new_prefix (dflt : Option Str) (chain : List Frame) :
    ∃ m, newPrefix dflt chain = some ([110, 115] ++ decStr m) ∧ 1 ≤ m ∧ getNs dflt chain ([110, 115] ++ decStr m) = none ∧
      (∀ i, 1 ≤ i → i < m → (getNs dflt chain ([110, 115] ++ decStr i)).isSome) ∧
      ((∀ f ∈ chain, Full f) → ∀ f ∈ chain, get f.p2n ([110, 115] ++ decStr m) = none) := by
  obtain ⟨m, h1, h2, h3, h4⟩ := newPrefix_spec dflt chain
  refine ⟨m, h1, h2, h3, h4, ?_⟩
  intro hfull f hf
  cases hg : get f.p2n (nsN m) with
  | none => exact hg
  | some v =>
    exfalso
    have : ∀ (l : List Frame), (∀ f ∈ l, Full f) → f ∈ l → ∃ c s, bind l (nsN m) = some (c :: s) := by
      intro l
      induction l with
      | nil => intro _ h; cases h
      | cons k r ih =>
        intro hl hm
        simp only [bind]
        cases hk : get k.p2n (nsN m) with
        | some w =>
          cases w with
          | nil => exact absurd rfl (hl k (.head _) _ (get_mem _ _ _ hk))
          | cons c s => exact ⟨c, s, rfl⟩
        | none =>
          cases hm with
          | head => rw [hk] at hg; cases hg
          | tail _ hm => exact ih (fun f hf => hl f (.tail _ hf)) hm
    obtain ⟨c, s, hb⟩ := this chain hfull hf
    rw [getNs_of_bind dflt _ _ c s (nsN_ne_xml m) hb] at h3
    cases h3

/-- **C119**: the prefix found for a namespace is the one that, by the declarations in force, stands for that
namespace: the same prefix is looked up with the result that namespace. -/
theorem C119_prefix_in_force (E : Str → Prop) (dflt : Option Str) (chain : List Frame) (h : ∀ f ∈ chain, Fit E f) (c : Nat)
    (s p : Str) (hn : c :: s ≠ NONS) (hp : getPrefix chain (some (c :: s)) = some p) :
    getNs dflt chain p = some (c :: s) := by
  by_cases hx : c :: s = XML
  · simp only [getPrefix, if_pos hx] at hp
    injection hp with hp; subst hp
    simp [getNs, hx]
  · simp only [getPrefix, if_neg hx, if_neg hn] at hp
    have hb := search_bind _ [] chain (fun f hf => (h f hf).inv) _ hp
    exact getNs_of_bind dflt _ _ _ _ (bind_good h hb).ne_xml hb

/-! ## Examples and what goes wrong -/

/-- The namespaces "A" and "B" are used for elements. -/
def nsAB (s : Str) : Prop := s = [65] ∨ s = [66]

/-- `<x xmlns="A" p:k="1" xml:lang="e" i="2"><y xmlns="B"/></x>`, before any prefix is declared, where the
attribute `k` is in the namespace "C". -/
def exTree : Elem :=
  .mk (some [65]) [120] [⟨some NONS, [105], [50]⟩, ⟨some [67], [107], [49]⟩, ⟨some XML, [108], [101]⟩] Frame.empty
    [.mk (some [66]) [121] [] Frame.empty [], .mk (some [65]) [122] [⟨some [67], [107], [49]⟩] Frame.empty []]

example : Fine nsAB exTree ∧ Plain exTree ∧ FullTree exTree := by
  refine ⟨?_, ?_, ?_⟩
  · simp [exTree, Fine, FineAll, fit_empty, nsAB, FineAttr, NONS, xmlnsP, XML, List.cons_prefix_cons]
  · simp [exTree, Plain, PlainAll, Frame.empty, get]
  · simp [exTree, FullTree, FullAll, Full, Frame.empty]

/-- A document that declares the prefix "p" for "B". -/
example : Fit nsAB ⟨[([112], [66])], [([66], [112])]⟩ :=
  C117_made nsAB _ (.make Frame.empty _ [66] [112] .empty (by constructor <;> decide) (fun h => nomatch h) rfl)

example : newPrefix none [⟨[([110, 115, 49], [65])], [([65], [110, 115, 49])]⟩] = some [110, 115, 50] := by decide +kernel

/-- The names of the element itself, of its attributes and of its children. -/
def names : Elem → List (List (Option Str × Str))
  | .mk ns n as _ ks =>
    [[(ns, n)], as.map (fun a => (a.ns, a.name)), ks.map (fun k => match k with | .mk ns n _ _ _ => (ns, n))]

/-- **C117, violated**: an attribute in the namespace of its element comes back in no namespace. -/
theorem C117_lost_attribute :
    ((writeDoc none Frame.empty (.mk (some [65]) [120] [⟨some [65], [107], [49]⟩] Frame.empty [])).bind
      (fun r => (read none [Frame.empty] r.1).map names)) = some [[(some [65], [120])], [(some NONS, [107])], []] := by
  decide +kernel

/-- **C117, violated**: an element without namespace comes back in the namespace of its parent. -/
theorem C117_wrong_element :
    ((writeDoc none Frame.empty (.mk (some [65]) [120] [] Frame.empty [.mk none [121] [] Frame.empty []])).bind
      (fun r => (read none [Frame.empty] r.1).map names)) = some [[(some [65], [120])], [], [(some [65], [121])]] := by
  decide +kernel

/-- **C117, violated**: an element in one namespace that declares another one as default cannot be written
at all. -/
theorem C117_cannot_write :
    (writeDoc none Frame.empty (.mk (some [65]) [120] [] ⟨[([], [66])], [([66], [])]⟩ [])).isNone = true := by
  decide +kernel

/-- **C117, violated**: an attribute whose name starts with "xmlns" is dropped by the reader. -/
theorem C117_dropped_attribute :
    ((read none [Frame.empty] (.mk [120] [([120, 109, 108, 110, 115, 97], [49])] [])).map names) =
      some [[(none, [120])], [], []] := by
  decide +kernel

/-- **C117, violated**: `xmlns=""` on an element takes effect for the element itself but not for the elements
in it. -/
theorem C117_undeclared_default :
    ((read none [⟨[([], [65])], [([65], [])]⟩] (.mk [120] [(xmlnsP, [])] [.mk [121] [] []])).map names) =
      some [[(some [], [120])], [], [(some [65], [121])]] := by
  decide +kernel

/-- **C117, violated**: a name with a prefix that is not declared is accepted, and put in the default
namespace of the class of document. -/
theorem C117_unbound_prefix :
    ((read (some [68]) [Frame.empty] (.mk [112, 58, 120] [] [])).map names) = some [[(some [68], [120])], [], []] := by
  decide +kernel

end Verif.Ns

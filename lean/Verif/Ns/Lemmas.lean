import Verif.Ns.Spec
import Mathlib.Data.List.Forall2
import Mathlib.Data.List.Nodup
import Mathlib.Data.List.Perm.Subperm

namespace Verif.Ns
open Verif.Text

/-! ## Dictionaries -/

theorem get_put (d : Dict) (k v k' : Str) : get (put d k v) k' = if k = k' then some v else get d k' := by
  induction d with
  | nil => simp [put, get]
  | cons x r ih =>
    obtain ⟨a, b⟩ := x
    simp only [put]
    split
    · rename_i h; subst h; simp only [get]; split <;> simp_all
    · rename_i h
      simp only [get, ih]
      split
      · rename_i h2; subst h2; rw [if_neg (fun e => h e.symm)]
      · rfl

theorem get_none_iff (d : Dict) (k : Str) : get d k = none ↔ k ∉ d.map Prod.fst := by
  induction d with
  | nil => simp [get]
  | cons x r ih =>
    obtain ⟨a, b⟩ := x
    simp only [get, List.map_cons, List.mem_cons, not_or]
    split
    · rename_i h; simp [h]
    · rename_i h; rw [ih]; constructor
      · intro h2; exact ⟨fun e => h e.symm, h2⟩
      · intro h2; exact h2.2

theorem get_mem (d : Dict) (k v : Str) (h : get d k = some v) : (k, v) ∈ d := by
  induction d with
  | nil => simp [get] at h
  | cons x r ih =>
    obtain ⟨a, b⟩ := x
    simp only [get] at h
    split at h
    · rename_i h2; subst h2; injection h with h; subst h; exact .head _
    · exact .tail _ (ih h)

theorem mem_get (d : Dict) (hd : (d.map Prod.fst).Nodup) (k v : Str) (h : (k, v) ∈ d) : get d k = some v := by
  induction d with
  | nil => cases h
  | cons x r ih =>
    obtain ⟨a, b⟩ := x
    simp only [List.map_cons, List.nodup_cons] at hd
    simp only [get]
    cases h with
    | head => simp
    | tail _ h =>
      rw [if_neg]
      · exact ih hd.2 h
      · intro e; subst e; exact hd.1 (List.mem_map.2 ⟨_, h, rfl⟩)

theorem get_perm (d e : Dict) (h : d.Perm e) (hd : (d.map Prod.fst).Nodup) (k : Str) : get e k = get d k := by
  have he : (e.map Prod.fst).Nodup := (h.map _).nodup_iff.1 hd
  cases hk : get d k with
  | none =>
    rw [get_none_iff] at hk ⊢
    intro h2; exact hk ((h.map _).mem_iff.2 h2)
  | some v => exact mem_get e he _ _ (h.mem_iff.1 (get_mem _ _ _ hk))

theorem put_new (d : Dict) (k v : Str) (h : get d k = none) : put d k v = d ++ [(k, v)] := by
  induction d with
  | nil => rfl
  | cons x r ih =>
    obtain ⟨a, b⟩ := x
    simp only [get] at h
    split at h
    · cases h
    · rename_i h2; simp [put, h2, ih h]

theorem foldl_put (l acc : Dict) (h : ((acc ++ l).map Prod.fst).Nodup) :
    l.foldl (fun d pv => put d pv.1 pv.2) acc = acc ++ l := by
  induction l generalizing acc with
  | nil => simp
  | cons x r ih =>
    obtain ⟨a, b⟩ := x
    simp only [List.foldl_cons]
    have hn : get acc a = none := by
      rw [get_none_iff]
      intro hm
      simp only [List.map_append, List.map_cons] at h
      exact (List.nodup_append.1 h).2.2 _ hm _ (.head _) rfl
    rw [put_new _ _ _ hn, ih]
    · simp
    · simpa using h

/-! ## Chains -/

theorem bind_append (a b : List Frame) (p : Str) :
    bind (a ++ b) p = match bind a p with | some v => some v | none => bind b p := by
  induction a with
  | nil => rfl
  | cons f r ih =>
    simp only [List.cons_append, bind]
    cases get f.p2n p <;> simp [ih]

theorem nsLoop_of_bind (dflt : Option Str) (p : Str) (ns : Option Str) (chain : List Frame) (c : Nat) (s : Str)
    (h : bind chain p = some (c :: s)) : nsLoop dflt p ns chain = some (c :: s) := by
  induction chain generalizing ns with
  | nil => cases h
  | cons f r ih =>
    simp only [bind] at h
    simp only [nsLoop]
    cases hg : get f.p2n p with
    | none => rw [hg] at h; dsimp only; exact ih _ h
    | some v => rw [hg] at h; dsimp only at h; injection h with h; subst h; rfl

theorem getNs_of_bind (dflt : Option Str) (p : Str) (chain : List Frame) (c : Nat) (s : Str) (hp : p ≠ xmlP)
    (h : bind chain p = some (c :: s)) : getNs dflt chain p = some (c :: s) := by
  unfold getNs; rw [if_neg hp]; exact nsLoop_of_bind _ _ _ _ _ _ h

/-- The prefix found is in force. -/
theorem search_bind (ns : Str) (near chain : List Frame)
    (hok : ∀ f ∈ chain, ∀ n p, get f.n2p n = some p → get f.p2n p = some n) (p : Str) (h : search ns near chain = some p) :
    bind (near ++ chain) p = some ns := by
  induction chain generalizing near with
  | nil => cases h
  | cons f r ih =>
    have hr : ∀ f ∈ r, ∀ n p, get f.n2p n = some p → get f.p2n p = some n := fun g hg => hok g (.tail _ hg)
    simp only [search] at h
    cases hg : get f.n2p ns with
    | none =>
      rw [hg] at h; dsimp only at h
      have := ih (near ++ [f]) hr h
      simpa using this
    | some q =>
      rw [hg] at h; dsimp only at h
      split at h
      · have := ih (near ++ [f]) hr h
        simpa using this
      · rename_i hn
        injection h with h; subst h
        have hb : ∀ near : List Frame, ¬ (near.any fun g => (get g.p2n q).isSome) = true → bind near q = none := by
          intro near
          induction near with
          | nil => intro _; rfl
          | cons g t iht =>
            intro h
            simp only [List.any_cons, Bool.or_eq_true, not_or] at h
            simp only [bind]
            cases hq : get g.p2n q with
            | none => exact iht h.2
            | some v => rw [hq] at h; simp at h
        rw [bind_append, hb near hn]
        simp only [bind, hok f (.head _) _ _ hg]

/-! ## New prefixes -/

theorem nsN_inj {m n : Nat} (h : nsN m = nsN n) : m = n := by
  unfold nsN at h
  have := List.append_cancel_left h
  rw [← decVal_decStr m, ← decVal_decStr n, this]

theorem nsN_ne_nil (n : Nat) : nsN n ≠ [] := by simp [nsN]

theorem nsN_ne_xml (n : Nat) : nsN n ≠ xmlP := by simp [nsN, xmlP]

theorem nsN_good (n : Nat) : Good (nsN n) := by
  constructor
  · intro h
    simp only [nsN, List.mem_append, List.mem_cons, List.not_mem_nil, or_false] at h
    rcases h with (h | h) | h
    · cases h
    · cases h
    · have := decStr_isDigit n _ h; simp [isDigit] at this
  · intro h
    simp [nsN, xmlP, List.cons_prefix_cons] at h

/-- If a prefix looks used, it is declared somewhere. -/
theorem used_declared (dflt : Option Str) (chain : List Frame) (n : Nat) (h : (getNs dflt chain (nsN n)).isSome) :
    nsN n ∈ chain.flatMap (fun f => f.p2n.map Prod.fst) := by
  have key : ∀ (chain : List Frame) (ns : Option Str), (nsLoop dflt (nsN n) ns chain).isSome →
      ns.isSome ∨ nsN n ∈ chain.flatMap (fun f => f.p2n.map Prod.fst) := by
    intro chain
    induction chain with
    | nil => intro ns h; simp only [nsLoop, if_neg (nsN_ne_nil n)] at h; exact .inl h
    | cons f r ih =>
      intro ns h
      simp only [nsLoop] at h
      cases hg : get f.p2n (nsN n) with
      | some v =>
        refine .inr (List.mem_flatMap.2 ⟨f, .head _, ?_⟩)
        exact List.mem_map.2 ⟨_, get_mem _ _ _ hg, rfl⟩
      | none =>
        rw [hg] at h; dsimp only at h
        rcases ih _ h with h | h
        · cases h
        · refine .inr ?_
          simp only [List.flatMap_cons, List.mem_append]
          exact .inr h
  unfold getNs at h
  rw [if_neg (nsN_ne_xml n)] at h
  rcases key chain none h with h | h
  · cases h
  · exact h

theorem tryPrefix_spec (dflt : Option Str) (chain : List Frame) (k n : Nat) :
    match tryPrefix dflt chain k n with
    | none => ∀ i, n ≤ i → i < n + k → (getNs dflt chain (nsN i)).isSome
    | some p => ∃ m, n ≤ m ∧ p = nsN m ∧ getNs dflt chain p = none ∧ ∀ i, n ≤ i → i < m → (getNs dflt chain (nsN i)).isSome := by
  induction k generalizing n with
  | zero => simp only [tryPrefix]; intro i h1 h2; omega
  | succ k ih =>
    simp only [tryPrefix]
    by_cases hs : (getNs dflt chain (nsN n)).isSome
    · rw [if_pos hs]
      have := ih (n + 1)
      split at this
      · skip
        intro i h1 h2
        rcases Nat.eq_or_lt_of_le h1 with rfl | h1
        · exact hs
        · exact this i h1 (by omega)
      · skip
        obtain ⟨m, h1, h2, h3, h4⟩ := this
        refine ⟨m, by omega, h2, h3, ?_⟩
        intro i hi1 hi2
        rcases Nat.eq_or_lt_of_le hi1 with rfl | hi1
        · exact hs
        · exact h4 i hi1 hi2
    · rw [if_neg hs]; dsimp only
      refine ⟨n, Nat.le_refl _, rfl, ?_, fun i h1 h2 => by omega⟩
      cases h : getNs dflt chain (nsN n) with
      | none => rfl
      | some v => rw [h] at hs; simp at hs

/-- There is always an unused prefix to be found. -/
theorem newPrefix_spec (dflt : Option Str) (chain : List Frame) :
    ∃ m, newPrefix dflt chain = some (nsN m) ∧ 1 ≤ m ∧ getNs dflt chain (nsN m) = none ∧
      ∀ i, 1 ≤ i → i < m → (getNs dflt chain (nsN i)).isSome := by
  have := tryPrefix_spec dflt chain (size chain + 1) 1
  unfold newPrefix
  split at this
  · exfalso
    rename_i heq
    have hsub : ((List.range (size chain + 1)).map (fun i => nsN (1 + i))) ⊆ chain.flatMap (fun f => f.p2n.map Prod.fst) := by
      intro p hp
      obtain ⟨i, hi, rfl⟩ := List.mem_map.1 hp
      rw [List.mem_range] at hi
      exact used_declared dflt chain _ (this (1 + i) (by omega) (by omega))
    have hnd : ((List.range (size chain + 1)).map (fun i => nsN (1 + i))).Nodup := by
      refine List.Nodup.map ?_ List.nodup_range
      intro a b hab
      have := nsN_inj hab
      omega
    have hlen := (hnd.subperm hsub).length_le
    rw [List.length_map, List.length_range, List.length_flatMap] at hlen
    simp only [List.length_map] at hlen
    unfold size at hlen
    omega
  · rename_i p heq
    obtain ⟨m, h1, h2, h3, h4⟩ := this
    subst h2
    exact ⟨m, heq, h1, h3, h4⟩

/-! ## Making prefixes -/

theorem makePrefix_some {f g : Frame} {ns p : Str} (h : makePrefix f ns p = some g) :
    get f.p2n p = none ∧ g = ⟨f.p2n ++ [(p, ns)], put f.n2p ns p⟩ := by
  unfold makePrefix at h
  cases hg : get f.p2n p with
  | some v => rw [hg] at h; simp at h
  | none =>
    rw [hg] at h
    simp only [Option.isSome_none, Bool.false_eq_true, ↓reduceIte, Option.some.injEq] at h
    rw [put_new _ _ _ hg] at h
    exact ⟨rfl, h.symm⟩

theorem get_append_new (d : Dict) (p ns q : Str) (h : get d p = none) :
    get (d ++ [(p, ns)]) q = if p = q then some ns else get d q := by
  rw [← put_new d p ns h, get_put]

theorem fit_make {E : Str → Prop} {f g : Frame} {ns p : Str} (hf : Fit E f) (hp : Good p) (he : p = [] → E ns)
    (h : makePrefix f ns p = some g) : Fit E g := by
  obtain ⟨hn, rfl⟩ := makePrefix_some h
  refine ⟨?_, ?_, ?_, ?_⟩
  · intro n q hq
    simp only [get_put] at hq
    simp only [get_append_new _ _ _ _ hn]
    split at hq
    · rename_i h2; injection hq with hq; subst hq; subst h2; simp
    · have := hf.inv _ _ hq
      rw [if_neg]
      · exact this
      · intro e; subst e; rw [hn] at this; cases this
  · simp only [List.map_append, List.map_cons, List.map_nil]
    refine List.nodup_append.2 ⟨hf.keys, by simp, ?_⟩
    intro a ha b hb e
    simp at hb; subst hb; subst e
    exact (get_none_iff _ _).1 hn ha
  · intro pv hpv
    simp only [List.mem_append, List.mem_cons, List.not_mem_nil, or_false] at hpv
    rcases hpv with h | rfl
    · exact hf.good _ h
    · exact hp
  · intro n hq
    simp only [get_put] at hq
    split at hq
    · rename_i h2; injection hq with hq; subst h2; exact he hq
    · exact hf.dflt _ hq

theorem fit_empty (E : Str → Prop) : Fit E Frame.empty :=
  ⟨fun _ _ h => (nomatch h), by simp [Frame.empty], fun _ h => (nomatch h), fun _ h => (nomatch h)⟩

theorem fit_made {E : Str → Prop} {f : Frame} (h : Made E f) : Fit E f := by
  induction h with
  | empty => exact fit_empty E
  | make f g ns p _ hp he hm ih => exact fit_make ih hp he hm

end Verif.Ns

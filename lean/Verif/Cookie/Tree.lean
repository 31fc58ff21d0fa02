import Verif.Cookie.Store
/-!
# The tree of domains: invariants
-/
namespace Verif.Cookie
open Http (Bytes splitByte joinByte lowerBytes)

/-- A well formed tree without wildcard nodes. -/
structure Store.Inv (t : Store) : Prop where
  root : (t []).isSome
  closed : ∀ p d, (t (p ++ [d])).isSome → (t p).isSome
  noWild : ∀ q, star ∈ q → t q = none
  priv : ∀ q n, t q = some n → n.priv = true → n.pub = false

/-- The cookies at a node. -/
def cookiesAt (t : Store) (q : Domain) : List Cookie := match t q with
  | some n => n.cookies
  | none => []

/-- Whether a domain (last label first, as in a host name) is public, and to which depth its subdomains are. -/
def eff (t : Store) : Domain → Bool × Nat
  | [] => match t [] with
    | some n => (n.pub, n.depth)
    | none => (false, 0)
  | d :: r => match t (d :: r).reverse with
    | some n => (n.pub, n.depth)
    | none => (decide ((eff t r).2 ≠ 0), (eff t r).2 - 1)

/-- Marked as private. -/
def isPriv (t : Store) (q : Domain) : Bool := match t q with
  | some n => n.priv
  | none => false

theorem eff_of_some {t : Store} {r : Domain} {n : Node} (h : t r.reverse = some n) : eff t r = (n.pub, n.depth) := by
  cases r with
  | nil => rw [eff, show t [] = some n from h]
  | cons d r => rw [eff, h]

theorem eff_of_none {t : Store} {d : Label} {r : Domain} (h : t (d :: r).reverse = none) : eff t (d :: r) = (decide ((eff t r).2 ≠ 0), (eff t r).2 - 1) := by
  rw [eff, h]

/-- Trees with the same values of `public` and `public_depth` have the same public domains. -/
theorem eff_congr {t t' : Store} (h : ∀ q, (t q).map (fun n => (n.pub, n.depth)) = (t' q).map fun n => (n.pub, n.depth)) : ∀ r, eff t r = eff t' r := by
  intro r
  induction r with
  | nil =>
    have := h []
    simp only [eff]
    cases h1 : t [] <;> cases h2 : t' [] <;> simp_all
  | cons d r ih =>
    have h0 := h (d :: r).reverse
    rw [eff, eff, ih]
    generalize t (d :: r).reverse = a at h0
    generalize t' (d :: r).reverse = b at h0
    cases a <;> cases b <;> simp_all

/-- The new node of `expand`. -/
theorem expand_eq {t : Store} (I : t.Inv) {p : Domain} {d : Label} {n : Node} (hp : t p = some n) :
    expand t p d = t.set (p ++ [d]) ⟨decide (n.depth ≠ 0), false, n.depth - 1, []⟩ := by
  unfold expand
  have : t (p ++ [star]) = none := I.noWild _ (by simp)
  rw [if_neg (by rw [this]; simp), hp]
  dsimp only
  by_cases h : n.depth ≠ 0
  · rw [if_pos h]; simp [h]
  · rw [if_neg h]
    have h : n.depth = 0 := by omega
    simp [h]

theorem set_same (t : Store) (p : Domain) (n : Node) : (t.set p n) p = some n := by simp [Store.set]
theorem set_other (t : Store) {p q : Domain} (n : Node) (h : q ≠ p) : (t.set p n) q = t q := by simp [Store.set, h]

theorem snoc_ne_nil (p : Domain) (d : Label) : p ++ [d] ≠ [] := by simp

theorem Inv.set_new {t : Store} (I : t.Inv) {p : Domain} {d : Label} {m : Node} (hp : (t p).isSome) (hs : star ∉ p ++ [d]) (hm : m.priv = true → m.pub = false) :
    (t.set (p ++ [d]) m).Inv := by
  refine ⟨?_, ?_, ?_, ?_⟩
  · rw [set_other _ _ (Ne.symm (snoc_ne_nil p d))]; exact I.root
  · intro q e h
    by_cases h1 : q = p ++ [d]
    · rw [h1, set_same]; rfl
    · rw [set_other _ _ h1]
      by_cases h2 : q ++ [e] = p ++ [d]
      · have := List.append_inj_left' h2 rfl
        rw [this]; exact hp
      · rw [set_other _ _ h2] at h; exact I.closed q e h
  · intro q hq
    by_cases h1 : q = p ++ [d]
    · subst h1; exact absurd hq hs
    · rw [set_other _ _ h1]; exact I.noWild q hq
  · intro q n h
    by_cases h1 : q = p ++ [d]
    · subst h1; rw [set_same] at h; cases h; exact hm
    · rw [set_other _ _ h1] at h; exact I.priv q n h

/-- Expanding a node changes no cookie and no public domain. -/
theorem expand_spec {t : Store} (I : t.Inv) {p : Domain} {d : Label} (hp : (t p).isSome) (hs : star ∉ p ++ [d]) (hn : t (p ++ [d]) = none) :
    (expand t p d).Inv ∧ (∀ q, cookiesAt (expand t p d) q = cookiesAt t q) ∧ (∀ r, eff (expand t p d) r = eff t r) ∧ (∀ q, isPriv (expand t p d) q = isPriv t q) ∧
      (∀ q, q ≠ p ++ [d] → expand t p d q = t q) ∧ ∃ m, expand t p d (p ++ [d]) = some m ∧ (m.pub, m.depth) = eff t (p ++ [d]).reverse ∧ m.priv = false := by
  obtain ⟨n, hn'⟩ := Option.isSome_iff_exists.mp hp
  rw [expand_eq I hn']
  have hm : (decide (n.depth ≠ 0), n.depth - 1) = eff t (p ++ [d]).reverse := by
    rw [List.reverse_append, List.reverse_singleton, List.singleton_append]
    rw [eff_of_none (by rw [List.reverse_cons, List.reverse_reverse]; exact hn), eff_of_some (r := p.reverse) (by rw [List.reverse_reverse]; exact hn')]
  have hother : ∀ q, q ≠ p ++ [d] → (t.set (p ++ [d]) ⟨decide (n.depth ≠ 0), false, n.depth - 1, []⟩) q = t q := fun q h => set_other _ _ h
  refine ⟨Inv.set_new I hp hs (by simp), ?_, ?_, ?_, hother, ⟨_, set_same _ _ _, hm, rfl⟩⟩
  · intro q
    unfold cookiesAt
    by_cases h : q = p ++ [d]
    · subst h; rw [set_same, hn]
    · rw [hother q h]
  · intro r
    induction r with
    | nil => rw [eff, eff, hother _ (Ne.symm (snoc_ne_nil p d))]
    | cons e r ih =>
      by_cases h : (e :: r).reverse = p ++ [d]
      · have h' : e :: r = (p ++ [d]).reverse := by rw [← h, List.reverse_reverse]
        rw [eff_of_some (n := ⟨decide (n.depth ≠ 0), false, n.depth - 1, []⟩) (by rw [h, set_same]), h', ← hm]
      · simp only [eff]
        rw [hother _ h, ih]
  · intro q
    unfold isPriv
    by_cases h : q = p ++ [d]
    · subst h; rw [set_same, hn]
    · rw [hother q h]

/-- Going down the tree changes no cookie and no public domain, and leads to the node of the domain. -/
theorem ensure_spec : ∀ (ds : Domain) (t : Store) (p : Domain), t.Inv → (t p).isSome → star ∉ p ++ ds →
    (ensure t p ds).Inv ∧ (∀ q, cookiesAt (ensure t p ds) q = cookiesAt t q) ∧ (∀ r, eff (ensure t p ds) r = eff t r) ∧ (∀ q, isPriv (ensure t p ds) q = isPriv t q) ∧
      (ensure t p ds (p ++ ds)).isSome := by
  intro ds
  induction ds with
  | nil => intro t p I hp _; exact ⟨I, fun _ => rfl, fun _ => rfl, fun _ => rfl, by rwa [List.append_nil]⟩
  | cons d ds ih =>
    intro t p I hp hs
    rw [ensure]
    have hs1 : star ∉ p ++ [d] := fun h => hs (by simp at h ⊢; grind)
    have hs2 : star ∉ (p ++ [d]) ++ ds := by simpa using hs
    by_cases h : (t (p ++ [d])).isSome
    · rw [if_pos h]
      have := ih t (p ++ [d]) I h hs2
      simpa using this
    · rw [if_neg h]
      obtain ⟨e1, e2, e3, e4, _, m, e5, _⟩ := expand_spec I hp hs1 (by simpa using h)
      obtain ⟨f1, f2, f3, f4, f5⟩ := ih (expand t p d) (p ++ [d]) e1 (by rw [e5]; rfl) hs2
      exact ⟨f1, fun q => by rw [f2, e2], fun r => by rw [f3, e3], fun q => by rw [f4, e4], by simpa using f5⟩

/-- `test_public_domain` in terms of `eff`. -/
theorem eff_missing {t : Store} (I : t.Inv) {r : Domain} (h : t r.reverse = none) (d : Label) : t (d :: r).reverse = none := by
  rw [List.reverse_cons]
  cases h1 : t (r.reverse ++ [d]) with
  | none => rfl
  | some n => have := I.closed r.reverse d (by rw [h1]; rfl); rw [h] at this; cases this

/-- Below the last node of the tree the public domains are given by the depth. -/
theorem eff_below {t : Store} (I : t.Inv) {p : Domain} {n : Node} (hp : t p = some n) : ∀ (r : Domain) (d : Label), t (p ++ [d]) = none →
    t (p ++ d :: r.reverse) = none ∧ eff t (r ++ d :: p.reverse) = (decide (r.length + 1 ≤ n.depth), n.depth - (r.length + 1)) := by
  intro r
  induction r with
  | nil =>
    intro d h
    refine ⟨by simpa using h, ?_⟩
    rw [List.nil_append, eff_of_none (by simpa using h), eff_of_some (r := p.reverse) (by rw [List.reverse_reverse]; exact hp)]
    simp only [List.length_nil, Nat.zero_add, Prod.mk.injEq, and_true, decide_eq_decide]
    omega
  | cons e r ih =>
    intro d h
    obtain ⟨h1, h2⟩ := ih d h
    have h3 : t (r ++ d :: p.reverse).reverse = none := by simpa using h1
    have h4 := eff_missing I h3 e
    refine ⟨by simpa using h4, ?_⟩
    rw [List.cons_append, eff_of_none h4, h2]
    simp only [List.length_cons, Prod.mk.injEq, decide_eq_decide]
    omega

theorem testLoop_eff {t : Store} (I : t.Inv) : ∀ (ds p : Domain), (t p).isSome → ds ≠ [] → testLoop t p ds = (eff t (p ++ ds).reverse).1 := by
  intro ds
  induction ds with
  | nil => intro p _ h; exact absurd rfl h
  | cons d ds ih =>
    intro p hp _
    obtain ⟨n, hn⟩ := Option.isSome_iff_exists.mp hp
    rw [testLoop]
    cases h : t (p ++ [d]) with
    | none =>
      dsimp only
      rw [hn]
      dsimp only
      have := (eff_below I hn ds.reverse d h).2
      rw [show (p ++ d :: ds).reverse = ds.reverse ++ d :: p.reverse by simp, this, List.length_reverse]
      by_cases hl : ds.length + 1 > n.depth
      · rw [if_pos hl]; simp; omega
      · rw [if_neg hl]; simp; omega
    | some m =>
      dsimp only
      by_cases hd : ds = []
      · rw [if_pos hd]
        subst hd
        rw [eff_of_some (n := m) (by rw [List.reverse_reverse]; exact h)]
      · rw [if_neg hd]
        have := ih (p ++ [d]) (by rw [h]; rfl) hd
        rw [this]; simp

end Verif.Cookie

import Verif.Cookie.Jar
/-!
# The rules of the public suffix list in the tree
-/
namespace Verif.Cookie
open Http (Bytes splitByte joinByte lowerBytes)

theorem modify_eq_set {t : Store} {p : Domain} {n : Node} (h : t p = some n) (f : Node → Node) : t.modify p f = t.set p (f n) := by
  funext q
  unfold Store.modify Store.set
  by_cases hq : q = p
  · subst hq; rw [if_pos rfl, if_pos rfl, h]; rfl
  · rw [if_neg hq, if_neg hq]

/-- Changing the flags of a node. -/
theorem set_flags {t : Store} (I : t.Inv) {p : Domain} {n m : Node} (hp : t p = some n) (hc : m.cookies = n.cookies) (hd : m.depth = n.depth)
    (hm : m.priv = true → m.pub = false) :
    (t.set p m).Inv ∧ (∀ q, cookiesAt (t.set p m) q = cookiesAt t q) ∧
      (∀ r, eff (t.set p m) r = if r.reverse = p then (m.pub, m.depth) else eff t r) ∧ (∀ q, isPriv (t.set p m) q = if q = p then m.priv else isPriv t q) := by
  refine ⟨⟨?_, ?_, ?_, ?_⟩, ?_, ?_, ?_⟩
  · unfold Store.set; split; rfl; exact I.root
  · intro q d h
    have h1 : (t (q ++ [d])).isSome := by
      unfold Store.set at h
      split at h
      · rename_i h2; rw [h2, hp]; rfl
      · exact h
    have := I.closed q d h1
    unfold Store.set
    split
    · rfl
    · exact this
  · intro q hq
    have h1 := I.noWild q hq
    unfold Store.set
    split
    · rename_i h2; rw [h2, hp] at h1; cases h1
    · exact h1
  · intro q x h
    unfold Store.set at h
    split at h
    · cases h; exact hm
    · exact I.priv q x h
  · intro q
    unfold cookiesAt Store.set
    by_cases h : q = p
    · subst h; rw [if_pos rfl, hp]; exact hc
    · rw [if_neg h]
  · intro r
    have key : ∀ r, (eff (t.set p m) r).2 = (eff t r).2 ∧ eff (t.set p m) r = if r.reverse = p then (m.pub, m.depth) else eff t r := by
      intro r
      induction r with
      | nil =>
        by_cases h : [] = p
        · subst h
          rw [eff_of_some (r := []) (set_same t [] m), eff_of_some (r := []) hp]
          simp [hd]
        · have h1 : eff (t.set p m) [] = eff t [] := by rw [eff, eff, set_other t m h]
          rw [List.reverse_nil, if_neg h, h1]; exact ⟨rfl, rfl⟩
      | cons d r ih =>
        by_cases h : (d :: r).reverse = p
        · have h1 : (t.set p m) (d :: r).reverse = some m := by rw [h, set_same]
          have h2 : t (d :: r).reverse = some n := by rw [h, hp]
          rw [eff_of_some h1, eff_of_some h2, if_pos h]
          exact ⟨hd, rfl⟩
        · rw [if_neg h]
          have : eff (t.set p m) (d :: r) = eff t (d :: r) := by rw [eff, eff, set_other t m h, ih.1]
          rw [this]; exact ⟨rfl, rfl⟩
    exact (key r).2
  · intro q
    unfold isPriv Store.set
    by_cases h : q = p
    · rw [if_pos h, if_pos h]
    · rw [if_neg h, if_neg h]

/-- The tree after a rule that makes all children public. -/
theorem wildcard_spec {t : Store} (I : t.Inv) {p : Domain} {n : Node} (hp : t p = some n) :
    let t' := (t.modify p fun n => if n.depth < 1 then { n with depth := 1 } else n).children p fun n => if n.priv then n else { n with pub := true }
    t'.Inv ∧ (∀ q, cookiesAt t' q = cookiesAt t q) ∧ (∀ q, isPriv t' q = isPriv t q) ∧
      (∀ r, (eff t' r).1 = ((eff t r).1 || (decide (r ≠ [] ∧ r.reverse.dropLast = p) && !isPriv t r.reverse))) := by
  intro t'
  have hne : ∀ q : Domain, q ≠ [] → q.dropLast = p → q ≠ p := by
    rintro q h1 h2 rfl
    have := congrArg List.length h2
    rw [List.length_dropLast] at this
    have : 0 < q.length := List.length_pos_iff.mpr h1
    omega
  have ht : ∀ q, t' q = if q = p then (t q).map (fun n => if n.depth < 1 then { n with depth := 1 } else n)
      else if q ≠ [] ∧ q.dropLast = p then (t q).map (fun n => if n.priv then n else { n with pub := true }) else t q := by
    intro q
    show Store.children (Store.modify t p _) p _ q = _
    unfold Store.children Store.modify
    by_cases h1 : q = p
    · rw [if_neg (fun h => hne q h.1 h.2 h1), if_pos h1, if_pos h1]
    · by_cases h2 : q ≠ [] ∧ q.dropLast = p
      · rw [if_pos h2, if_neg h1, if_neg h1, if_pos h2]
      · rw [if_neg h2, if_neg h1, if_neg h1, if_neg h2]
  have hs : ∀ q, (t' q).isSome = (t q).isSome := by
    intro q; rw [ht]; split
    · simp
    · split <;> simp
  have hm : ∀ q, (t' q).map (fun n => (n.cookies, n.priv)) = (t q).map fun n => (n.cookies, n.priv) := by
    intro q
    rw [ht]
    by_cases h1 : q = p
    · rw [if_pos h1]; cases t q with
      | none => rfl
      | some x => simp only [Option.map_some]; split <;> rfl
    · rw [if_neg h1]
      by_cases h2 : q ≠ [] ∧ q.dropLast = p
      · rw [if_pos h2]; cases t q with
        | none => rfl
        | some x => simp only [Option.map_some]; split <;> rfl
      · rw [if_neg h2]
  clear_value t'
  refine ⟨⟨?_, ?_, ?_, ?_⟩, ?_, ?_, ?_⟩
  · rw [hs]; exact I.root
  · intro q d h; rw [hs] at h ⊢; exact I.closed q d h
  · intro q hq
    have h1 := hs q
    rw [I.noWild q hq] at h1
    simpa using h1
  · intro q m h
    rw [ht] at h
    cases h1 : t q with
    | none => rw [h1] at h; split at h; cases h; split at h <;> cases h
    | some x =>
      have hx := I.priv q x h1
      rw [h1] at h
      simp only [Option.map_some] at h
      split at h
      · cases h; intro hp; split at hp <;> split <;> exact hx hp
      · split at h
        · cases h; intro hp
          split at hp
          · rename_i hpr; rw [if_pos hpr]; exact hx hpr
          · rename_i hpr; exact absurd hp hpr
        · cases h; exact hx
  · intro q
    have h := hm q
    unfold cookiesAt
    cases h1 : t' q <;> cases h2 : t q <;> simp_all
  · intro q
    have h := hm q
    unfold isPriv
    cases h1 : t' q <;> cases h2 : t q <;> simp_all
  · intro r
    have key : ∀ r, (eff t' r).2 = (if r.reverse = p then max 1 (eff t r).2 else (eff t r).2) ∧
        (eff t' r).1 = ((eff t r).1 || (decide (r ≠ [] ∧ r.reverse.dropLast = p) && !isPriv t r.reverse)) := by
      intro r
      induction r with
      | nil =>
        obtain ⟨n0, hn0⟩ := Option.isSome_iff_exists.mp I.root
        have h2 := ht []
        rw [hn0] at h2
        by_cases h : [] = p
        · rw [if_pos h] at h2
          rw [eff_of_some (r := []) hn0, eff_of_some (r := []) h2]
          refine ⟨?_, ?_⟩
          · rw [List.reverse_nil, if_pos h]; show (if n0.depth < 1 then _ else n0 : Node).depth = _; by_cases h9 : n0.depth < 1
            · rw [if_pos h9]; dsimp only; omega
            · rw [if_neg h9]; dsimp only; omega
          · dsimp only; split <;> simp
        · rw [if_neg h, if_neg (by simp)] at h2
          rw [eff_of_some (r := []) hn0, eff_of_some (r := []) h2]
          refine ⟨by rw [List.reverse_nil, if_neg h], by simp⟩
      | cons d r ih =>
        have h2 := ht (d :: r).reverse
        have hdl : (d :: r).reverse.dropLast = r.reverse := by rw [List.reverse_cons, List.dropLast_concat]
        have hnn : (d :: r).reverse ≠ [] := by simp
        rw [hdl] at h2 ⊢
        have hne1 : r.reverse = p → (d :: r).reverse ≠ p := by
          intro h; exact hne _ hnn (by rw [hdl]; exact h)
        cases h1 : t (d :: r).reverse with
        | some x =>
          rw [h1] at h2
          simp only [Option.map_some] at h2
          have hpr : isPriv t (d :: r).reverse = x.priv := by unfold isPriv; rw [h1]
          rw [eff_of_some h1, hpr]
          by_cases ha : (d :: r).reverse = p
          · rw [if_pos ha] at h2
            have hb : ¬ r.reverse = p := fun h => hne1 h ha
            rw [eff_of_some h2, if_pos ha]
            refine ⟨?_, ?_⟩
            · show (if x.depth < 1 then _ else x : Node).depth = _; by_cases h9 : x.depth < 1
              · rw [if_pos h9]; dsimp only; omega
              · rw [if_neg h9]; dsimp only; omega
            · dsimp only; split <;> simp [hb]
          · rw [if_neg ha] at h2
            rw [if_neg ha]
            by_cases hb : r.reverse = p
            · rw [if_pos ⟨hnn, hb⟩] at h2
              rw [eff_of_some h2]
              have hx := I.priv _ x h1
              by_cases hpv : x.priv = true
              · rw [if_pos hpv, hx hpv, hpv]; simp
              · rw [if_neg hpv]
                simp only [Bool.not_eq_true] at hpv
                simp [hb, hpv]
            · rw [if_neg (fun h => hb h.2)] at h2
              rw [eff_of_some h2]
              simp [hb]
        | none =>
          rw [h1] at h2
          have h2' : t' (d :: r).reverse = none := by
            rw [h2]; split; rfl; split <;> rfl
          have hpr : isPriv t (d :: r).reverse = false := by unfold isPriv; rw [h1]
          have ha : ¬ (d :: r).reverse = p := by rintro h; rw [h, hp] at h1; cases h1
          rw [eff_of_none h1, eff_of_none h2', if_neg ha, hpr, ih.1]
          by_cases hb : r.reverse = p
          · rw [if_pos hb]
            refine ⟨by dsimp only; omega, ?_⟩
            simp [hb]
          · rw [if_neg hb]; simp [hb]
    exact (key r).2

/-- A rule makes its domain public; nothing else becomes public but its parents (for a wildcard: their children). -/
structure PublicSpec (t t' : Store) (p ds : Domain) : Prop where
  inv : t'.Inv
  cookies : ∀ q, cookiesAt t' q = cookiesAt t q
  priv : ∀ q, isPriv t' q = isPriv t q
  mono : ∀ r, (eff t r).1 = true → (eff t' r).1 = true
  only : ∀ r, (eff t' r).1 = true → (eff t r).1 = true ∨ (p.length < r.length ∧ r.reverse <+: p ++ ds) ∨ ∃ R x, p ++ ds = R ++ [star] ∧ r.reverse = R ++ [x]
  rule : star ∉ ds → ds ≠ [] → isPriv t (p ++ ds) = false → (eff t' (p ++ ds).reverse).1 = true
  wild : ∀ R x, p ++ ds = R ++ [star] → ds ≠ [] → isPriv t (R ++ [x]) = false → (eff t' (R ++ [x]).reverse).1 = true

theorem publicLoop_spec : ∀ (ds : Domain) (t : Store) (p : Domain), t.Inv → (t p).isSome → star ∉ p → star ∉ ds.dropLast → PublicSpec t (publicLoop t p ds) p ds := by
  intro ds
  induction ds with
  | nil =>
    intro t p I hp hs _
    exact ⟨I, fun _ => rfl, fun _ => rfl, fun _ h => h, fun _ h => .inl h, fun _ h => absurd rfl h, fun _ _ _ h => absurd rfl h⟩
  | cons d ds ih =>
    intro t p I hp hs hw
    obtain ⟨n, hn⟩ := Option.isSome_iff_exists.mp hp
    rw [publicLoop]
    by_cases hd : d = star
    · -- a wildcard: the last label
      subst hd
      have hds : ds = [] := by
        cases ds with
        | nil => rfl
        | cons e ds => simp at hw
      subst hds
      have hnone : t (p ++ [star]) = none := I.noWild _ (by simp)
      rw [hnone]
      dsimp only
      rw [if_pos rfl, if_pos rfl, publicLoop]
      obtain ⟨w1, w2, w3, w4⟩ := wildcard_spec I hn
      refine ⟨w1, w2, w3, ?_, ?_, ?_, ?_⟩
      · intro r h; rw [w4, h]; rfl
      · intro r h
        rw [w4] at h
        simp only [Bool.or_eq_true, Bool.and_eq_true, decide_eq_true_eq] at h
        rcases h with h | ⟨⟨h1, h2⟩, _⟩
        · exact .inl h
        · right; right
          have h3 : r.reverse ≠ [] := by simpa using h1
          exact ⟨p, r.reverse.getLast h3, rfl, by rw [← h2, List.dropLast_concat_getLast]⟩
      · intro h; simp at h
      · intro R x h _ hpr
        have hR : p = R := List.append_inj_left' h rfl
        subst hR
        rw [w4]
        rw [List.reverse_reverse, hpr]
        simp
    · have hsd : star ∉ p ++ [d] := by
        simp only [List.mem_append, List.mem_singleton, not_or]
        exact ⟨hs, fun h => hd h.symm⟩
      -- one step, then the rest
      have step : ∀ t1 : Store, t1.Inv → (∀ q, cookiesAt t1 q = cookiesAt t q) → (∀ q, isPriv t1 q = isPriv t q) → (t1 (p ++ [d])).isSome →
          (∀ r, eff t1 r = eff t r ∨ (r.reverse = p ++ [d] ∧ (eff t1 r).1 = true)) →
          (ds = [] → isPriv t (p ++ [d]) = false → (eff t1 (p ++ [d]).reverse).1 = true) → PublicSpec t (publicLoop t1 (p ++ [d]) ds) p (d :: ds) := by
        intro t1 I1 hc1 hp1 hs1 he1 hr1
        have hw' : star ∉ ds.dropLast := by
          cases ds with
          | nil => simp
          | cons e ds => intro h; apply hw; rw [List.dropLast_cons_of_ne_nil (by simp)]; simp [h]
        have S := ih t1 (p ++ [d]) I1 hs1 hsd hw'
        have happ : p ++ [d] ++ ds = p ++ d :: ds := by simp
        refine ⟨S.inv, fun q => by rw [S.cookies, hc1], fun q => by rw [S.priv, hp1], ?_, ?_, ?_, ?_⟩
        · intro r h
          apply S.mono
          rcases he1 r with h1 | h1
          · rw [h1]; exact h
          · exact h1.2
        · intro r h
          rcases S.only r h with h1 | ⟨h1, h2⟩ | ⟨R, x, h1, h2⟩
          · rcases he1 r with h3 | h3
            · rw [h3] at h1; exact .inl h1
            · right; left
              have := congrArg List.length h3.1
              rw [List.length_reverse, List.length_append, List.length_singleton] at this
              refine ⟨by omega, ?_⟩
              rw [h3.1, ← happ]; exact List.prefix_append _ _
          · right; left
            rw [List.length_append] at h1
            exact ⟨by omega, by rw [← happ]; exact h2⟩
          · right; right; exact ⟨R, x, by rw [← happ]; exact h1, h2⟩
        · intro h1 _ h3
          rw [List.mem_cons, not_or] at h1
          by_cases hds : ds = []
          · subst hds
            rw [publicLoop]
            exact hr1 rfl h3
          · have := S.rule h1.2 hds (by rw [hp1, happ]; exact h3)
            rw [← happ]; exact this
        · intro R x h1 _ h3
          have hds : ds ≠ [] := by
            rintro rfl
            have := List.append_inj_right' h1 rfl
            simp at this
            exact hd this
          exact S.wild R x (by rw [happ]; exact h1) hds (by rw [hp1]; exact h3)
      cases h : t (p ++ [d]) with
      | none =>
        dsimp only
        rw [if_neg hd]
        obtain ⟨e1, e2, e3, e4, _, m, e5, e6, e7⟩ := expand_spec I hp hsd h
        rw [modify_eq_set e5]
        obtain ⟨s1, s2, s3, s4⟩ := set_flags (m := { m with pub := true }) e1 e5 rfl rfl (by intro h; rw [e7] at h; cases h)
        apply step _ s1 (fun q => by rw [s2, e2])
        · intro q
          rw [s4, e4]
          split
          · rename_i hq; rw [hq]; dsimp only; rw [e7]; unfold isPriv; rw [h]
          · rfl
        · rw [set_same]; rfl
        · intro r
          rw [s3]
          by_cases hr : r.reverse = p ++ [d]
          · rw [if_pos hr]; exact .inr ⟨hr, rfl⟩
          · rw [if_neg hr, e3]; exact .inl rfl
        · intro _ _; rw [s3, List.reverse_reverse, if_pos rfl]
      | some m =>
        dsimp only
        by_cases hds : ds = []
        · rw [if_pos hds, if_neg hd, modify_eq_set h]
          by_cases hpv : m.priv = true
          · rw [if_pos hpv]
            obtain ⟨s1, s2, s3, s4⟩ := set_flags (m := m) I h rfl rfl (I.priv _ m h)
            apply step _ s1 s2
            · intro q; rw [s4]; split
              · rename_i hq; rw [hq]; unfold isPriv; rw [h]
              · rfl
            · rw [set_same]; rfl
            · intro r; left; rw [s3]; split
              · rename_i hr; rw [eff_of_some (n := m) (by rw [hr]; exact h)]
              · rfl
            · intro _ hpr
              exfalso
              unfold isPriv at hpr
              rw [h] at hpr; dsimp only at hpr; rw [hpv] at hpr; cases hpr
          · rw [if_neg hpv]
            obtain ⟨s1, s2, s3, s4⟩ := set_flags (m := { m with pub := true }) I h rfl rfl (fun h => absurd h hpv)
            apply step _ s1 s2
            · intro q; rw [s4]; split
              · rename_i hq; rw [hq]; unfold isPriv; rw [h]
              · rfl
            · rw [set_same]; rfl
            · intro r; rw [s3]
              by_cases hr : r.reverse = p ++ [d]
              · rw [if_pos hr]; exact .inr ⟨hr, rfl⟩
              · rw [if_neg hr]; exact .inl rfl
            · intro _ _; rw [s3, List.reverse_reverse, if_pos rfl]
        · rw [if_neg hds]
          exact step t I (fun _ => rfl) (fun _ => rfl) (by rw [h]; rfl) (fun _ => .inl rfl) (fun e => absurd e hds)

/-- An exception makes its domain private and changes nothing else. -/
theorem privateLoop_spec : ∀ (ds : Domain) (t : Store) (p : Domain), t.Inv → (t p).isSome → star ∉ p ++ ds → ds ≠ [] →
    (privateLoop t p ds).Inv ∧ (∀ q, cookiesAt (privateLoop t p ds) q = cookiesAt t q) ∧
      (∀ q, isPriv (privateLoop t p ds) q = (isPriv t q || decide (q = p ++ ds))) ∧
      (∀ r, (eff (privateLoop t p ds) r).1 = ((eff t r).1 && !decide (r.reverse = p ++ ds))) := by
  intro ds
  induction ds with
  | nil => intro t p _ _ _ h; exact absurd rfl h
  | cons d ds ih =>
    intro t p I hp hs _
    rw [privateLoop]
    have hsd : star ∉ p ++ [d] := by intro h; apply hs; simp at h ⊢; grind
    have hd : d ≠ star := by rintro rfl; exact hsd (by simp)
    have happ : p ++ [d] ++ ds = p ++ d :: ds := by simp
    -- the last label
    have last : ∀ t1 : Store, ds = [] → t1.Inv → (∀ q, cookiesAt t1 q = cookiesAt t q) → (∀ r, eff t1 r = eff t r) → (∀ q, isPriv t1 q = isPriv t q) →
        ∀ m, t1 (p ++ [d]) = some m → let t2 := t1.modify (p ++ [d]) fun n => { n with priv := true, pub := false }
        t2.Inv ∧ (∀ q, cookiesAt t2 q = cookiesAt t q) ∧ (∀ q, isPriv t2 q = (isPriv t q || decide (q = p ++ [d]))) ∧
        (∀ r, (eff t2 r).1 = ((eff t r).1 && !decide (r.reverse = p ++ [d]))) := by
      intro t1 _ I1 hc he hpr m hm t2
      have ht2 : t2 = t1.set (p ++ [d]) { m with priv := true, pub := false } := modify_eq_set hm _
      obtain ⟨s1, s2, s3, s4⟩ := set_flags (m := { m with priv := true, pub := false }) I1 hm rfl rfl (fun _ => rfl)
      rw [ht2]
      refine ⟨s1, fun q => by rw [s2, hc], ?_, ?_⟩
      · intro q; rw [s4, hpr]; split
        · rename_i h; simp [h]
        · rename_i h; simp [h]
      · intro r; rw [s3, he]; split
        · rename_i h; simp [h]
        · rename_i h; simp [h]
    cases h : t (p ++ [d]) with
    | none =>
      dsimp only
      rw [if_neg hd]
      obtain ⟨e1, e2, e3, e4, _, m, e5, _⟩ := expand_spec I hp hsd h
      by_cases hds : ds = []
      · rw [if_pos hds]
        have := last _ hds e1 e2 e3 e4 m e5
        subst hds
        rw [privateLoop]; exact this
      · rw [if_neg hds]
        obtain ⟨f1, f2, f3, f4⟩ := ih (expand t p d) (p ++ [d]) e1 (by rw [e5]; rfl) (by rw [happ]; exact hs) hds
        rw [happ] at f3 f4
        exact ⟨f1, fun q => by rw [f2, e2], fun q => by rw [f3, e4], fun r => by rw [f4, e3]⟩
    | some m =>
      dsimp only
      by_cases hds : ds = []
      · rw [if_pos hds, if_neg hd]
        have := last t hds I (fun _ => rfl) (fun _ => rfl) (fun _ => rfl) m h
        subst hds
        rw [privateLoop]; exact this
      · rw [if_neg hds]
        obtain ⟨f1, f2, f3, f4⟩ := ih t (p ++ [d]) I (by rw [h]; rfl) (by rw [happ]; exact hs) hds
        rw [happ] at f3 f4
        exact ⟨f1, f2, f3, f4⟩

end Verif.Cookie

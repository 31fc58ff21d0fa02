import Verif.Cookie.Claims
import Verif.Http.ParamProps
/-!
# C58: public suffixes
-/
namespace Verif.Cookie
open Http (Bytes splitByte joinByte lowerBytes)

/-! ## Specification -/

/-- The rules that were added with `add_public_suffix`, as lists of labels. -/
def publicRules (puny : Bytes → Option Bytes) : List Op → List Domain
  | [] => []
  | .addPublic s :: ops => (splitDomain puny true s).toList ++ publicRules puny ops
  | _ :: ops => publicRules puny ops

/-- The rules that were added with `add_private_suffix`, as lists of labels. -/
def privateRules (puny : Bytes → Option Bytes) : List Op → List Domain
  | [] => []
  | .addPrivate s :: ops => (splitDomain puny true s).toList ++ privateRules puny ops
  | _ :: ops => privateRules puny ops

/-- A rule covers a domain: it is the domain, or it is `*.R` and the domain is `x.R`. -/
def Covers (rule d : Domain) : Prop := rule = d ∨ ∃ R x, rule = star :: R ∧ d = x :: R

/-! ## Proofs -/

theorem step_eff {puny : Bytes → Option Bytes} {t : Store} {j : Jar} (H : Holds t j) (op : Op)
    (hn : (∀ s, op ≠ .addPublic s) ∧ ∀ s, op ≠ .addPrivate s) :
    (∀ r, eff (step puny t op) r = eff t r) ∧ (∀ q, isPriv (step puny t op) q = isPriv t q) := by
  cases op with
  | set url c now => exact ⟨(setCookie_spec puny H url c now).2.1, (setCookie_spec puny H url c now).2.2.1⟩
  | search url now => exact (search_holds puny H url now fun _ => false).2
  | expire now => exact (removeAll_holds H _).2
  | endSession now => exact (removeAll_holds H _).2
  | addPublic s => exact absurd rfl (hn.1 s)
  | addPrivate s => exact absurd rfl (hn.2 s)

theorem eff_initial (k : Nat) : ∀ r : Domain, eff (storeOfDepth k) r = (decide (r ≠ [] ∧ r.length ≤ k), k - r.length) := by
  intro r
  induction r with
  | nil => simp [eff, storeOfDepth]
  | cons d r ih =>
    rw [eff_of_none (by simp [storeOfDepth]), ih]
    simp only [List.length_cons, Prod.mk.injEq, decide_eq_decide]
    refine ⟨?_, by omega⟩
    constructor
    · intro h; exact ⟨by simp, by omega⟩
    · intro h; have := h.2; omega

structure SuffixSpec (puny : Bytes → Option Bytes) (k : Nat) (ops : List Op) : Prop where
  priv : ∀ d, isPriv (after puny k ops) d.reverse = true ↔ d ∈ privateRules puny ops
  low : ∀ d, d ≠ [] → d ∉ privateRules puny ops → (d.length ≤ k ∨ ∃ r ∈ publicRules puny ops, star ∉ d ∧ Covers r d) → (eff (after puny k ops) d).1 = true
  up : ∀ d, d ≠ [] → (eff (after puny k ops) d).1 = true → d.length ≤ k ∨ ∃ r ∈ publicRules puny ops, d <:+ r ∨ Covers r d

theorem suffix_spec (puny : Bytes → Option Bytes) (k : Nat) : ∀ ops : List Op, (∀ op ∈ ops, GoodOp puny op) → SuffixSpec puny k ops := by
  intro ops
  induction ops with
  | nil =>
    intro _
    refine ⟨?_, ?_, ?_⟩
    · intro d
      simp only [after, privateRules, List.not_mem_nil, iff_false]
      unfold isPriv storeOfDepth
      by_cases h : d.reverse = [] <;> simp [h]
    · intro d hd _ h
      simp only [after, eff_initial, decide_eq_true_eq]
      rcases h with h | ⟨r, hr, _⟩
      · exact ⟨hd, h⟩
      · cases hr
    · intro d hd h
      simp only [after, eff_initial, decide_eq_true_eq] at h
      exact .inl h.2
  | cons op ops ih =>
    intro G
    have S := ih fun o ho => G o (by simp [ho])
    have H := after_holds puny k ops fun o ho => G o (by simp [ho])
    have Gop := G op (by simp)
    have rest : ((∀ s, op ≠ .addPublic s) ∧ ∀ s, op ≠ .addPrivate s) → SuffixSpec puny k (op :: ops) := by
      intro hn
      obtain ⟨h1, h2⟩ := step_eff (puny := puny) H op hn
      have e1 : publicRules puny (op :: ops) = publicRules puny ops := by
        cases op <;> first | rfl | exact absurd rfl (hn.1 _)
      have e2 : privateRules puny (op :: ops) = privateRules puny ops := by
        cases op <;> first | rfl | exact absurd rfl (hn.2 _)
      refine ⟨?_, ?_, ?_⟩
      · intro d; rw [e2]; show isPriv (step puny _ op) _ = true ↔ _; rw [h2]; exact S.priv d
      · intro d; rw [e1, e2]; show _ → _ → _ → (eff (step puny _ op) _).1 = true; rw [h1]; exact S.low d
      · intro d; rw [e1]; show _ → (eff (step puny _ op) _).1 = true → _; rw [h1]; exact S.up d
    cases op with
    | set url c now => exact rest ⟨by simp, by simp⟩
    | search url now => exact rest ⟨by simp, by simp⟩
    | expire now => exact rest ⟨by simp, by simp⟩
    | endSession now => exact rest ⟨by simp, by simp⟩
    | addPublic s =>
      cases hs : splitDomain puny true s with
      | none =>
        have e1 : publicRules puny (.addPublic s :: ops) = publicRules puny ops := by simp [publicRules, hs]
        have e3 : after puny k (.addPublic s :: ops) = after puny k ops := by simp [after, step, addPublic, hs]
        refine ⟨?_, ?_, ?_⟩
        · rw [e3]; exact S.priv
        · rw [e1, e3]; exact S.low
        · rw [e1, e3]; exact S.up
      | some D =>
        have P := public_step H.inv Gop hs
        have e1 : publicRules puny (.addPublic s :: ops) = D :: publicRules puny ops := by simp [publicRules, hs]
        have hD := split_ne_nil hs
        refine ⟨?_, ?_, ?_⟩
        · intro d; show isPriv (step puny _ _) _ = true ↔ _; rw [P.priv]; exact S.priv d
        · intro d hd hp h
          show (eff (step puny _ _) _).1 = true
          have hp' : d ∉ privateRules puny ops := hp
          have hpv : isPriv (after puny k ops) d.reverse = false := by
            have := S.priv d
            cases hb : isPriv (after puny k ops) d.reverse with
            | false => rfl
            | true => exact absurd (this.mp hb) hp'
          rw [e1] at h
          rcases h with h | ⟨r, hr, hst, hc⟩
          · exact P.mono _ (S.low d hd hp' (.inl h))
          · rcases List.mem_cons.mp hr with rfl | hr
            · rcases hc with rfl | ⟨R, x, rfl, rfl⟩
              · have := P.rule (by simpa using hst) (by simpa using hD) (by simpa using hpv)
                simpa using this
              · have := P.wild R.reverse x (by simp) (by simp) (by simpa using hpv)
                simpa using this
            · exact P.mono _ (S.low d hd hp' (.inr ⟨r, hr, hst, hc⟩))
        · intro d hd h
          rw [e1]
          rcases P.only d h with h | ⟨_, h⟩ | ⟨R, x, h1, h2⟩
          · rcases S.up d hd h with h | ⟨r, hr, h⟩
            · exact .inl h
            · exact .inr ⟨r, by simp [hr], h⟩
          · exact .inr ⟨D, by simp, .inl (List.reverse_prefix.mp (by simpa using h))⟩
          · refine .inr ⟨D, by simp, .inr (.inr ⟨R.reverse, x, ?_, ?_⟩)⟩
            · have := congrArg List.reverse h1; simpa using this
            · have := congrArg List.reverse h2; simpa using this
    | addPrivate s =>
      cases hs : splitDomain puny true s with
      | none =>
        have e1 : privateRules puny (.addPrivate s :: ops) = privateRules puny ops := by simp [privateRules, hs]
        have e3 : after puny k (.addPrivate s :: ops) = after puny k ops := by simp [after, step, addPrivate, hs]
        refine ⟨?_, ?_, ?_⟩
        · rw [e1, e3]; exact S.priv
        · rw [e1, e3]; exact S.low
        · rw [e3]; exact S.up
      | some D =>
        obtain ⟨_, _, P3, P4⟩ := private_step H.inv Gop hs
        have e1 : privateRules puny (.addPrivate s :: ops) = D :: privateRules puny ops := by simp [privateRules, hs]
        refine ⟨?_, ?_, ?_⟩
        · intro d
          show isPriv (step puny _ _) _ = true ↔ _
          rw [P3, e1, Bool.or_eq_true, S.priv, decide_eq_true_eq, List.mem_cons, List.reverse_inj]
          exact Or.comm
        · intro d hd hp h
          rw [e1, List.mem_cons, not_or] at hp
          show (eff (step puny _ _) _).1 = true
          rw [P4, S.low d hd hp.2 h]
          simp [hp.1]
        · intro d hd h
          apply S.up d hd
          have h' : (eff (step puny (after puny k ops) (.addPrivate s)) d).1 = true := h
          rw [P4] at h'
          cases hb : (eff (after puny k ops) d).1 with
          | true => rfl
          | false => rw [hb] at h'; cases h'

theorem testPublic_eff {puny : Bytes → Option Bytes} {t : Store} (I : t.Inv) {s : Bytes} {d : Domain} (h : splitDomain puny false s = some d) :
    testPublic puny t s = some (eff t d).1 := by
  simp only [testPublic, h, Option.map_some]
  rw [testLoop_eff I _ _ I.root (by simpa using split_ne_nil h)]
  simp

/-- **C58**, exceptions: a domain that was added as private is not public, whatever else was added, before or after. -/
theorem C58_private (puny : Bytes → Option Bytes) (k : Nat) (ops : List Op) (G : ∀ op ∈ ops, GoodOp puny op) (s : Bytes) (d : Domain)
    (h : splitDomain puny false s = some d) (hp : d ∈ privateRules puny ops) : testPublic puny (after puny k ops) s = some false := by
  have S := suffix_spec puny k ops G
  have I := (after_holds puny k ops G).inv
  rw [testPublic_eff I h]
  have := (S.priv d).mpr hp
  unfold isPriv at this
  cases hn : after puny k ops d.reverse with
  | none => rw [hn] at this; cases this
  | some n =>
    rw [hn] at this
    rw [eff_of_some hn, I.priv _ _ hn this]

/-- **C58**: a domain that was not added as private is public if it has at most as many labels as the store was set to, or if some public rule covers it. -/
theorem C58_public (puny : Bytes → Option Bytes) (k : Nat) (ops : List Op) (G : ∀ op ∈ ops, GoodOp puny op) (s : Bytes) (d : Domain)
    (h : splitDomain puny false s = some d) (hp : d ∉ privateRules puny ops) (hc : d.length ≤ k ∨ ∃ r ∈ publicRules puny ops, Covers r d) :
    testPublic puny (after puny k ops) s = some true := by
  have S := suffix_spec puny k ops G
  have I := (after_holds puny k ops G).inv
  rw [testPublic_eff I h, S.low d (split_ne_nil h) hp]
  rcases hc with hc | ⟨r, hr, hc⟩
  · exact .inl hc
  · exact .inr ⟨r, hr, split_noStar h, hc⟩

/-- **C58**, partial: only such domains, and the parents of the public rules, are public. That the parents can be public is a
difference from the public suffix algorithm, see `C58_parent_violation`. -/
theorem C58_only_partial (puny : Bytes → Option Bytes) (k : Nat) (ops : List Op) (G : ∀ op ∈ ops, GoodOp puny op) (s : Bytes) (d : Domain)
    (h : splitDomain puny false s = some d) (ht : testPublic puny (after puny k ops) s = some true) :
    d ∉ privateRules puny ops ∧ (d.length ≤ k ∨ ∃ r ∈ publicRules puny ops, d <:+ r ∨ Covers r d) := by
  have S := suffix_spec puny k ops G
  have I := (after_holds puny k ops G).inv
  refine ⟨fun hp => ?_, ?_⟩
  · rw [C58_private puny k ops G s d h hp] at ht; cases ht
  · rw [testPublic_eff I h] at ht
    exact S.up d (split_ne_nil h) (by simpa using ht)

/-! ### Registered domains -/

theorem registeredLoop_spec {t : Store} (I : t.Inv) : ∀ (ds p : Domain), (t p).isSome → ds ≠ [] →
    match registeredLoop t p p ds with
    | none => ∀ i, 0 < i → i ≤ ds.length → (eff t (p ++ ds.take i).reverse).1 = true
    | some m => ∃ j, 0 < j ∧ j ≤ ds.length ∧ m = p ++ ds.take j ∧ (eff t m.reverse).1 = false ∧ ∀ i, 0 < i → i < j → (eff t (p ++ ds.take i).reverse).1 = true := by
  intro ds
  induction ds with
  | nil => intro p _ h; exact absurd rfl h
  | cons d ds ih =>
    intro p hp _
    obtain ⟨n, hn⟩ := Option.isSome_iff_exists.mp hp
    rw [registeredLoop]
    cases h : t (p ++ [d]) with
    | none =>
      dsimp only
      rw [hn]
      dsimp only
      have key : ∀ i, 0 < i → i ≤ (d :: ds).length → (eff t (p ++ (d :: ds).take i).reverse).1 = decide (i ≤ n.depth) := by
        intro i h0 hi
        obtain ⟨i, rfl⟩ : ∃ j, i = j + 1 := ⟨i - 1, by omega⟩
        have := (eff_below I hn (ds.take i).reverse d h).2
        simp only [List.length_cons] at hi
        rw [show (p ++ (d :: ds).take (i + 1)).reverse = (ds.take i).reverse ++ d :: p.reverse by simp, this, List.length_reverse, List.length_take]
        rw [Nat.min_eq_left (by omega)]
      by_cases hl : ds.length + 1 > n.depth
      · rw [if_pos hl]
        dsimp only
        refine ⟨n.depth + 1, by omega, by simp; omega, rfl, ?_, ?_⟩
        · rw [key (n.depth + 1) (by omega) (by simp; omega)]; simp
        · intro i h0 hi
          rw [key i h0 (by simp; omega)]
          simp; omega
      · rw [if_neg hl]
        intro i h0 hi
        rw [key i h0 hi]
        simp at hi ⊢; omega
    | some m =>
      dsimp only
      have e1 : (eff t (p ++ (d :: ds).take 1).reverse).1 = m.pub := by
        rw [show (d :: ds).take 1 = [d] by simp, eff_of_some (n := m) (by rw [List.reverse_reverse]; exact h)]
      by_cases hpub : m.pub = true
      · rw [if_neg (by simp [hpub])]
        by_cases hd : ds = []
        · rw [if_pos hd]
          intro i h0 hi
          subst hd
          simp at hi
          rw [show i = 1 by omega, e1, hpub]
        · rw [if_neg hd]
          have := ih (p ++ [d]) (by rw [h]; rfl) hd
          have tk : ∀ i, p ++ [d] ++ ds.take i = p ++ (d :: ds).take (i + 1) := by intro i; simp
          cases hr : registeredLoop t (p ++ [d]) (p ++ [d]) ds with
          | none =>
            rw [hr] at this
            intro i h0 hi
            by_cases h1 : i = 1
            · rw [h1, e1, hpub]
            · have := this (i - 1) (by omega) (by simp at hi; omega)
              rw [tk, show i - 1 + 1 = i by omega] at this
              exact this
          | some m' =>
            rw [hr] at this
            obtain ⟨j, j1, j2, j3, j4, j5⟩ := this
            refine ⟨j + 1, by omega, by simp; omega, by rw [j3, tk], j4, ?_⟩
            intro i h0 hi
            by_cases h1 : i = 1
            · rw [h1, e1, hpub]
            · have := j5 (i - 1) (by omega) (by omega)
              rw [tk, show i - 1 + 1 = i by omega] at this
              exact this
      · rw [if_pos (by simp [hpub])]
        refine ⟨1, by omega, by simp, by simp, ?_, by omega⟩
        rw [show p ++ [d] = p ++ (d :: ds).take 1 by simp, e1]
        simpa using hpub

theorem ldhLoop_mem : ∀ (s : Bytes) (a b : Bool), ldhLoop a b s = true → ∀ x ∈ s, isAlpha x = true ∨ Text.isDigit x = true ∨ x = 45 := by
  intro s
  induction s with
  | nil => intro _ _ _ x hx; cases hx
  | cons y s ih =>
    intro a b h x hx
    rw [ldhLoop] at h
    split at h
    · rename_i h1
      rcases List.mem_cons.mp hx with rfl | hx
      · simp only [Bool.or_eq_true, Bool.and_eq_true, beq_iff_eq] at h1
        rcases h1 with (h1 | h1) | h1
        · exact .inl h1
        · exact .inr (.inl h1)
        · exact .inr (.inr h1.2)
      · exact ih _ _ h x hx
    · cases h

theorem lower_lower (s : Bytes) : lowerBytes (lowerBytes s) = lowerBytes s := by
  unfold lowerBytes
  rw [List.map_map]
  apply List.map_congr_left
  intro x _
  simp only [Function.comp, Http.lowerByte]
  split
  · rw [if_neg (by omega)]
  · rfl

theorem ldhLoop_lower : ∀ (s : Bytes) (a b : Bool), ldhLoop a b (lowerBytes s) = ldhLoop a b s := by
  intro s
  induction s with
  | nil => intro _ _; rfl
  | cons x s ih =>
    intro a b
    show ldhLoop a b (Http.lowerByte x :: lowerBytes s) = _
    rw [ldhLoop, ldhLoop, ih]
    have h1 : isAlpha (Http.lowerByte x) = isAlpha x ∧ Text.isDigit (Http.lowerByte x) = Text.isDigit x ∧ (Http.lowerByte x == 45) = (x == 45) := by
      unfold Http.lowerByte
      split
      · rename_i h
        refine ⟨?_, ?_, ?_⟩
        · rw [Bool.eq_iff_iff]; simp only [isAlpha, Bool.or_eq_true, Bool.and_eq_true, decide_eq_true_eq]; omega
        · rw [Bool.eq_iff_iff]; simp only [Text.isDigit, Bool.and_eq_true, decide_eq_true_eq]; omega
        · rw [Bool.eq_iff_iff]; simp only [beq_iff_eq]; omega
      · exact ⟨rfl, rfl, rfl⟩
    rw [h1.1, h1.2.1, h1.2.2]

theorem isLdh_lower (l : Label) : isLdh (lowerBytes l) = isLdh l := by
  unfold isLdh
  rw [ldhLoop_lower]
  simp [lowerBytes]

/-- Labels as `split_domain` returns them. -/
def Norm (l : Label) : Prop := isLdh l = true ∧ lowerBytes l = l

theorem splitLabel_norm {puny : Bytes → Option Bytes} {l a : Label} (h : splitLabel puny false l = some a) : Norm a := by
  unfold splitLabel at h
  split at h
  · rename_i h1
    cases h
    exact ⟨by rw [isLdh_lower]; exact h1, lower_lower _⟩
  · rw [if_neg (by simp)] at h
    split at h
    · cases h
    · split at h
      · rename_i h1
        cases h
        exact ⟨by rw [isLdh_lower]; exact h1, lower_lower _⟩
      · cases h

theorem split_norm {puny : Bytes → Option Bytes} {s : Bytes} {d : Domain} (h : splitDomain puny false s = some d) : ∀ l ∈ d, Norm l := by
  unfold splitDomain at h
  revert h
  generalize splitByte 46 s = ls
  induction ls generalizing d with
  | nil => intro h; simp at h; subst h; intro l hl; cases hl
  | cons l ls ih =>
    intro h
    rw [List.mapM_cons] at h
    cases h1 : splitLabel puny false l with
    | none => rw [h1] at h; cases h
    | some a =>
      rw [h1] at h
      cases h2 : ls.mapM (splitLabel puny false) with
      | none => rw [h2] at h; cases h
      | some as =>
        rw [h2] at h
        cases h
        intro x hx
        rcases List.mem_cons.mp hx with rfl | hx
        · exact splitLabel_norm h1
        · exact ih h2 x hx

theorem split_join {puny : Bytes → Option Bytes} {d : Domain} (hn : d ≠ []) (h : ∀ l ∈ d, Norm l) : splitDomain puny false (joinByte 46 d) = some d := by
  unfold splitDomain
  rw [Http.splitByte_join 46 d hn]
  · clear hn
    induction d with
    | nil => rfl
    | cons l d ih =>
      rw [List.mapM_cons, ih fun x hx => h x (by simp [hx])]
      have := h l (by simp)
      rw [show splitLabel puny false l = some l by unfold splitLabel; rw [if_pos this.1, this.2]]
      rfl
  · intro l hl hm
    have := (h l hl).1
    unfold isLdh at this
    split at this
    · cases this
    · rcases ldhLoop_mem _ _ _ this 46 hm with h | h | h
      · cases h
      · cases h
      · omega

/-- The domain with the last `j` labels. -/
def lastLabels (d : Domain) (j : Nat) : Bytes := joinByte 46 (d.drop (d.length - j))

theorem testPublic_last {puny : Bytes → Option Bytes} {t : Store} (I : t.Inv) {s : Bytes} {d : Domain} (h : splitDomain puny false s = some d) {j : Nat} (h0 : 0 < j) :
    testPublic puny t (lastLabels d j) = some (eff t (d.reverse.take j).reverse).1 := by
  have hn := split_ne_nil h
  have hl : 0 < d.length := List.length_pos_iff.mpr hn
  rw [testPublic_eff I (d := d.drop (d.length - j))]
  · rw [List.take_reverse, List.reverse_reverse]
  · apply split_join
    · intro e
      have := congrArg List.length e
      simp at this; omega
    · intro l hl; exact split_norm h l (List.mem_of_mem_drop hl)

/-- **C58**, registered domains: `get_registered_domain` returns the shortest parent (or the domain itself) that is not public, and None when
there is none: it is `j` labels long, `test_public_domain` is false of it, and true of every shorter one. -/
theorem C58_registered (puny : Bytes → Option Bytes) (k : Nat) (ops : List Op) (G : ∀ op ∈ ops, GoodOp puny op) (s : Bytes) (d : Domain)
    (h : splitDomain puny false s = some d) :
    (registered puny (after puny k ops) s = some none ∧ ∀ i, 0 < i → i ≤ d.length → testPublic puny (after puny k ops) (lastLabels d i) = some true) ∨
    ∃ j, 0 < j ∧ j ≤ d.length ∧ registered puny (after puny k ops) s = some (some (lastLabels d j)) ∧
      testPublic puny (after puny k ops) (lastLabels d j) = some false ∧
      ∀ i, 0 < i → i < j → testPublic puny (after puny k ops) (lastLabels d i) = some true := by
  have I := (after_holds puny k ops G).inv
  have := registeredLoop_spec I d.reverse [] I.root (by simpa using split_ne_nil h)
  unfold registered
  rw [h, Option.map_some]
  cases hr : registeredLoop (after puny k ops) [] [] d.reverse with
  | none =>
    rw [hr] at this
    refine .inl ⟨rfl, ?_⟩
    intro i h0 hi
    rw [testPublic_last I h h0]
    have := this i h0 (by simpa using hi)
    rw [List.nil_append] at this
    rw [this]
  | some m =>
    rw [hr] at this
    obtain ⟨j, h0, hj, rfl, h2, h3⟩ := this
    rw [List.nil_append] at h2 ⊢
    refine .inr ⟨j, h0, by simpa using hj, ?_, ?_, ?_⟩
    · simp only [Option.map_some, lastLabels, List.take_reverse, List.reverse_reverse]
    · rw [testPublic_last I h h0, h2]
    · intro i hi0 hij
      rw [testPublic_last I h hi0]
      have := h3 i hi0 hij
      rw [List.nil_append] at this
      rw [this]

/-- The expiry time in the specification of C57: a cookie has expired after its expiry time, and a session cookie never. -/
theorem C57_expired (c : Cookie) (now : Int) : c.expired now = true ↔ ∃ e, c.expires = some e ∧ e < now := by
  unfold Cookie.expired
  cases c.expires <;> simp

theorem ldhLoop_iff : ∀ (s : Bytes) (a t : Bool), ldhLoop a t s = true ↔ (∀ x ∈ s, isAlpha x = true ∨ Text.isDigit x = true ∨ x = 45) ∧ (a = false → s.head? ≠ some 45) ∧
    (s = [] → t = false) ∧ s.getLast? ≠ some 45 := by
  intro s
  induction s with
  | nil => intro a t; simp [ldhLoop]
  | cons x s ih =>
    intro a t
    rw [ldhLoop]
    by_cases h : (isAlpha x || Text.isDigit x || (a && x == 45)) = true
    · rw [if_pos h, ih]
      have hx : isAlpha x = true ∨ Text.isDigit x = true ∨ x = 45 := by
        simp only [Bool.or_eq_true, Bool.and_eq_true, beq_iff_eq] at h
        rcases h with (h | h) | h
        · exact .inl h
        · exact .inr (.inl h)
        · exact .inr (.inr h.2)
      have hh : a = false → x ≠ 45 := by
        rintro rfl rfl
        revert h; decide
      cases s with
      | nil => simp_all
      | cons y s =>
        rw [List.getLast?_cons_cons]
        simp only [List.mem_cons, List.head?_cons]
        constructor
        · rintro ⟨h1, _, _, h4⟩
          exact ⟨fun z hz => by rcases hz with rfl | hz; exact hx; exact h1 z hz, fun ha => by simpa using hh ha, by simp, h4⟩
        · rintro ⟨h1, _, _, h4⟩
          exact ⟨fun z hz => h1 z (.inr hz), by simp, by simp, h4⟩
    · rw [if_neg h]
      constructor
      · intro h'; cases h'
      · rintro ⟨h1, h2, _⟩
        exfalso; apply h
        simp only [Bool.or_eq_true, Bool.and_eq_true, beq_iff_eq]
        rcases h1 x (by simp) with h3 | h3 | h3
        · exact .inl (.inl h3)
        · exact .inl (.inr h3)
        · refine .inr ⟨?_, h3⟩
          cases a with
          | true => rfl
          | false => exact absurd (by rw [h3]; rfl) (h2 rfl)

/-- The labels of a domain name in the specification of C57 and C58: letters, digits and hyphens, at most 63, with no hyphen at the ends. -/
def IsLabel (l : Label) : Prop := l ≠ [] ∧ l.length ≤ 63 ∧ (∀ x ∈ l, isAlpha x = true ∨ Text.isDigit x = true ∨ x = 45) ∧ l.head? ≠ some 45 ∧ l.getLast? ≠ some 45

theorem isLdh_iff (l : Label) : isLdh l = true ↔ IsLabel l := by
  unfold isLdh IsLabel
  by_cases h : (l.isEmpty || decide (l.length > 63)) = true
  · rw [if_pos h]
    simp only [Bool.or_eq_true, List.isEmpty_iff, decide_eq_true_eq] at h
    constructor
    · intro h'; cases h'
    · rintro ⟨h1, h2, _⟩
      rcases h with h | h
      · exact absurd h h1
      · omega
  · rw [if_neg h, ldhLoop_iff]
    simp only [Bool.or_eq_true, List.isEmpty_iff, decide_eq_true_eq, not_or] at h
    constructor
    · rintro ⟨h1, h2, _, h4⟩; exact ⟨h.1, by omega, h1, h2 rfl, h4⟩
    · rintro ⟨_, _, h1, h2, h4⟩; exact ⟨h1, fun _ => h2, fun e => absurd e h.1, h4⟩

/-- Domain names of such labels are split at the dots and compared without case; all labels that are produced are such labels in lower case. -/
theorem C57_domain_names (puny : Bytes → Option Bytes) :
    (∀ d : Domain, d ≠ [] → (∀ l ∈ d, IsLabel l) → splitDomain puny false (joinByte 46 d) = some (d.map lowerBytes)) ∧
    ∀ s d, splitDomain puny false s = some d → d ≠ [] ∧ ∀ l ∈ d, IsLabel l ∧ lowerBytes l = l := by
  refine ⟨?_, ?_⟩
  · intro d hn h
    unfold splitDomain
    rw [Http.splitByte_join 46 d hn]
    · clear hn
      induction d with
      | nil => rfl
      | cons l d ih =>
        rw [List.mapM_cons, ih fun x hx => h x (by simp [hx])]
        have := (isLdh_iff l).mpr (h l (by simp))
        rw [show splitLabel puny false l = some (lowerBytes l) by unfold splitLabel; rw [if_pos this]]
        rfl
    · intro l hl hm
      rcases (h l hl).2.2.1 46 hm with h | h | h
      · cases h
      · cases h
      · omega
  · intro s d h
    refine ⟨split_ne_nil h, fun l hl => ?_⟩
    obtain ⟨h1, h2⟩ := split_norm h l hl
    exact ⟨(isLdh_iff l).mp h1, h2⟩

/-! ### Witnesses for C57 and C58 -/

/-- Bytes of a text. -/
def txt (s : String) : Bytes := s.toList.map Char.toNat
/-- No international domain names. -/
def noPuny : Bytes → Option Bytes := fun _ => none
/-- A page on a host. -/
def page (host path : String) : Url := ⟨txt host, some (txt path), true, false⟩
/-- A cookie for a domain and a path. -/
def biscuit (name : String) (domain path : Option String) : Cookie := ⟨txt name, txt "v", path.map txt, domain.map txt, false, false, 100, none⟩

/-- The rules of a small public suffix list, and three cookies. -/
def sampleOps : List Op :=
  [.set (page "shop.example.co.uk" "/cart/view") (biscuit "c" none none) 102,
   .set (page "shop.example.co.uk" "/") (biscuit "b" (some "co.uk") (some "/")) 101,
   .set (page "www.example.co.uk" "/") (biscuit "a" (some "example.co.uk") (some "/")) 100,
   .addPrivate (txt "www.ck"), .addPublic (txt "*.ck"), .addPublic (txt "co.uk")]

theorem sampleOps_good : ∀ op ∈ sampleOps, GoodOp noPuny op := by
  intro op hop
  simp only [sampleOps, List.mem_cons, List.not_mem_nil, or_false] at hop
  rcases hop with rfl | rfl | rfl | rfl | rfl | rfl
  · trivial
  · trivial
  · trivial
  · intro d hd
    have : splitDomain noPuny true (txt "www.ck") = some [txt "www", txt "ck"] := by decide +kernel
    rw [this] at hd; cases hd; decide +kernel
  · intro d hd
    have : splitDomain noPuny true (txt "*.ck") = some [star, txt "ck"] := by decide +kernel
    rw [this] at hd; cases hd; decide +kernel
  · intro d hd
    have : splitDomain noPuny true (txt "co.uk") = some [txt "co", txt "uk"] := by decide +kernel
    rw [this] at hd; cases hd; decide +kernel

/-- The hypotheses of C57 are met: the cookie for the domain goes to the other host of the domain, the one for `co.uk` was refused. -/
example : ((search noPuny (after noPuny 1 sampleOps) (page "pay.example.co.uk" "/x") 103).2 = some [biscuit "a" (some "example.co.uk") (some "/")]) ∧
    ((searchLoop (page "shop.example.co.uk" "/cart/pay") 103 (after noPuny 1 sampleOps) [] [txt "uk", txt "co", txt "example", txt "shop"]).2 =
      [biscuit "a" (some "example.co.uk") (some "/"), biscuit "c" none (some "/cart")]) ∧
    ((search noPuny (after noPuny 1 sampleOps) (page "example.com" "/") 103).2 = some []) := by decide +kernel

/-- The hypotheses of C58 are met. -/
example : testPublic noPuny (after noPuny 1 sampleOps) (txt "CO.UK") = some true ∧ testPublic noPuny (after noPuny 1 sampleOps) (txt "x.ck") = some true ∧
    testPublic noPuny (after noPuny 1 sampleOps) (txt "www.ck") = some false ∧ testPublic noPuny (after noPuny 1 sampleOps) (txt "example.co.uk") = some false ∧
    registered noPuny (after noPuny 1 sampleOps) (txt "a.b.example.co.uk") = some (some (txt "example.co.uk")) ∧
    registered noPuny (after noPuny 1 sampleOps) (txt "a.www.ck") = some (some (txt "www.ck")) ∧
    registered noPuny (after noPuny 1 sampleOps) (txt "co.uk") = some none := by decide +kernel

/-- **C58**, violation: a rule makes its parents public when they are not in the tree yet. The public suffix list has the rule `s3.amazonaws.com`, but
`amazonaws.com` is not a public suffix. -/
theorem C58_parent_violation :
    testPublic noPuny (after noPuny 1 [.addPublic (txt "s3.amazonaws.com")]) (txt "amazonaws.com") = some true ∧
    ¬ ∃ r ∈ publicRules noPuny [.addPublic (txt "s3.amazonaws.com")], Covers r [txt "amazonaws", txt "com"] := by
  refine ⟨by decide +kernel, ?_⟩
  have : publicRules noPuny [.addPublic (txt "s3.amazonaws.com")] = [[txt "s3", txt "amazonaws", txt "com"]] := by decide +kernel
  rw [this]
  rintro ⟨r, hr, h⟩
  rw [List.mem_singleton] at hr
  subst hr
  rcases h with h | ⟨R, x, h, _⟩
  · have := congrArg List.length h; simp at this
  · have := (List.cons.inj h).1
    revert this; decide +kernel

/-- **C57**, violation: a cookie is not returned for a request whose path is identical to that of the cookie. -/
theorem C57_path_violation : ∃ ops, (∀ op ∈ ops, GoodOp noPuny op) ∧ ∃ url host e u, (splitDomain noPuny false url.host).map List.reverse = some host ∧
    e ∈ jarAfter noPuny 1 ops ∧ ToSend url host 101 e ∧ url.path = some u ∧ pathMatch u (e.2.path.getD []) ∧
    (search noPuny (after noPuny 1 ops) url 101).2 = some [] := by
  refine ⟨[.set (page "example.com" "/foo/") (biscuit "a" none (some "/foo")) 100], ?_, page "example.com" "/foo", [txt "com", txt "example"],
    ([txt "com", txt "example"], biscuit "a" none (some "/foo")), txt "/foo", by decide +kernel, by decide +kernel, ?_, rfl, .inl (by decide +kernel), by decide +kernel⟩
  · intro op hop
    rw [List.mem_singleton] at hop
    subst hop; trivial
  · exact ⟨by decide +kernel, by decide +kernel, by decide +kernel, by decide +kernel⟩

/-- **C57**, violation: IP addresses are treated like domain names, so that a cookie set by one address is sent to another. -/
theorem C57_address_violation :
    (search noPuny (after noPuny 1 [.set (page "127.0.0.1" "/") (biscuit "a" (some "0.0.1") (some "/")) 100]) (page "5.0.0.1" "/") 101).2 =
      some [biscuit "a" (some "0.0.1") (some "/")] := by decide +kernel

/-- **C57**, violation: for a request to a host with an underscore in its name the store raises UnboundLocalError. -/
theorem C57_host_violation (k : Nat) (ops : List Op) (c : Cookie) (now : Int) (hc : c.httpOnly = false) :
    (search noPuny (after noPuny k ops) (page "my_host.example.com" "/") now).2 = none ∧
    (setCookie noPuny (after noPuny k ops) (page "my_host.example.com" "/") c now).2 = some .unbound := by
  have h : hostOf noPuny (page "my_host.example.com" "/").host = none := by decide +kernel
  refine ⟨?_, ?_⟩
  · unfold search; rw [h]
  · unfold setCookie; rw [h, hc]; simp

/-- A cookie without a Path gets the directory of the page: what is before the last '/', or '/'. -/
theorem C57_default_path (a b : Bytes) (hb : 47 ∉ b) : defaultPath (some (47 :: a ++ 47 :: b)) = 47 :: a ∧ defaultPath (some (47 :: b)) = [47] ∧ defaultPath none = [47] := by
  refine ⟨?_, ?_, rfl⟩
  · unfold defaultPath
    dsimp only
    rw [if_pos (by simp)]
    have hs : ∀ x : Bytes, splitByte 47 (x ++ 47 :: b) = splitByte 47 x ++ [b] := by
      intro x
      have hb' : splitByte 47 b = [b] := by
        have := Http.splitByte_join 47 [b] (by simp) (by simpa using hb)
        simpa [joinByte] using this
      induction x with
      | nil => simp [splitByte, hb']
      | cons y x ih =>
        rw [List.cons_append, splitByte, splitByte]
        by_cases hy : y = 47
        · rw [if_pos hy, if_pos hy, ih]; rfl
        · rw [if_neg hy, if_neg hy, ih]
          cases h0 : splitByte 47 x with
          | nil => exact absurd h0 (splitByte_ne_nil _ _)
          | cons p q => rfl
    have h1 : splitByte 47 (47 :: a) = [] :: splitByte 47 a := by rw [splitByte, if_pos rfl]
    have h2 := splitByte_ne_nil 47 a
    have hj : ∀ x : Bytes, joinByte 47 (splitByte 47 x) = x := by
      intro x
      induction x with
      | nil => rfl
      | cons y x ih =>
        rw [splitByte]
        by_cases hy : y = 47
        · rw [if_pos hy]
          cases h0 : splitByte 47 x with
          | nil => exact absurd h0 (splitByte_ne_nil _ _)
          | cons p q => rw [h0] at ih; show [] ++ 47 :: joinByte 47 (p :: q) = _; rw [ih, hy]; rfl
        · rw [if_neg hy]
          cases h0 : splitByte 47 x with
          | nil => exact absurd h0 (splitByte_ne_nil _ _)
          | cons p q =>
            rw [h0] at ih
            dsimp only
            cases q with
            | nil => rw [show joinByte 47 [p] = p from rfl] at ih; show y :: p = _; rw [ih]
            | cons q qs =>
              show (y :: p) ++ 47 :: joinByte 47 (q :: qs) = _
              rw [List.cons_append]
              congr 1
    rw [hs, List.dropLast_concat, hj, if_pos]
    rw [h1]
    have := List.length_pos_iff.mpr h2
    simp only [List.length_append, List.length_cons, List.length_nil]; omega
  · unfold defaultPath
    dsimp only
    rw [if_pos (by simp)]
    have hb' : splitByte 47 b = [b] := by
      have := Http.splitByte_join 47 [b] (by simp) (by simpa using hb)
      simpa [joinByte] using this
    rw [splitByte, if_pos rfl, hb', if_neg (by simp)]

example : defaultPath (some (txt "/a/b/c.html")) = txt "/a/b" := by decide +kernel

end Verif.Cookie

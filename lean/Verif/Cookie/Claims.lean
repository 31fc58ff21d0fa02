import Verif.Cookie.Rules
/-!
# C57 and C58: claims about the cookie store
-/
namespace Verif.Cookie
open Http (Bytes splitByte joinByte lowerBytes)

/-! ## The store after any operations -/

theorem storeOfDepth_inv (k : Nat) : (storeOfDepth k).Inv := by
  have h : ∀ q, q ≠ [] → storeOfDepth k q = none := fun q hq => by simp [storeOfDepth, hq]
  refine ⟨by simp [storeOfDepth], ?_, ?_, ?_⟩
  · intro p d hs; rw [h _ (by simp)] at hs; cases hs
  · intro q hq; exact h q (List.ne_nil_of_mem hq)
  · intro q n hs hp
    by_cases hq : q = []
    · subst hq; simp [storeOfDepth] at hs; rw [← hs]
    · rw [h q hq] at hs; cases hs

theorem addPublic_split {puny : Bytes → Option Bytes} {t : Store} {s : Bytes} {d : Domain} (h : splitDomain puny true s = some d) :
    (addPublic puny t s).getD t = publicLoop t [] d.reverse := by simp [addPublic, h]

theorem addPrivate_split {puny : Bytes → Option Bytes} {t : Store} {s : Bytes} {d : Domain} (h : splitDomain puny true s = some d) :
    (addPrivate puny t s).getD t = privateLoop t [] d.reverse := by simp [addPrivate, h]

theorem public_step {puny : Bytes → Option Bytes} {t : Store} (I : t.Inv) {s : Bytes} (G : GoodOp puny (.addPublic s)) {d : Domain} (h : splitDomain puny true s = some d) :
    PublicSpec t (step puny t (.addPublic s)) [] d.reverse := by
  show PublicSpec t ((addPublic puny t s).getD t) [] d.reverse
  rw [addPublic_split h]
  apply publicLoop_spec _ _ _ I I.root (by simp)
  rw [List.dropLast_reverse]
  have := G d h
  simpa using this

theorem private_step {puny : Bytes → Option Bytes} {t : Store} (I : t.Inv) {s : Bytes} (G : GoodOp puny (.addPrivate s)) {d : Domain} (h : splitDomain puny true s = some d) :
    (step puny t (.addPrivate s)).Inv ∧ (∀ q, cookiesAt (step puny t (.addPrivate s)) q = cookiesAt t q) ∧
      (∀ q, isPriv (step puny t (.addPrivate s)) q = (isPriv t q || decide (q = d.reverse))) ∧
      (∀ r, (eff (step puny t (.addPrivate s)) r).1 = ((eff t r).1 && !decide (r.reverse = d.reverse))) := by
  have := privateLoop_spec d.reverse t [] I I.root (by have := G d h; simpa using this) (by simpa using split_ne_nil h)
  rw [List.nil_append] at this
  show ((addPrivate puny t s).getD t).Inv ∧ _
  simp only [step, addPrivate_split h]
  exact this

theorem step_holds {puny : Bytes → Option Bytes} {t : Store} {j : Jar} (H : Holds t j) (op : Op) (G : GoodOp puny op) :
    Holds (step puny t op) (j.step puny (fun d => testLoop t [] d) op) := by
  cases op with
  | set url c now => exact (setCookie_spec puny H url c now).1
  | search url now => exact (search_holds puny H url now _).1
  | expire now => exact (removeAll_holds H _).1
  | endSession now => exact (removeAll_holds H _).1
  | addPublic s =>
    cases h : splitDomain puny true s with
    | none => simp only [step, addPublic, h, Option.map_none, Option.getD_none]; exact H
    | some d =>
      have S := public_step H.inv G h
      exact ⟨S.inv, fun q => by rw [S.cookies, H.cookies]; rfl, H.ne⟩
  | addPrivate s =>
    cases h : splitDomain puny true s with
    | none => simp only [step, addPrivate, h, Option.map_none, Option.getD_none]; exact H
    | some d =>
      obtain ⟨a, b, _, _⟩ := private_step H.inv G h
      exact ⟨a, fun q => by rw [b, H.cookies]; rfl, H.ne⟩

theorem after_holds (puny : Bytes → Option Bytes) (k : Nat) : ∀ ops : List Op, (∀ op ∈ ops, GoodOp puny op) → Holds (after puny k ops) (jarAfter puny k ops) := by
  intro ops
  induction ops with
  | nil =>
    intro _
    refine ⟨storeOfDepth_inv k, ?_, by intro e he; cases he⟩
    intro d
    show cookiesAt (storeOfDepth k) d = []
    unfold cookiesAt storeOfDepth
    by_cases h : d = []
    · simp [h]
    · simp [h]
  | cons op ops ih =>
    intro G
    exact step_holds (ih fun o ho => G o (by simp [ho])) op (G op (by simp))

/-! ## C57 -/

theorem pathTest_iff (u : Option Bytes) (path : Bytes) : pathTest u path = true ↔ ∃ v, u = some v ∧ strictPathMatch v path := by
  cases u with
  | none => simp [pathTest]
  | some v =>
    simp only [pathTest, Bool.and_eq_true, Bool.not_eq_true', decide_eq_false_iff_not, List.isPrefixOf_iff_prefix, Bool.or_eq_true, beq_iff_eq, Option.some.injEq, exists_eq_left', strictPathMatch]
    have h1 : (v.drop path.length).take 1 = [47] ↔ v[path.length]? = some 47 := by
      have h0 : (v.drop path.length)[0]? = v[path.length]? := by rw [List.getElem?_drop]; rfl
      rw [← h0]
      cases v.drop path.length with
      | nil => simp
      | cons b r => simp
    rw [h1]
    constructor
    · rintro ⟨_, h⟩; exact h
    · intro h
      have := h.1.length_le
      exact ⟨by omega, h⟩

theorem sel_iff {j : Jar} (hj : ∀ e ∈ j, e.1 ≠ []) (url : Url) (host : Domain) (now : Int) {e : Domain × Cookie} (he : e ∈ j) :
    sel url now [] host e = true ↔ ToSend url host now e ∧ ∃ u, url.path = some u ∧ strictPathMatch u (e.2.path.getD []) := by
  have hne := List.length_pos_iff.mpr (hj e he)
  unfold sel cookieTest
  simp only [List.nil_append, Bool.and_eq_true, decide_eq_true_eq, Bool.not_eq_true', Bool.and_eq_false_imp, pathTest_iff, Option.isNone_iff_eq_none]
  constructor
  · rintro ⟨⟨⟨_, _⟩, h3⟩, ⟨⟨⟨⟨h4, h5⟩, h6⟩, h7⟩, h8⟩⟩
    refine ⟨⟨h4, ?_, ?_, ?_⟩, h6⟩
    · by_cases hd : e.2.domain = none
      · rw [if_pos hd]; simpa using h5 hd
      · rw [if_neg hd]; exact h3
    · intro h; simpa using h7 h
    · intro h; simpa using h8 h
  · rintro ⟨⟨h1, h2, h3, h4⟩, h5⟩
    have hp : e.1 <+: host := by
      split at h2
      · rw [h2]; exact List.prefix_refl _
      · exact h2
    refine ⟨⟨⟨by simpa using hne, List.nil_prefix⟩, hp⟩, ⟨⟨⟨⟨h1, ?_⟩, h5⟩, ?_⟩, ?_⟩⟩
    · intro hd; rw [if_pos hd] at h2; simpa using h2
    · intro h; simpa using h3 h
    · intro h; simpa using h4 h

theorem keyLe_iff (a b : Cookie) : keyLe a b = true ↔ SortedBefore a b := by
  simp [keyLe, SortedBefore]

open Classical in
/-- **C57**: after any operations, a search for the cookies of a request returns exactly the cookies that were accepted, not replaced and not
expired, whose domain, path, `Secure` and `HttpOnly` attributes fit the request, in the order RFC 6265 prescribes. A cookie whose path is
identical to that of the request is returned only if the path ends in '/'. -/
theorem C57_search_partial (puny : Bytes → Option Bytes) (k : Nat) (ops : List Op) (G : ∀ op ∈ ops, GoodOp puny op) (url : Url) (now : Int) (host : Domain)
    (hh : (splitDomain puny false url.host).map List.reverse = some host) :
    ∃ l, (search puny (after puny k ops) url now).2 = some l ∧ l.Pairwise SortedBefore ∧
      l.Perm (((jarAfter puny k ops).filter fun e => decide (ToSend url host now e ∧ ∃ u, url.path = some u ∧ strictPathMatch u (e.2.path.getD []))).map (·.2)) := by
  have H := after_holds puny k ops G
  unfold search hostOf
  rw [hh]
  dsimp only
  refine ⟨_, rfl, ?_, ?_⟩
  · have hs := List.pairwise_mergeSort (le := keyLe) (by
      intro a b c h1 h2
      rw [keyLe_iff] at *
      unfold SortedBefore at *
      omega) (by
      intro a b
      rw [Bool.or_eq_true, keyLe_iff, keyLe_iff]
      unfold SortedBefore
      omega) (searchLoop url now (after puny k ops) [] host).2
    exact hs.imp (fun {a b} h => (keyLe_iff a b).mp h)
  · refine (List.mergeSort_perm _ _).trans ?_
    obtain ⟨f1, _⟩ := searchLoop_spec url now (jarAfter puny k ops) host (after puny k ops) [] H.inv (fun d _ => H.cookies d)
    refine f1.trans ?_
    have : (jarAfter puny k ops).filter (sel url now [] host) =
        (jarAfter puny k ops).filter fun e => decide (ToSend url host now e ∧ ∃ u, url.path = some u ∧ strictPathMatch u (e.2.path.getD [])) := by
      apply List.filter_congr
      intro e he
      rw [Bool.eq_iff_iff, decide_eq_true_eq]
      exact sel_iff H.ne url host now he
    rw [this]

/-- **C57**: `set_cookie` raises exactly when the cookie is not to be accepted; the public domains are those `test_public_domain` reports. -/
theorem C57_set (puny : Bytes → Option Bytes) (k : Nat) (ops : List Op) (G : ∀ op ∈ ops, GoodOp puny op) (url : Url) (c : Cookie) (now : Int) :
    (setCookie puny (after puny k ops) url c now).2 = none ↔ (accepted puny (fun d => testLoop (after puny k ops) [] d) url c).isSome :=
  (setCookie_spec puny (after_holds puny k ops G) url c now).2.2.2

theorem step_mem {puny : Bytes → Option Bytes} {pub : Domain → Bool} {j : Jar} {op : Op} {e : Domain × Cookie} (h : e ∈ j.step puny pub op) :
    e ∈ j ∨ ∃ url c now c', op = .set url c now ∧ accepted puny pub url c = some (e.1, c') ∧ ∃ t, e.2 = { c' with creation := t } := by
  cases op with
  | set url c now =>
    simp only [Jar.step] at h
    cases ha : accepted puny pub url c with
    | none => rw [ha] at h; exact .inl h
    | some x =>
      obtain ⟨dom, c'⟩ := x
      rw [ha] at h
      dsimp only [Jar.put] at h
      rcases List.mem_append.mp h with h | h
      · exact .inl (List.mem_filter.mp h).1
      · split at h
        · cases h
        · rw [List.mem_singleton] at h
          subst h
          exact .inr ⟨url, c, now, c', rfl, ha, _, rfl⟩
  | search url now =>
    simp only [Jar.step] at h
    split at h
    · exact .inl h
    · exact .inl (List.mem_filter.mp h).1
  | expire now => exact .inl (List.mem_filter.mp h).1
  | endSession now => exact .inl (List.mem_filter.mp h).1
  | addPublic s => exact .inl h
  | addPrivate s => exact .inl h

/-- **C57**, confidentiality: every cookie that is returned for a request was set in the history, by a response from a host such that either the
request goes to the same host, or the cookie has a Domain attribute that names a common parent domain (or one of the two hosts) that was not
public when it was set; and secure cookies are returned only for https. -/
theorem C57_safe (puny : Bytes → Option Bytes) (k : Nat) (ops : List Op) (G : ∀ op ∈ ops, GoodOp puny op) (url : Url) (now : Int) (l : List Cookie)
    (hl : (search puny (after puny k ops) url now).2 = some l) (x : Cookie) (hx : x ∈ l) :
    ∃ before url0 c0 now0 later, ops = later ++ .set url0 c0 now0 :: before ∧ x.name = c0.name ∧ x.value = c0.value ∧ x.secure = c0.secure ∧ x.httpOnly = c0.httpOnly ∧
      (x.secure = true → url.https = true) ∧ x.expired now = false ∧
      (splitDomain puny false url.host = splitDomain puny false url0.host ∨
        ∃ s d h h0, c0.domain = some s ∧ splitDomain puny false s = some d ∧ splitDomain puny false url.host = some h ∧ splitDomain puny false url0.host = some h0 ∧
          d <:+ h ∧ d <:+ h0 ∧ testPublic puny (after puny k before) s = some false) := by
  cases hh : splitDomain puny false url.host with
  | none => simp [search, hostOf, hh] at hl
  | some hlab =>
    obtain ⟨l', h1, _, h3⟩ := C57_search_partial puny k ops G url now hlab.reverse (by rw [hh]; rfl)
    rw [hl] at h1
    cases h1
    have hx' := h3.subset hx
    obtain ⟨e, he, rfl⟩ := List.mem_map.mp hx'
    obtain ⟨he1, he2⟩ := List.mem_filter.mp he
    simp only [decide_eq_true_eq] at he2
    obtain ⟨T, _⟩ := he2
    -- where the entry comes from
    have orig : ∀ (ops : List Op), e ∈ jarAfter puny k ops → ∃ before url0 c0 now0 later c', ops = later ++ .set url0 c0 now0 :: before ∧
        accepted puny (fun d => testLoop (after puny k before) [] d) url0 c0 = some (e.1, c') ∧ ∃ t, e.2 = { c' with creation := t } := by
      intro ops
      induction ops with
      | nil => intro h; cases h
      | cons op ops ih =>
        intro h
        rcases step_mem h with h | ⟨u, c, n, c', rfl, h2, h3⟩
        · obtain ⟨b, u, c, n, la, c', rfl, h2, h3⟩ := ih h
          exact ⟨b, u, c, n, op :: la, c', rfl, h2, h3⟩
        · exact ⟨ops, u, c, n, [], c', rfl, h2, h3⟩
    obtain ⟨before, url0, c0, now0, later, c', h1, h2, t, h3⟩ := orig ops he1
    refine ⟨before, url0, c0, now0, later, h1, ?_⟩
    have hdom := T.domain
    have hsec := T.secure
    have hfr := T.fresh
    unfold accepted at h2
    split at h2
    · cases h2
    · cases hh0 : splitDomain puny false url0.host with
      | none => rw [hh0] at h2; cases h2
      | some h0 =>
        rw [hh0] at h2
        simp only [Option.map_some] at h2
        cases hd : c0.domain with
        | none =>
          rw [hd] at h2
          simp only [Option.some.injEq, Prod.mk.injEq] at h2
          obtain ⟨h2a, h2b⟩ := h2
          rw [h3, ← h2b] at hsec hfr hdom ⊢
          refine ⟨rfl, rfl, rfl, rfl, hsec, hfr, .inl ?_⟩
          dsimp only at hdom
          rw [if_pos rfl, ← h2a] at hdom
          rw [List.reverse_inj.mp hdom]
        | some s =>
          rw [hd] at h2
          dsimp only at h2
          cases hs : splitDomain puny false s with
          | none => rw [hs] at h2; cases h2
          | some d =>
            rw [hs] at h2
            simp only [Option.map_some] at h2
            split at h2
            · cases h2
            · rename_i hpre
              have hpre : d.reverse <+: h0.reverse := Decidable.not_not.mp hpre
              split at h2
              · -- a public domain: only the host itself
                split at h2
                · simp only [Option.some.injEq, Prod.mk.injEq] at h2
                  obtain ⟨h2a, h2b⟩ := h2
                  rw [h3, ← h2b] at hsec hfr hdom ⊢
                  refine ⟨rfl, rfl, rfl, rfl, hsec, hfr, .inl ?_⟩
                  dsimp only at hdom
                  rw [if_pos rfl, ← h2a] at hdom
                  rw [List.reverse_inj.mp hdom]
                · cases h2
              · rename_i hpub
                simp only [Option.some.injEq, Prod.mk.injEq] at h2
                obtain ⟨h2a, h2b⟩ := h2
                rw [h3, ← h2b] at hsec hfr hdom ⊢
                refine ⟨rfl, rfl, rfl, rfl, hsec, hfr, .inr ⟨s, d, hlab, h0, rfl, hs, rfl, rfl, ?_, ?_, ?_⟩⟩
                · dsimp only at hdom
                  rw [if_neg (by simp), ← h2a] at hdom
                  exact List.reverse_prefix.mp hdom
                · exact List.reverse_prefix.mp hpre
                · simp only [testPublic, hs, Option.map_some]
                  simpa using hpub

end Verif.Cookie

import Verif.Cookie.Tree
/-!
# C57: the cookie store returns the right cookies
-/
namespace Verif.Cookie
open Http (Bytes splitByte joinByte lowerBytes)

/-- The operations on a cookie store. -/
inductive Op where
  | set (url : Url) (c : Cookie) (now : Int)
  | search (url : Url) (now : Int)
  | expire (now : Int)
  | endSession (now : Int)
  | addPublic (s : Bytes)
  | addPrivate (s : Bytes)

/-- One operation; an operation that raises may have added nodes to the tree. -/
def step (puny : Bytes → Option Bytes) (t : Store) : Op → Store
  | .set url c now => (setCookie puny t url c now).1
  | .search url now => (search puny t url now).1
  | .expire now => removeAll t fun c => c.expired now
  | .endSession now => removeAll t fun c => c.expired now || c.expires.isNone
  | .addPublic s => (addPublic puny t s).getD t
  | .addPrivate s => (addPrivate puny t s).getD t

/-- A store whose `public_depth` is `k` (255 by default, `tld_depth` after `set_public_list`, cookie.py:1389). -/
def storeOfDepth (k : Nat) : Store := fun q => if q = [] then some ⟨false, false, k, []⟩ else none

/-- The store after some operations, the latest first. -/
def after (puny : Bytes → Option Bytes) (k : Nat) : List Op → Store
  | [] => storeOfDepth k
  | op :: ops => step puny (after puny k ops) op

/-- Rules of the public suffix list: a wildcard is only at the front (for exceptions: nowhere). -/
def GoodOp (puny : Bytes → Option Bytes) : Op → Prop
  | .addPublic s => ∀ d, splitDomain puny true s = some d → star ∉ d.tail
  | .addPrivate s => ∀ d, splitDomain puny true s = some d → star ∉ d
  | _ => True

/-! ## Specification -/

/-- The cookies that a user agent has, each with its domain (top-level label first). -/
abbrev Jar := List (Domain × Cookie)

/-- What RFC 6265 says of a received cookie: its domain and what is stored, or that it is ignored. -/
def accepted (puny : Bytes → Option Bytes) (pub : Domain → Bool) (url : Url) (c : Cookie) : Option (Domain × Cookie) :=
  if c.httpOnly = true ∧ url.http = false then none
  else match (splitDomain puny false url.host).map List.reverse with
  | none => none
  | some host =>
    let c' := { c with path := some (c.path.getD (defaultPath url.path)) }
    match c.domain with
      | none => some (host, c')
      | some s => match (splitDomain puny false s).map List.reverse with
        | none => none
        | some dom =>
          if ¬ dom <+: host then none
          else if pub dom = true then if dom = host then some (host, { c' with domain := none }) else none
          else some (dom, c')

/-- Same domain, name and path. -/
def same (dom : Domain) (c : Cookie) (e : Domain × Cookie) : Bool := decide (e.1 = dom ∧ e.2.name = c.name ∧ e.2.path = c.path)

/-- A cookie replaces the one with the same domain, name and path, and keeps its creation time; it is not stored when it has expired. -/
def Jar.put (j : Jar) (dom : Domain) (c : Cookie) (now : Int) : Jar :=
  let c := { c with creation := ((j.find? (same dom c)).map fun e => e.2.creation).getD c.creation }
  j.filter (fun e => !same dom c e) ++ (if c.expired now then [] else [(dom, c)])

/-- The cookies after an operation; `pub` are the public domains. Searching removes the expired cookies that it meets. -/
def Jar.step (puny : Bytes → Option Bytes) (pub : Domain → Bool) (j : Jar) : Op → Jar
  | .set url c now => match accepted puny pub url c with
    | none => j
    | some (dom, c) => j.put dom c now
  | .search url now => match (splitDomain puny false url.host).map List.reverse with
    | none => j
    | some host => j.filter fun e => !(decide (e.1 <+: host) && e.2.expired now)
  | .expire now => j.filter fun e => !e.2.expired now
  | .endSession now => j.filter fun e => !(e.2.expired now || e.2.expires.isNone)
  | .addPublic _ => j
  | .addPrivate _ => j

/-- The cookies after some operations (the latest first); the public domains are those `test_public_domain` reports at the time. -/
def jarAfter (puny : Bytes → Option Bytes) (k : Nat) : List Op → Jar
  | [] => []
  | op :: ops => (jarAfter puny k ops).step puny (fun d => testLoop (after puny k ops) [] d) op

/-- The path match of RFC 6265, section 5.1.4. -/
def pathMatch (u path : Bytes) : Prop := u = path ∨ (path <+: u ∧ (path.getLast? = some 47 ∨ u[path.length]? = some 47))

/-- The path match of the code: identical paths do not match unless they end in '/'. -/
def strictPathMatch (u path : Bytes) : Prop := path <+: u ∧ (path.getLast? = some 47 ∨ u[path.length]? = some 47)

/-- A cookie that is to be sent with a request, but for its path. -/
structure ToSend (url : Url) (host : Domain) (now : Int) (e : Domain × Cookie) : Prop where
  fresh : e.2.expired now = false
  domain : if e.2.domain = none then e.1 = host else e.1 <+: host
  secure : e.2.secure = true → url.https = true
  httpOnly : e.2.httpOnly = true → url.http = true

/-- Longer paths first, then older cookies. -/
def SortedBefore (a b : Cookie) : Prop :=
  (b.path.getD []).length < (a.path.getD []).length ∨ ((b.path.getD []).length = (a.path.getD []).length ∧ a.creation ≤ b.creation)

/-! ## Proofs -/

theorem domainIn_iff : ∀ (a b : Domain), domainIn a b = true ↔ a <+: b := by
  intro a
  induction a with
  | nil => intro b; simp [domainIn]
  | cons d a ih =>
    intro b
    cases b with
    | nil => simp [domainIn]
    | cons e b =>
      rw [domainIn]
      by_cases h : d ≠ e
      · rw [if_pos h]; simp [List.cons_prefix_cons, h]
      · rw [if_neg h, ih, List.cons_prefix_cons]
        have : d = e := Decidable.not_not.mp h
        simp [this]

theorem ldh_lower {l : Label} (h : isLdh l = true) : lowerBytes l ≠ star := by
  intro e
  match l, h with
  | [], h => cases h
  | [b], h =>
    unfold isLdh at h
    simp only [List.isEmpty_cons, List.length_singleton, Bool.false_or] at h
    rw [if_neg (by simp)] at h
    simp only [ldhLoop, Bool.false_and, Bool.or_false] at h
    simp only [lowerBytes, List.map_cons, List.map_nil, star, List.cons.injEq, and_true] at e
    have hb : b < 128 := by
      split at h
      · rename_i h1
        simp only [isAlpha, Text.isDigit, Bool.or_eq_true, Bool.and_eq_true, decide_eq_true_eq] at h1
        omega
      · cases h
    have key : ∀ b < 128, (isAlpha b || Text.isDigit b) = true → Http.lowerByte b ≠ 42 := by decide +kernel
    split at h
    · rename_i h1; exact key b hb h1 e
    · cases h
  | b :: c :: r, _ => simp [lowerBytes, star] at e

theorem mapM_mem {α β : Type} {f : α → Option β} : ∀ {l : List α} {r : List β}, l.mapM f = some r → ∀ x ∈ r, ∃ a ∈ l, f a = some x := by
  intro l
  induction l with
  | nil => intro r h x hx; simp at h; subst h; cases hx
  | cons a l ih =>
    intro r h x hx
    rw [List.mapM_cons] at h
    cases h1 : f a with
    | none => rw [h1] at h; simp at h
    | some b =>
      cases h2 : l.mapM f with
      | none => rw [h1, h2] at h; simp at h
      | some r' =>
        rw [h1, h2] at h
        simp at h
        subst h
        rcases List.mem_cons.mp hx with rfl | hx
        · exact ⟨a, by simp, h1⟩
        · obtain ⟨y, hy, hf⟩ := ih h2 x hx
          exact ⟨y, by simp [hy], hf⟩

theorem split_noStar {puny : Bytes → Option Bytes} {s : Bytes} {d : Domain} (h : splitDomain puny false s = some d) : star ∉ d := by
  intro hm
  obtain ⟨l, _, hl⟩ := mapM_mem h star hm
  unfold splitLabel at hl
  by_cases h1 : isLdh l = true
  · rw [if_pos h1] at hl
    exact ldh_lower h1 (Option.some.inj hl)
  · rw [if_neg h1, if_neg (by simp)] at hl
    cases h2 : puny l with
    | none => rw [h2] at hl; cases hl
    | some a =>
      rw [h2] at hl
      dsimp only at hl
      by_cases h3 : isLdh a = true
      · rw [if_pos h3] at hl; exact ldh_lower h3 (Option.some.inj hl)
      · rw [if_neg h3] at hl; cases hl

theorem splitByte_ne_nil (c : Nat) (s : Bytes) : splitByte c s ≠ [] := by
  cases s with
  | nil => simp [splitByte]
  | cons b r => rw [splitByte]; split; simp; split <;> simp

theorem mapM_length {α β : Type} {f : α → Option β} : ∀ {l : List α} {r : List β}, l.mapM f = some r → r.length = l.length := by
  intro l
  induction l with
  | nil => intro r h; simp at h; subst h; rfl
  | cons a l ih =>
    intro r h
    rw [List.mapM_cons] at h
    cases h1 : f a with
    | none => rw [h1] at h; simp at h
    | some b =>
      cases h2 : l.mapM f with
      | none => rw [h1, h2] at h; simp at h
      | some r' =>
        rw [h1, h2] at h
        simp at h
        subst h
        simp [ih h2]

theorem split_ne_nil {puny : Bytes → Option Bytes} {w : Bool} {s : Bytes} {d : Domain} (h : splitDomain puny w s = some d) : d ≠ [] := by
  have := mapM_length h
  intro e
  rw [e] at this
  exact splitByte_ne_nil 46 s (List.length_eq_zero_iff.mp this.symm)

/-- The entries of a jar for one domain. -/
def Jar.at (j : Jar) (d : Domain) : List Cookie := (j.filter fun e => decide (e.1 = d)).map (·.2)

/-- The tree holds the cookies of the jar. -/
structure Holds (t : Store) (j : Jar) : Prop where
  inv : t.Inv
  cookies : ∀ d, cookiesAt t d = j.at d
  ne : ∀ e ∈ j, e.1 ≠ []

theorem jar_find (j : Jar) (d : Domain) (c : Cookie) : (j.at d).find? (sameKey c) = (j.find? (same d c)).map (·.2) := by
  unfold Jar.at
  induction j with
  | nil => rfl
  | cons e j ih =>
    by_cases h : e.1 = d
    · rw [List.filter_cons_of_pos (by simpa using h), List.map_cons]
      by_cases hk : sameKey c e.2 = true
      · rw [List.find?_cons_of_pos hk, List.find?_cons_of_pos]
        · rfl
        · simp only [sameKey, Bool.and_eq_true, beq_iff_eq] at hk
          simp [same, h, hk.1, hk.2]
      · rw [List.find?_cons_of_neg (by simpa using hk), List.find?_cons_of_neg, ih]
        simp only [sameKey, Bool.and_eq_true, beq_iff_eq] at hk
        simp only [same, decide_eq_true_eq]
        rintro ⟨_, h1, h2⟩
        exact hk ⟨h1.symm, h2.symm⟩
    · rw [List.filter_cons_of_neg (by simpa using h), List.find?_cons_of_neg, ih]
      simp [same, h]

theorem jar_put_at (j : Jar) (dom : Domain) (c : Cookie) (now : Int) (d : Domain) :
    (j.put dom c now).at d = if d = dom then putCookie (j.at dom) c now else j.at d := by
  unfold Jar.put putCookie
  rw [jar_find]
  dsimp only
  -- the cookie with its creation time
  have hc : keepCreation ((j.find? (same dom c)).map (·.2)) c = { c with creation := ((j.find? (same dom c)).map fun e => e.2.creation).getD c.creation } := by
    cases j.find? (same dom c) <;> rfl
  rw [hc]
  generalize hc' : ({ c with creation := ((j.find? (same dom c)).map fun e => e.2.creation).getD c.creation } : Cookie) = c'
  unfold Jar.at
  rw [List.filter_append, List.map_append, List.filter_filter]
  by_cases h : d = dom
  · subst h
    rw [if_pos rfl]
    have h1 : ((j.filter fun e => decide (e.1 = d) && !same d c' e).map (·.2)) = (((j.filter fun e => decide (e.1 = d)).map (·.2)).filter fun o => !sameKey c' o) := by
      rw [List.filter_map, List.filter_filter]
      congr 1
      apply List.filter_congr
      intro e _
      by_cases he : e.1 = d
      · simp only [he, same, sameKey, true_and, decide_true, Bool.true_and, Function.comp_apply, Bool.and_true]
        congr 1
        rw [Bool.eq_iff_iff]
        simp only [decide_eq_true_eq, Bool.and_eq_true, beq_iff_eq]
        exact ⟨fun h => ⟨h.1.symm, h.2.symm⟩, fun h => ⟨h.1.symm, h.2.symm⟩⟩
      · simp [he]
    rw [h1]
    by_cases he : c'.expired now = true
    · rw [if_pos he, if_pos he]; simp
    · rw [if_neg he, if_neg he]; simp
  · rw [if_neg h]
    have h1 : (j.filter fun e => decide (e.1 = d) && !same dom c' e) = j.filter fun e => decide (e.1 = d) := by
      apply List.filter_congr
      intro e _
      by_cases he : e.1 = d
      · have : e.1 ≠ dom := fun h' => h (by rw [← he, h'])
        simp [he, same, h]
      · simp [he]
    rw [h1]
    by_cases he : c'.expired now = true
    · rw [if_pos he]; simp
    · rw [if_neg he]
      rw [List.filter_cons_of_neg (by simpa using Ne.symm h)]
      simp

/-- Replacing the cookies of a node. -/
theorem set_cookies {t : Store} (I : t.Inv) {p : Domain} {n : Node} (hp : t p = some n) (cs : List Cookie) :
    (t.set p { n with cookies := cs }).Inv ∧ (∀ q, cookiesAt (t.set p { n with cookies := cs }) q = if q = p then cs else cookiesAt t q) ∧
      (∀ r, eff (t.set p { n with cookies := cs }) r = eff t r) ∧ (∀ q, isPriv (t.set p { n with cookies := cs }) q = isPriv t q) := by
  refine ⟨⟨?_, ?_, ?_, ?_⟩, ?_, ?_, ?_⟩
  · unfold Store.set; split; rfl; exact I.root
  · intro q d h
    have h1 : (t (q ++ [d])).isSome := by
      unfold Store.set at h
      split at h
      · rename_i h2; rw [h2, hp]; rfl
      · exact h
    have := I.closed q d h1
    unfold Store.set
    split
    · rfl
    · exact this
  · intro q hq
    have h1 := I.noWild q hq
    unfold Store.set
    split
    · rename_i h2; rw [h2, hp] at h1; cases h1
    · exact h1
  · intro q m h
    unfold Store.set at h
    split at h
    · cases h; exact I.priv p n hp
    · exact I.priv q m h
  · intro q
    unfold cookiesAt Store.set
    by_cases h : q = p
    · simp [h]
    · simp [h]
  · apply eff_congr
    intro q
    unfold Store.set
    by_cases h : q = p
    · subst h; rw [if_pos rfl, hp]; rfl
    · rw [if_neg h]
  · intro q
    unfold isPriv Store.set
    by_cases h : q = p
    · subst h; rw [if_pos rfl, hp]
    · rw [if_neg h]

theorem ensure_pub {t : Store} (I : t.Inv) {dom : Domain} {n : Node} (hne : dom ≠ []) (hs : star ∉ dom) (h : ensure t [] dom dom = some n) :
    n.pub = testLoop t [] dom := by
  obtain ⟨f1, _, f3, _⟩ := ensure_spec dom t [] I I.root (by simpa using hs)
  rw [testLoop_eff I dom [] I.root hne, List.nil_append, ← f3, eff_of_some (n := n) (by rw [List.reverse_reverse]; exact h)]

/-- Setting a cookie. -/
theorem setCookie_spec (puny : Bytes → Option Bytes) {t : Store} {j : Jar} (H : Holds t j) (url : Url) (c : Cookie) (now : Int) :
    Holds (setCookie puny t url c now).1 (j.step puny (fun d => testLoop t [] d) (.set url c now)) ∧
      (∀ r, eff (setCookie puny t url c now).1 r = eff t r) ∧ (∀ q, isPriv (setCookie puny t url c now).1 q = isPriv t q) ∧
      ((setCookie puny t url c now).2 = none ↔ (accepted puny (fun d => testLoop t [] d) url c).isSome) := by
  unfold setCookie Jar.step accepted hostOf
  dsimp only
  by_cases h0 : (!url.http && c.httpOnly) = true
  · rw [if_pos h0]
    simp only [Bool.and_eq_true, Bool.not_eq_true'] at h0
    have : (c.httpOnly = true ∧ url.http = false) := ⟨h0.2, h0.1⟩
    rw [if_pos this]
    exact ⟨H, fun _ => rfl, fun _ => rfl, by simp⟩
  · rw [if_neg h0]
    have h0' : ¬ (c.httpOnly = true ∧ url.http = false) := by
      rintro ⟨a, b⟩; apply h0; simp [a, b]
    rw [if_neg h0']
    cases hh : splitDomain puny false url.host with
    | none => exact ⟨H, fun _ => rfl, fun _ => rfl, by simp⟩
    | some hl =>
      simp only [Option.map_some]
      have hhs : star ∉ hl.reverse := by simpa using split_noStar hh
      have hhn : hl.reverse ≠ [] := by simpa using split_ne_nil hh
      have hpath : fillPath (defaultPath url.path) c = { c with path := some (c.path.getD (defaultPath url.path)) } := by
        unfold fillPath
        cases hp : c.path with
        | none => rfl
        | some p => cases c; simp_all
      generalize hc' : ({ c with path := some (c.path.getD (defaultPath url.path)) } : Cookie) = c' at hpath
      -- the cookie is stored at a domain
      have store : ∀ (dom : Domain) (n : Node) (x : Cookie), dom ≠ [] → star ∉ dom → ensure t [] dom dom = some n →
          Holds ((ensure t [] dom).set dom { n with cookies := putCookie n.cookies x now }) (j.put dom x now) ∧
          (∀ r, eff ((ensure t [] dom).set dom { n with cookies := putCookie n.cookies x now }) r = eff t r) ∧
          (∀ q, isPriv ((ensure t [] dom).set dom { n with cookies := putCookie n.cookies x now }) q = isPriv t q) := by
        intro dom n x hne hs hn
        obtain ⟨f1, f2, f3, f4, _⟩ := ensure_spec dom t [] H.inv H.inv.root (by simpa using hs)
        obtain ⟨g1, g2, g3, g4⟩ := set_cookies f1 hn (putCookie n.cookies x now)
        have hnc : n.cookies = j.at dom := by
          have := f2 dom
          unfold cookiesAt at this
          rw [hn] at this
          exact this.trans (H.cookies dom)
        refine ⟨⟨g1, ?_, ?_⟩, fun r => by rw [g3, f3], fun q => by rw [g4, f4]⟩
        · intro d
          rw [g2, jar_put_at, f2, H.cookies, hnc]
        · intro e he
          unfold Jar.put at he
          rcases List.mem_append.mp he with he | he
          · exact H.ne e (List.mem_filter.mp he).1
          · split at he
            · cases he
            · rw [List.mem_singleton] at he; rw [he]; exact hne
      -- only nodes are added
      have nodes : ∀ (dom : Domain), star ∉ dom → Holds (ensure t [] dom) j ∧ (∀ r, eff (ensure t [] dom) r = eff t r) ∧ (∀ q, isPriv (ensure t [] dom) q = isPriv t q) ∧
          ∃ n, ensure t [] dom dom = some n := by
        intro dom hs
        obtain ⟨f1, f2, f3, f4, f5⟩ := ensure_spec dom t [] H.inv H.inv.root (by simpa using hs)
        exact ⟨⟨f1, fun d => by rw [f2, H.cookies], H.ne⟩, f3, f4, Option.isSome_iff_exists.mp (by simpa using f5)⟩
      cases hd : c.domain with
      | none =>
        simp only [domainOf]
        rw [hpath]
        obtain ⟨N1, N2, N3, n, hn⟩ := nodes hl.reverse hhs
        rw [hn]
        dsimp only
        have hdn : ({ c' with domain := none } : Cookie) = c' := by rw [← hc']; simp [hd]
        obtain ⟨S1, S2, S3⟩ := store hl.reverse n c' hhn hhs hn
        by_cases hp : n.pub = true
        · rw [if_pos hp, if_pos trivial, hdn]; exact ⟨S1, S2, S3, by simp⟩
        · rw [if_neg hp]; exact ⟨S1, S2, S3, by simp⟩
      | some s =>
        simp only [domainOf]
        cases hs : splitDomain puny false s with
        | none => exact ⟨H, fun _ => rfl, fun _ => rfl, by simp⟩
        | some d =>
          simp only [Option.map_some]
          have hds : star ∉ d.reverse := by simpa using split_noStar hs
          have hdn : d.reverse ≠ [] := by simpa using split_ne_nil hs
          by_cases hin : domainIn d.reverse hl.reverse = true
          · have hin' := (domainIn_iff _ _).mp hin
            rw [if_pos hin, if_neg (fun h => h hin'), hpath]
            dsimp only
            obtain ⟨N1, N2, N3, n, hn⟩ := nodes d.reverse hds
            have hpub := ensure_pub H.inv hdn hds hn
            rw [hn]
            dsimp only
            by_cases hp : n.pub = true
            · rw [if_pos hp, if_pos (show testLoop t [] d.reverse = true from hpub.symm.trans hp)]
              by_cases hlen : d.reverse.length = hl.reverse.length
              · have heq := hin'.eq_of_length hlen
                rw [if_pos hlen, if_pos heq]
                obtain ⟨S1, S2, S3⟩ := store d.reverse n { c' with domain := none } hdn hds hn
                rw [heq, ← hc'] at S1 S2 S3
                rw [heq, ← hc']
                exact ⟨S1, S2, S3, by simp⟩
              · have hne : d.reverse ≠ hl.reverse := fun h => hlen (by rw [h])
                rw [if_neg hlen, if_neg hne]
                exact ⟨N1, N2, N3, by simp⟩
            · rw [if_neg hp, if_neg (fun h => hp (hpub.trans h))]
              obtain ⟨S1, S2, S3⟩ := store d.reverse n c' hdn hds hn
              exact ⟨S1, S2, S3, by simp⟩
          · have hin' : ¬ d.reverse <+: hl.reverse := fun h => hin ((domainIn_iff _ _).mpr h)
            rw [if_neg hin, if_pos hin']
            exact ⟨H, fun _ => rfl, fun _ => rfl, by simp⟩

theorem closed_prefix {t : Store} (I : t.Inv) (p : Domain) : ∀ q, (t (p ++ q)).isSome → (t p).isSome := by
  intro q
  induction h : q.length generalizing q with
  | zero => rw [List.length_eq_zero_iff.mp h, List.append_nil]; exact id
  | succ n ih =>
    intro hs
    have hq : q ≠ [] := fun e => by rw [e] at h; cases h
    rw [← List.dropLast_concat_getLast hq, ← List.append_assoc] at hs
    exact ih q.dropLast (by rw [List.length_dropLast]; omega) (I.closed _ _ hs)

/-- What the search selects below `p`. -/
def sel (url : Url) (now : Int) (p ds : Domain) (e : Domain × Cookie) : Bool :=
  decide (p.length < e.1.length) && decide (p <+: e.1) && decide (e.1 <+: p ++ ds) && cookieTest url now (decide (e.1 = p ++ ds)) e.2

theorem prefix_cases {p ds q : Domain} {d : Label} (h1 : p.length < q.length) (h2 : p <+: q) (h3 : q <+: p ++ d :: ds) :
    q = p ++ [d] ∨ ((p ++ [d]).length < q.length ∧ p ++ [d] <+: q ∧ q <+: (p ++ [d]) ++ ds) := by
  obtain ⟨x, rfl⟩ := h2
  rw [List.prefix_append_right_inj] at h3
  cases x with
  | nil => simp at h1
  | cons y x =>
    rw [List.cons_prefix_cons] at h3
    obtain ⟨rfl, h3⟩ := h3
    cases x with
    | nil => left; rfl
    | cons z x =>
      right
      refine ⟨by simp, ?_, ?_⟩
      · rw [List.prefix_append_right_inj]; simp
      · rw [List.append_assoc, List.prefix_append_right_inj]; simpa using h3

theorem sel_cons (url : Url) (now : Int) (p ds : Domain) (d : Label) (e : Domain × Cookie) :
    sel url now p (d :: ds) e = (decide (e.1 = p ++ [d]) && cookieTest url now ds.isEmpty e.2 || sel url now (p ++ [d]) ds e) := by
  by_cases h1 : e.1 = p ++ [d]
  · have hs : sel url now (p ++ [d]) ds e = false := by simp [sel, h1]
    rw [hs, Bool.or_false]
    unfold sel
    rw [h1]
    have : decide (p ++ [d] = p ++ d :: ds) = ds.isEmpty := by
      cases ds <;> simp
    rw [this]
    simp [List.prefix_append_right_inj]
  · have : decide (e.1 = p ++ [d]) = false := by simpa using h1
    rw [this, Bool.false_and, Bool.false_or]
    unfold sel
    rw [show (p ++ [d]) ++ ds = p ++ d :: ds by simp]
    rw [Bool.eq_iff_iff]
    simp only [Bool.and_eq_true, decide_eq_true_eq]
    constructor
    · rintro ⟨⟨⟨a, b⟩, c⟩, f⟩
      rcases prefix_cases a b c with h | ⟨h, h', _⟩
      · exact absurd h h1
      · exact ⟨⟨⟨h, h'⟩, c⟩, f⟩
    · rintro ⟨⟨⟨a, b⟩, c⟩, f⟩
      refine ⟨⟨⟨?_, ?_⟩, c⟩, f⟩
      · simp at a; omega
      · exact (List.prefix_append p [d]).trans b

theorem filter_or_perm {α : Type} (a b : α → Bool) (h : ∀ x, ¬ (a x = true ∧ b x = true)) : ∀ l : List α,
    (l.filter fun x => a x || b x).Perm (l.filter a ++ l.filter b) := by
  intro l
  induction l with
  | nil => exact List.Perm.refl _
  | cons x l ih =>
    cases ha : a x with
    | true =>
      have hb : b x = false := by
        cases hb : b x with
        | false => rfl
        | true => exact absurd ⟨ha, hb⟩ (h x)
      rw [List.filter_cons_of_pos (by simp [ha]), List.filter_cons_of_pos ha, List.filter_cons_of_neg (by simp [hb])]
      exact ih.cons x
    | false =>
      cases hb : b x with
      | true =>
        rw [List.filter_cons_of_pos (by simp [hb]), List.filter_cons_of_neg (by simp [ha]), List.filter_cons_of_pos hb]
        exact (ih.cons x).trans List.perm_middle.symm
      | false =>
        rw [List.filter_cons_of_neg (by simp [ha, hb]), List.filter_cons_of_neg (by simp [ha]), List.filter_cons_of_neg (by simp [hb])]
        exact ih

theorem jar_at_filter (j : Jar) (d : Domain) (f : Cookie → Bool) : (j.at d).filter f = (j.filter fun e => decide (e.1 = d) && f e.2).map (·.2) := by
  unfold Jar.at
  rw [List.filter_map, List.filter_filter]
  congr 1
  apply List.filter_congr
  intro e _
  rw [Bool.and_comm]; rfl

/-- The loop of the search. -/
theorem searchLoop_spec (url : Url) (now : Int) (j : Jar) : ∀ (ds : Domain) (t : Store) (p : Domain), t.Inv → (∀ d, p.length < d.length → cookiesAt t d = j.at d) →
    (searchLoop url now t p ds).2.Perm ((j.filter (sel url now p ds)).map (·.2)) ∧ (searchLoop url now t p ds).1.Inv ∧
      (∀ d, cookiesAt (searchLoop url now t p ds).1 d =
        if p.length < d.length ∧ p <+: d ∧ d <+: p ++ ds then (cookiesAt t d).filter (fun c => !c.expired now) else cookiesAt t d) ∧
      (∀ r, eff (searchLoop url now t p ds).1 r = eff t r) ∧ (∀ q, isPriv (searchLoop url now t p ds).1 q = isPriv t q) := by
  intro ds
  induction ds with
  | nil =>
    intro t p I _
    rw [searchLoop]
    have hno : ∀ d : Domain, ¬ (p.length < d.length ∧ p <+: d ∧ d <+: p ++ []) := by
      rintro d ⟨a, _, c⟩
      rw [List.append_nil] at c
      have := c.length_le; omega
    have : j.filter (sel url now p []) = [] := by
      rw [List.filter_eq_nil_iff]
      intro e _ h
      simp only [sel, Bool.and_eq_true, decide_eq_true_eq] at h
      exact hno e.1 ⟨h.1.1.1, h.1.1.2, h.1.2⟩
    rw [this]
    exact ⟨List.Perm.refl _, I, fun d => by rw [if_neg (hno d)], fun _ => rfl, fun _ => rfl⟩
  | cons d ds ih =>
    intro t p I hj
    rw [searchLoop]
    cases hn : t (p ++ [d]) with
    | none =>
      dsimp only
      -- nothing below
      have hno : ∀ q : Domain, p.length < q.length → p <+: q → q <+: p ++ d :: ds → cookiesAt t q = [] := by
        intro q a b c
        have hpre : p ++ [d] <+: q := by
          rcases prefix_cases a b c with h | ⟨_, h, _⟩
          · rw [h]; exact List.prefix_refl _
          · exact h
        obtain ⟨x, rfl⟩ := hpre
        unfold cookiesAt
        cases h : t (p ++ [d] ++ x) with
        | none => rfl
        | some m =>
          have := closed_prefix I (p ++ [d]) x (by rw [h]; rfl)
          rw [hn] at this; cases this
      have : j.filter (sel url now p (d :: ds)) = [] := by
        rw [List.filter_eq_nil_iff]
        intro e he h
        simp only [sel, Bool.and_eq_true, decide_eq_true_eq] at h
        have h1 := hno e.1 h.1.1.1 h.1.1.2 h.1.2
        rw [hj e.1 h.1.1.1] at h1
        unfold Jar.at at h1
        rw [List.map_eq_nil_iff, List.filter_eq_nil_iff] at h1
        exact h1 e he (by simp)
      rw [this]
      refine ⟨List.Perm.refl _, I, ?_, fun _ => rfl, fun _ => rfl⟩
      intro q
      split
      · rename_i h; rw [hno q h.1 h.2.1 h.2.2]; rfl
      · rfl
    | some n =>
      dsimp only
      obtain ⟨g1, g2, g3, g4⟩ := set_cookies I hn (n.cookies.filter fun c => !c.expired now)
      have hnc : n.cookies = cookiesAt t (p ++ [d]) := by unfold cookiesAt; rw [hn]
      have hlen : ∀ q : Domain, (p ++ [d]).length < q.length → q ≠ p ++ [d] := by
        rintro q h rfl; omega
      obtain ⟨f1, f2, f3, f4, f5⟩ := ih _ (p ++ [d]) g1 (by
        intro q hq
        rw [g2, if_neg (hlen q hq)]
        exact hj q (by simp at hq; omega))
      refine ⟨?_, f2, ?_, fun r => by rw [f4, g3], fun q => by rw [f5, g4]⟩
      · have hnf : n.cookies.filter (cookieTest url now ds.isEmpty) = (j.filter fun e => decide (e.1 = p ++ [d]) && cookieTest url now ds.isEmpty e.2).map (·.2) := by
          rw [hnc, hj (p ++ [d]) (by simp), jar_at_filter]
        rw [hnf]
        have hp := filter_or_perm (fun e : Domain × Cookie => decide (e.1 = p ++ [d]) && cookieTest url now ds.isEmpty e.2) (sel url now (p ++ [d]) ds) (by
          rintro e ⟨a, b⟩
          simp only [sel, Bool.and_eq_true, decide_eq_true_eq] at a b
          have := b.1.1.1
          rw [a.1] at this; omega) j
        have hf : j.filter (sel url now p (d :: ds)) = j.filter fun e => (decide (e.1 = p ++ [d]) && cookieTest url now ds.isEmpty e.2) || sel url now (p ++ [d]) ds e :=
          List.filter_congr fun e _ => sel_cons url now p ds d e
        rw [hf]
        refine List.Perm.trans ?_ (hp.map (·.2)).symm
        rw [List.map_append]
        exact List.Perm.append_left _ f1
      · intro q
        rw [f3, g2]
        by_cases h1 : q = p ++ [d]
        · subst h1
          rw [if_neg (by simp), if_pos rfl, if_pos ⟨by simp, by simp, by simp⟩, hnc]
        · rw [if_neg h1]
          have : ((p ++ [d]).length < q.length ∧ p ++ [d] <+: q ∧ q <+: p ++ [d] ++ ds) ↔ (p.length < q.length ∧ p <+: q ∧ q <+: p ++ d :: ds) := by
            constructor
            · rintro ⟨a, b, c⟩
              exact ⟨by simp at a; omega, (List.prefix_append p [d]).trans b, by simpa using c⟩
            · rintro ⟨a, b, c⟩
              rcases prefix_cases a b c with h | h
              · exact absurd h h1
              · exact h
          by_cases h2 : p.length < q.length ∧ p <+: q ∧ q <+: p ++ d :: ds
          · rw [if_pos (this.mpr h2), if_pos h2]
          · rw [if_neg (fun h => h2 (this.mp h)), if_neg h2]

theorem jar_filter_at (j : Jar) (f : Domain × Cookie → Bool) (g : Cookie → Bool) (d : Domain) (h : ∀ c, f (d, c) = g c) : Jar.at (j.filter f) d = (j.at d).filter g := by
  rw [jar_at_filter]
  unfold Jar.at
  rw [List.filter_filter]
  congr 1
  apply List.filter_congr
  rintro ⟨e, c⟩ _
  by_cases he : e = d
  · subst he; simp [h]
  · simp [he]

theorem holds_filter {t t' : Store} {j : Jar} (H : Holds t j) (I : t'.Inv) (f : Domain × Cookie → Bool) (g : Domain → Cookie → Bool) (hf : ∀ d c, f (d, c) = g d c)
    (hc : ∀ d, d ≠ [] → cookiesAt t' d = (cookiesAt t d).filter (g d)) (h0 : cookiesAt t' [] = cookiesAt t []) : Holds t' (j.filter f) := by
  refine ⟨I, ?_, fun e he => H.ne e (List.mem_filter.mp he).1⟩
  intro d
  by_cases hd : d = []
  · subst hd
    have : ∀ k : Jar, (∀ e ∈ k, e.1 ≠ []) → k.at [] = [] := by
      intro k hk
      unfold Jar.at
      rw [List.map_eq_nil_iff, List.filter_eq_nil_iff]
      intro e he h
      exact hk e he (by simpa using h)
    rw [h0, H.cookies, this j H.ne, this _ (fun e he => H.ne e (List.mem_filter.mp he).1)]
  · rw [hc d hd, H.cookies, jar_filter_at j f (g d) d (hf d)]

/-- Searching. -/
theorem search_holds (puny : Bytes → Option Bytes) {t : Store} {j : Jar} (H : Holds t j) (url : Url) (now : Int) (pub : Domain → Bool) :
    Holds (search puny t url now).1 (j.step puny pub (.search url now)) ∧
      (∀ r, eff (search puny t url now).1 r = eff t r) ∧ (∀ q, isPriv (search puny t url now).1 q = isPriv t q) := by
  unfold search Jar.step hostOf
  dsimp only
  cases hh : (splitDomain puny false url.host).map List.reverse with
  | none => exact ⟨H, fun _ => rfl, fun _ => rfl⟩
  | some host =>
    dsimp only
    obtain ⟨_, f2, f3, f4, f5⟩ := searchLoop_spec url now j host t [] H.inv (fun d _ => H.cookies d)
    refine ⟨holds_filter H f2 _ (fun d c => !(decide (d <+: host) && c.expired now)) (fun _ _ => rfl) ?_ ?_, f4, f5⟩
    · intro d hd
      rw [f3]
      have hl : 0 < d.length := List.length_pos_iff.mpr hd
      by_cases hp : d <+: host
      · rw [if_pos ⟨by simpa using hl, List.nil_prefix, by simpa using hp⟩]; simp [hp]
      · rw [if_neg (by rintro ⟨_, _, h⟩; exact hp (by simpa using h))]
        rw [List.filter_eq_self.mpr]; simp [hp]
    · rw [f3, if_neg (by simp)]

theorem removeAll_holds {t : Store} {j : Jar} (H : Holds t j) (p : Cookie → Bool) :
    Holds (removeAll t p) (j.filter fun e => !p e.2) ∧ (∀ r, eff (removeAll t p) r = eff t r) ∧ (∀ q, isPriv (removeAll t p) q = isPriv t q) := by
  have hm : ∀ q, (removeAll t p q).map (fun n => (n.pub, n.depth, n.priv)) = (t q).map fun n => (n.pub, n.depth, n.priv) := by
    intro q; unfold removeAll; split
    · rfl
    · cases t q <;> rfl
  have hs : ∀ q, (removeAll t p q).isSome = (t q).isSome := by
    intro q
    have := congrArg Option.isSome (hm q)
    simpa using this
  refine ⟨holds_filter H ⟨?_, ?_, ?_, ?_⟩ _ (fun _ c => !p c) (fun _ _ => rfl) ?_ ?_, ?_, ?_⟩
  · rw [hs]; exact H.inv.root
  · intro q d h; rw [hs] at h ⊢; exact H.inv.closed q d h
  · intro q hq
    have h1 := hs q
    rw [H.inv.noWild q hq] at h1
    simpa using h1
  · intro q n h hp
    have h1 := hm q
    rw [h] at h1
    cases h2 : t q with
    | none => rw [h2] at h1; cases h1
    | some m =>
      rw [h2] at h1
      simp only [Option.map_some, Option.some.injEq, Prod.mk.injEq] at h1
      rw [h1.1]
      exact H.inv.priv q m h2 (by rw [← h1.2.2]; exact hp)
  · intro d hd
    unfold cookiesAt removeAll
    rw [if_neg hd]
    cases t d <;> simp
  · unfold cookiesAt removeAll; rw [if_pos rfl]
  · apply eff_congr
    intro q
    have h1 := congrArg (Option.map fun x : Bool × Nat × Bool => (x.1, x.2.1)) (hm q)
    simpa [Option.map_map, Function.comp_def] using h1
  · intro q
    unfold isPriv
    have h1 := hm q
    cases h2 : removeAll t p q <;> cases h3 : t q <;> simp_all

end Verif.Cookie

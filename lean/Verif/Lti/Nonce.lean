/-!
# C109: an LTI launch is accepted once (pyslet/imsbltiv1p0.py:640-690)

Times are in microseconds.  `H` is the SHA-256 digest; the `Nonces` entity set is a list of its entities.
-/
namespace Verif.Lti

abbrev Str := List Nat

/-! ### Model -/

variable {κ : Type} [DecidableEq κ]

/-- The `Nonces` entity set: `Hash` and `LastSeen`. -/
abbrev Nonces (κ : Type) := List (κ × Int)

/-- `collection[key]`; `none`: KeyError. -/
def Nonces.get : Nonces κ → κ → Option Int
  | [], _ => none
  | (k, t) :: r, x => if k = x then some t else Nonces.get r x

/-- `update_entity` of an entity that exists. -/
def Nonces.update : Nonces κ → κ → Int → Nonces κ
  | [], _, _ => []
  | (k, t) :: r, x, v => if k = x then (k, v) :: r else (k, t) :: Nonces.update r x v

/-- `insert_entity`; `none`: ConstraintError, there is an entity with the key. -/
def Nonces.insert (db : Nonces κ) (x : κ) (v : Int) : Option (Nonces κ) :=
  match db.get x with
  | some _ => none
  | none => some ((x, v) :: db)

/-- The fraction of `LastSeen` may be dropped by the data store (Precision="0", imsbltiv1p0_metadata.xml:105):
at most a second is lost. -/
def Rounds (store : Int → Int) : Prop := ∀ t, store t ≤ t ∧ t - 1000000 < store t

/-- 5400 seconds. -/
def window : Int := 5400000000

/-- The text that is hashed, imsbltiv1p0.py:664. -/
def nonceText (client nonce : Str) : Str := client ++ nonce

/-- `validate_timestamp_and_nonce` without other requests in between, imsbltiv1p0.py:661-683. -/
def validate (H : Str → κ) (store : Int → Int) (db : Nonces κ) (client nonce : Str) (now : Int) :
    Option Bool × Nonces κ :=
  let key := H (nonceText client nonce)
  match db.get key with
  | some seen => if seen + window < now then (some true, db.update key (store now)) else (some false, db)
  | none =>
    match db.insert key (store now) with
    | some db' => (some true, db')
    | none => (none, db)

/-- A request. -/
structure Launch where
  client : Str
  nonce : Str
  now : Int

/-- Requests one after the other: the answers. -/
def answers (H : Str → κ) (store : Int → Int) : Nonces κ → List Launch → List Bool
  | _, [] => []
  | db, r :: rs =>
    let v := validate H store db r.client r.nonce r.now
    (v.1 == some true) :: answers H store v.2 rs

/-- The state with several requests in progress: what request `i` has read (`some none`: KeyError), and the requests
that were accepted. -/
structure Conc (κ : Type) where
  db : Nonces κ
  read : Nat → Option (Option Int)
  accepted : List Nat

/-- The two accesses of a request to the data store, each atomic: `collection[key]`, and the insert or update. -/
inductive Step
  | read (i : Nat)
  | write (i : Nat)

/-- One access of request `i`, whose time and hash are `req i`. -/
def Conc.step (store : Int → Int) (req : Nat → κ × Int) (s : Conc κ) : Step → Conc κ
  | .read i =>
    match s.read i with
    | none => { s with read := fun j => if j = i then some (s.db.get (req i).1) else s.read j }
    | some _ => s
  | .write i =>
    if i ∈ s.accepted then s
    else match s.read i with
    | none => s
    | some (some seen) =>
      if seen + window < (req i).2 then
        { s with db := s.db.update (req i).1 (store (req i).2), accepted := i :: s.accepted }
      else s
    | some none =>
      match s.db.insert (req i).1 (store (req i).2) with
      | some db' => { s with db := db', accepted := i :: s.accepted }
      | none => s

/-! ### Proofs -/

theorem get_update (db : Nonces κ) (x y : κ) (v : Int) :
    (db.update x v).get y = if x = y ∧ (db.get x).isSome then some v else db.get y := by
  induction db with
  | nil => simp [Nonces.update, Nonces.get]
  | cons p r ih =>
    obtain ⟨k, t⟩ := p
    by_cases hk : k = x
    · subst hk
      by_cases hy : k = y <;> simp [Nonces.update, Nonces.get, hy]
    · by_cases hy : k = y
      · have hx : x ≠ y := fun h => hk (hy.trans h.symm)
        subst hy
        simp [Nonces.update, Nonces.get, hk, hx]
      · simp [Nonces.update, Nonces.get, hk, hy, ih]

/-- What is true of the entry for a key after the accepted requests `acc`. -/
structure Inv (H : Str → κ) (store : Int → Int) (db0 db : Nonces κ) (acc : List Launch) : Prop where
  seen : ∀ k t, db.get k = some t → (db0.get k = some t ∧ ∀ r ∈ acc, H (r.client ++ r.nonce) ≠ k) ∨
    ((∃ r ∈ acc, H (r.client ++ r.nonce) = k ∧ store r.now = t) ∧
      (∀ t0, db0.get k = some t0 → t0 + window < t + 1000000) ∧
      ∀ r ∈ acc, H (r.client ++ r.nonce) = k → store r.now ≤ t)
  here : ∀ r ∈ acc, (db.get (H (r.client ++ r.nonce))).isSome
  old : ∀ k, (db0.get k).isSome → (db.get k).isSome

/-- A request that is accepted or not, and what holds afterwards. -/
theorem validate_spec (H : Str → κ) (store : Int → Int) (hs : Rounds store) (db0 db : Nonces κ) (acc : List Launch)
    (r : Launch) (hi : Inv H store db0 db acc) :
    ((validate H store db r.client r.nonce r.now).1 = some true ↔
      (∀ a ∈ acc, H (a.client ++ a.nonce) = H (r.client ++ r.nonce) → store a.now + window < r.now) ∧
      ∀ t0, db0.get (H (r.client ++ r.nonce)) = some t0 → t0 + window < r.now) ∧
    Inv H store db0 (validate H store db r.client r.nonce r.now).2
      (if (validate H store db r.client r.nonce r.now).1 = some true then acc ++ [r] else acc) := by
  have hw : window = 5400000000 := rfl
  have ev : validate H store db r.client r.nonce r.now = (match db.get (H (r.client ++ r.nonce)) with
      | some seen => if seen + window < r.now then (some true, db.update (H (r.client ++ r.nonce)) (store r.now))
        else (some false, db)
      | none =>
        match db.insert (H (r.client ++ r.nonce)) (store r.now) with
        | some db' => (some true, db')
        | none => (none, db)) := rfl
  generalize validate H store db r.client r.nonce r.now = v at ev ⊢
  generalize hk : H (r.client ++ r.nonce) = key at ev ⊢
  cases hg : db.get key with
  | some seen =>
    rw [hg] at ev
    dsimp only at ev
    have hold := hi.seen key seen hg
    by_cases hc : seen + window < r.now
    · rw [if_pos hc] at ev
      subst ev
      dsimp only
      rw [if_pos rfl]
      refine ⟨⟨fun _ => ⟨?_, ?_⟩, fun _ => rfl⟩, ?_⟩
      · intro a ha hak
        rcases hold with ⟨-, h⟩ | ⟨-, -, h⟩
        · exact absurd hak (h a ha)
        · have := h a ha hak; omega
      · intro t0 h0
        rcases hold with ⟨h, -⟩ | ⟨-, h, -⟩
        · rw [h] at h0; cases h0; exact hc
        · have := h t0 h0; omega
      · constructor
        · intro k t ht
          rw [get_update] at ht
          by_cases hkk : key = k
          · subst hkk
            rw [if_pos ⟨rfl, by rw [hg]; rfl⟩] at ht
            cases ht
            right
            refine ⟨⟨r, by simp, hk, rfl⟩, ?_, ?_⟩
            · intro t0 h0
              have := (hs r.now).2
              rcases hold with ⟨h, -⟩ | ⟨-, h, -⟩
              · rw [h] at h0; cases h0; omega
              · have := h t0 h0; omega
            · intro a ha hak
              rcases List.mem_append.1 ha with ha | ha
              · have := (hs r.now).2
                rcases hold with ⟨-, h⟩ | ⟨-, -, h⟩
                · exact absurd hak (h a ha)
                · have := h a ha hak; omega
              · simp only [List.mem_singleton] at ha; subst ha; exact Int.le_refl _
          · rw [if_neg (by simp [hkk])] at ht
            rcases hi.seen k t ht with ⟨h1, h2⟩ | ⟨⟨a, ha, h1⟩, h2, h3⟩
            · left
              refine ⟨h1, fun a ha => ?_⟩
              rcases List.mem_append.1 ha with ha | ha
              · exact h2 a ha
              · simp only [List.mem_singleton] at ha; subst ha; rw [hk]; exact hkk
            · right
              refine ⟨⟨a, by simp [ha], h1⟩, h2, fun b hb hbk => ?_⟩
              rcases List.mem_append.1 hb with hb | hb
              · exact h3 b hb hbk
              · simp only [List.mem_singleton] at hb; subst hb; exact absurd (hk.symm.trans hbk) hkk
        · intro a ha
          rw [get_update]
          split
          · rfl
          · rename_i hn
            rcases List.mem_append.1 ha with ha | ha
            · exact hi.here a ha
            · simp only [List.mem_singleton] at ha; subst ha
              rw [hk, hg]; rfl
        · intro k h0
          rw [get_update]
          split
          · rfl
          · exact hi.old k h0
    · rw [if_neg hc] at ev
      subst ev
      dsimp only
      rw [if_neg (by simp)]
      refine ⟨⟨fun h => by simp at h, fun h => ?_⟩, hi⟩
      exfalso
      apply hc
      rcases hold with ⟨h1, -⟩ | ⟨⟨a, ha, h1, h2⟩, -, -⟩
      · exact h.2 seen h1
      · rw [← h2]; exact h.1 a ha h1
  | none =>
    unfold Nonces.insert at ev
    rw [hg] at ev
    dsimp only at ev
    subst ev
    dsimp only
    rw [if_pos rfl]
    refine ⟨⟨fun _ => ⟨?_, ?_⟩, fun _ => rfl⟩, ?_⟩
    · intro a ha hak
      have := hi.here a ha
      rw [hak, hg] at this; cases this
    · intro t0 h0
      have := hi.old key (by rw [h0]; rfl)
      rw [hg] at this; cases this
    · constructor
      · intro k t ht
        rw [Nonces.get] at ht
        by_cases hkk : key = k
        · subst hkk
          rw [if_pos rfl] at ht
          cases ht
          right
          refine ⟨⟨r, by simp, hk, rfl⟩, ?_, ?_⟩
          · intro t0 h0
            have := hi.old key (by rw [h0]; rfl)
            rw [hg] at this; cases this
          · intro a ha hak
            rcases List.mem_append.1 ha with ha | ha
            · have := hi.here a ha
              rw [hak, hg] at this; cases this
            · simp only [List.mem_singleton] at ha; subst ha; exact Int.le_refl _
        · rw [if_neg hkk] at ht
          rcases hi.seen k t ht with ⟨h1, h2⟩ | ⟨⟨a, ha, h1⟩, h2, h3⟩
          · left
            refine ⟨h1, fun a ha => ?_⟩
            rcases List.mem_append.1 ha with ha | ha
            · exact h2 a ha
            · simp only [List.mem_singleton] at ha; subst ha; rw [hk]; exact hkk
          · right
            refine ⟨⟨a, by simp [ha], h1⟩, h2, fun b hb hbk => ?_⟩
            rcases List.mem_append.1 hb with hb | hb
            · exact h3 b hb hbk
            · simp only [List.mem_singleton] at hb; subst hb; exact absurd (hk.symm.trans hbk) hkk
      · intro a ha
        rw [Nonces.get]
        split
        · rfl
        · rename_i hn
          rcases List.mem_append.1 ha with ha | ha
          · exact hi.here a ha
          · simp only [List.mem_singleton] at ha; subst ha; exact absurd hk.symm hn
      · intro k h0
        rw [Nonces.get]
        split
        · rfl
        · exact hi.old k h0

/-! ### Specification -/

/-- The requests that were accepted, among those before position `j`. -/
def acceptedBefore (rs : List Launch) (ans : List Bool) (j : Nat) (a : Launch) : Prop :=
  ∃ i, i < j ∧ rs[i]? = some a ∧ ans[i]? = some true

theorem answers_spec (H : Str → κ) (store : Int → Int) (hs : Rounds store) (db0 : Nonces κ) (rs : List Launch) :
    ∀ (db : Nonces κ) (acc : List Launch), Inv H store db0 db acc → ∀ j r, rs[j]? = some r →
      ((answers H store db rs)[j]? = some true ↔
        (∀ a, a ∈ acc ∨ acceptedBefore rs (answers H store db rs) j a →
          H (a.client ++ a.nonce) = H (r.client ++ r.nonce) → store a.now + window < r.now) ∧
        ∀ t0, db0.get (H (r.client ++ r.nonce)) = some t0 → t0 + window < r.now) := by
  induction rs with
  | nil => intro db acc hi j r hj; simp at hj
  | cons q qs ih =>
    intro db acc hi j r hj
    obtain ⟨h1, h2⟩ := validate_spec H store hs db0 db acc q hi
    simp only [answers]
    cases j with
    | zero =>
      simp only [List.getElem?_cons_zero, Option.some.injEq] at hj
      subst hj
      simp only [List.getElem?_cons_zero, Option.some.injEq, beq_iff_eq]
      rw [h1]
      constructor
      · rintro ⟨a1, a2⟩
        refine ⟨fun a ha => ?_, a2⟩
        rcases ha with ha | ⟨i, hi, -⟩
        · exact a1 a ha
        · omega
      · rintro ⟨a1, a2⟩
        exact ⟨fun a ha => a1 a (Or.inl ha), a2⟩
    | succ j =>
      simp only [List.getElem?_cons_succ] at hj ⊢
      rw [ih _ _ h2 j r hj]
      apply and_congr_left
      intro _
      constructor
      · intro h a ha
        apply h
        rcases ha with ha | ⟨i, hij, hi1, hi2⟩
        · left; split
          · simp [ha]
          · exact ha
        · cases i with
          | zero =>
            left
            simp only [List.getElem?_cons_zero, Option.some.injEq, beq_iff_eq] at hi1 hi2
            rw [if_pos hi2]; simp [hi1]
          | succ i =>
            right
            simp only [List.getElem?_cons_succ] at hi1 hi2
            exact ⟨i, by omega, hi1, hi2⟩
      · intro h a ha
        apply h
        rcases ha with ha | ⟨i, hij, hi1, hi2⟩
        · split at ha
          · rename_i hq
            rcases List.mem_append.1 ha with ha | ha
            · exact Or.inl ha
            · simp only [List.mem_singleton] at ha
              subst ha
              right
              exact ⟨0, by omega, by simp, by simp [hq]⟩
          · exact Or.inl ha
        · right
          exact ⟨i + 1, by omega, by simpa using hi1, by simpa using hi2⟩

/-- C109: in every sequence of requests, a request is accepted exactly when the same key and nonce, or rather the same
key followed by nonce, was not in a request accepted during the last 90 minutes (of the time that the data store kept).
-/
theorem C109_accepts (H : Str → κ) (hH : Function.Injective H) (store : Int → Int) (hs : Rounds store)
    (rs : List Launch) (j : Nat) (r : Launch) (hj : rs[j]? = some r) :
    (answers H store [] rs)[j]? = some true ↔
      ∀ a, acceptedBefore rs (answers H store [] rs) j a → a.client ++ a.nonce = r.client ++ r.nonce →
        store a.now + window < r.now := by
  have hi : Inv H store ([] : Nonces κ) [] [] := ⟨fun k t h => by simp [Nonces.get] at h, fun r h => by simp at h,
    fun k h => by simp [Nonces.get] at h⟩
  rw [answers_spec H store hs [] rs [] [] hi j r hj]
  constructor
  · rintro ⟨h, -⟩ a ha e
    exact h a (Or.inr ha) (by rw [e])
  · intro h
    refine ⟨fun a ha e => ?_, fun t0 h0 => by simp [Nonces.get] at h0⟩
    rcases ha with ha | ha
    · simp at ha
    · exact h a ha (hH e)

/-- C109: whatever the hash, two requests with the same key and nonce that are both accepted are at least 5399 seconds
apart; this holds from every state of the data store. -/
theorem C109_replay (H : Str → κ) (store : Int → Int) (hs : Rounds store) (db : Nonces κ) (rs : List Launch)
    (i j : Nat) (a r : Launch) (hij : i < j) (hi : rs[i]? = some a) (hj : rs[j]? = some r)
    (hc : a.client = r.client) (hn : a.nonce = r.nonce)
    (hai : (answers H store db rs)[i]? = some true) (haj : (answers H store db rs)[j]? = some true) :
    a.now + 5399000000 < r.now := by
  have h0 : Inv H store db db [] := ⟨fun k t h => Or.inl ⟨h, by simp⟩, fun r h => by simp at h, fun k h => h⟩
  have h := (answers_spec H store hs db rs db [] h0 j r hj).1 haj
  have := h.1 a (Or.inr ⟨i, hij, hi, hai⟩) (by rw [hc, hn])
  have := (hs a.now).2
  have hw : window = 5400000000 := rfl
  omega

/-- C109: the first use of a key and nonce is accepted, if there is no other key that goes on with part of the nonce
(for instance if all keys have the same length). -/
theorem C109_first_use (H : Str → κ) (hH : Function.Injective H) (store : Int → Int) (hs : Rounds store)
    (rs : List Launch) (j : Nat) (r : Launch) (hj : rs[j]? = some r)
    (hlen : ∀ a ∈ rs, a.client.length = r.client.length)
    (hfirst : ∀ i a, i < j → rs[i]? = some a → ¬ (a.client = r.client ∧ a.nonce = r.nonce)) :
    (answers H store [] rs)[j]? = some true := by
  rw [C109_accepts H hH store hs rs j r hj]
  rintro a ⟨i, hij, hi, -⟩ e
  have hl := hlen a (List.mem_of_getElem? hi)
  exact absurd (List.append_inj e hl) (hfirst i a hij hi)

/-- C109, violated: a consumer whose key is an initial part of another's, or the other way round, can use up nonces of
the other.  The key "ab" with nonce "c" is refused after the key "a" with nonce "bc". -/
theorem C109_shared (H : Str → κ) :
    answers H id [] [⟨[97], [98, 99], 0⟩, ⟨[97, 98], [99], 1⟩] = [true, false] := by
  simp [answers, validate, Nonces.get, Nonces.insert, nonceText, window]

/-- C109, violated: two requests with the same key and nonce at the same moment are both accepted, if the nonce was
last seen more than 90 minutes ago. -/
theorem C109_race (k : κ) :
    ([Step.read 0, .read 1, .write 0, .write 1].foldl (Conc.step id fun _ => (k, 6000000000))
      ⟨[(k, 0)], fun _ => none, []⟩).accepted = [1, 0] := by
  simp [Conc.step, Nonces.get, Nonces.update, window]

/-- C109: of the requests in progress at the same time that did not find the nonce, at most one is accepted: for every
schedule of the accesses of any number of requests. -/
theorem C109_concurrent_partial (store : Int → Int) (req : Nat → κ × Int) (db : Nonces κ) (sched : List Step)
    (i j : Nat) (hk : (req i).1 = (req j).1) :
    let s := sched.foldl (Conc.step store req) ⟨db, fun _ => none, []⟩
    i ∈ s.accepted → j ∈ s.accepted → s.read i = some none → s.read j = some none → i = j := by
  intro s
  -- whoever was accepted, or found the nonce, has an entry
  let P : Conc κ → Prop := fun s =>
    (∀ a ∈ s.accepted, (s.db.get (req a).1).isSome) ∧
    (∀ a ∈ s.accepted, ∀ b ∈ s.accepted, (req a).1 = (req b).1 → s.read a = some none → s.read b = some none → a = b) ∧
    (∀ a ∈ s.accepted, (s.read a).isSome) ∧
    (∀ a t, s.read a = some (some t) → (s.db.get (req a).1).isSome)
  have hstep : ∀ s t, P s → P (Conc.step store req s t) := by
    rintro s t ⟨p1, p2, p3, p4⟩
    cases t with
    | read n =>
      unfold Conc.step
      dsimp only
      cases hr : s.read n with
      | some v => exact ⟨p1, p2, p3, p4⟩
      | none =>
        dsimp only
        have hn : ∀ a ∈ s.accepted, a ≠ n := fun a ha e => by
          have := p3 a ha; rw [e, hr] at this; cases this
        refine ⟨p1, fun a ha b hb => ?_, fun a ha => ?_, fun a t => ?_⟩
        · dsimp only
          rw [if_neg (hn a ha), if_neg (hn b hb)]; exact p2 a ha b hb
        · simp only [if_neg (hn a ha)]; exact p3 a ha
        · dsimp only
          split
          · rename_i e
            subst e
            intro h
            simp only [Option.some.injEq] at h
            rw [h]; rfl
          · exact p4 a t
    | write n =>
      unfold Conc.step
      dsimp only
      split
      · exact ⟨p1, p2, p3, p4⟩
      · rename_i hn
        cases hr : s.read n with
        | none => exact ⟨p1, p2, p3, p4⟩
        | some v =>
          cases v with
          | some seen =>
            dsimp only
            split
            · have grow : ∀ k, (s.db.get k).isSome → ((s.db.update (req n).1 (store (req n).2)).get k).isSome := by
                intro k hk
                rw [get_update]
                split
                · rfl
                · exact hk
              refine ⟨fun a ha => ?_, fun a ha b hb e ra rb => ?_, fun a ha => ?_, fun a t h => grow _ (p4 a t h)⟩
              · apply grow
                rcases List.mem_cons.1 ha with rfl | ha
                · exact p4 a seen hr
                · exact p1 a ha
              · dsimp only at ra rb
                rcases List.mem_cons.1 ha with rfl | ha
                · rw [hr] at ra; cases ra
                · rcases List.mem_cons.1 hb with rfl | hb
                  · rw [hr] at rb; cases rb
                  · exact p2 a ha b hb e ra rb
              · rcases List.mem_cons.1 ha with rfl | ha
                · dsimp only; rw [hr]; rfl
                · exact p3 a ha
            · exact ⟨p1, p2, p3, p4⟩
          | none =>
            dsimp only
            unfold Nonces.insert
            cases hg : s.db.get (req n).1 with
            | some t0 => exact ⟨p1, p2, p3, p4⟩
            | none =>
              dsimp only
              have grow : ∀ k, (s.db.get k).isSome →
                  (Nonces.get (((req n).1, store (req n).2) :: s.db) k).isSome := by
                intro k hk
                rw [Nonces.get]
                split
                · rfl
                · exact hk
              have new : ∀ a ∈ s.accepted, (req a).1 ≠ (req n).1 := fun a ha e => by
                have := p1 a ha; rw [e, hg] at this; cases this
              refine ⟨fun a ha => ?_, fun a ha b hb e ra rb => ?_, fun a ha => ?_, fun a t h => grow _ (p4 a t h)⟩
              · rcases List.mem_cons.1 ha with rfl | ha
                · simp [Nonces.get]
                · exact grow _ (p1 a ha)
              · rcases List.mem_cons.1 ha with ea | ha1 <;> rcases List.mem_cons.1 hb with eb | hb1
                · rw [ea, eb]
                · exact absurd (ea ▸ e.symm) (new b hb1)
                · exact absurd (eb ▸ e) (new a ha1)
                · exact p2 a ha1 b hb1 e ra rb
              · rcases List.mem_cons.1 ha with rfl | ha
                · dsimp only; rw [hr]; rfl
                · exact p3 a ha
  have hall : ∀ (l : List Step) (s0 : Conc κ), P s0 → P (l.foldl (Conc.step store req) s0) := by
    intro l
    induction l with
    | nil => intro s0 h; exact h
    | cons t l ih => intro s0 h; exact ih _ (hstep s0 t h)
  have h := hall sched ⟨db, fun _ => none, []⟩ ⟨by simp, by simp, by simp, by simp⟩
  intro h1 h2 h3 h4
  exact h.2.1 i h1 j h2 hk h3 h4

/-! Cases that meet the hypotheses. -/

example : Rounds id := fun t => ⟨Int.le_refl t, by show t - 1000000 < t; omega⟩
example : Rounds fun t => t / 1000000 * 1000000 := fun t => by dsimp only; omega
/-- Accepted, replayed after 80 minutes, another nonce, and again after 100 minutes. -/
example : answers (id : Str → Str) id []
    [⟨[97], [98], 0⟩, ⟨[97], [98], 4800000000⟩, ⟨[97], [99], 4900000000⟩, ⟨[97], [98], 6000000000⟩,
      ⟨[97], [98], 6000000001⟩] = [true, false, true, true, false] := by decide +kernel
example : (([Step.read 0, .read 1, .write 1, .write 0].foldl (Conc.step id fun _ => ((5 : Nat), 0))
      ⟨[], fun _ => none, []⟩).accepted) = [1] := by decide +kernel

end Verif.Lti

import Verif.Lti.Visits
/-!
# C112: what is kept about contexts, resources and users (pyslet/imsbltiv1p0.py:453-628)

A consumer is given by its key, a text.  The entities of the three sets are alike: those of a consumer, with an id that
the consumer chose (`ContextID`, `LinkID`, `UserID`) and some texts (titles, names).  The context types, which are
sorted and joined by the caller's code, are one of these texts.
-/
namespace Verif.Lti

/-! ### Model -/

/-- An entity: its key, its consumer, its id and the texts; None is `none`. -/
structure Item (κ : Type) where
  key : κ
  owner : Str
  id : Str
  texts : List (Option Str)

/-- `if title and context['Title'].value != title: …set_from_value(title)`, imsbltiv1p0.py:482-493, 556-562,
607-622. -/
def newText (old new : Option Str) : Option Str :=
  match new with
  | some (c :: r) => if old ≠ some (c :: r) then some (c :: r) else old
  | _ => old

variable {κ : Type} [DecidableEq κ]

/-- A call of `get_context`, `get_resource` or `get_user` of the consumer. -/
structure Call where
  owner : Str
  id : Str
  texts : List (Option Str)

/-- `update_entity` -/
def setTexts (k : κ) (texts : List (Option Str)) (l : List (Item κ)) : List (Item κ) :=
  l.map fun i => if i.key = k then { i with texts := List.zipWith newText i.texts texts } else i

/-- `get_context`, imsbltiv1p0.py:476-508, and, when a key stands for the consumer and the id, `get_resource` and
`get_user`, imsbltiv1p0.py:536-571, 590-628.  The entity is looked for among those of the consumer; if it is not there
it is inserted; `none`: ConstraintError, an entity of another consumer has the key. -/
def getItem (keyOf : Str → Str → κ) (db : List (Item κ)) (c : Call) : Option (Item κ) × List (Item κ) :=
  let k := keyOf c.owner c.id
  match db.find? (fun i => decide (i.key = k) && decide (i.owner = c.owner)) with
  | some i => (some { i with texts := List.zipWith newText i.texts c.texts }, setTexts k c.texts db)
  | none =>
    if db.any (fun i => decide (i.key = k)) then (none, db)
    else (some ⟨k, c.owner, c.id, c.texts⟩, ⟨k, c.owner, c.id, c.texts⟩ :: db)

/-- The calls one after the other, and what the last one returns. -/
def getItems (keyOf : Str → Str → κ) (db : List (Item κ)) : List Call → List (Item κ)
  | [] => db
  | c :: cs => getItems keyOf (getItem keyOf db c).2 cs

/-- The key of a context: `key60` of the key of the consumer followed by the id, imsbltiv1p0.py:477-478. -/
def contextKey (H : Str → κ) (owner id : Str) : κ := H (owner ++ id)

/-! ### Specification -/

/-- Texts that say something. -/
def Says (t : Option Str) : Bool := match t with | some (_ :: _) => true | _ => false

/-- Of the texts given, the last that says something; if none does, the first. -/
def lastSaid (ts : List (Option Str)) : Option Str :=
  match (ts.filter Says).getLast? with
  | some t => t
  | none => ts.head?.join

/-- The calls for the same thing. -/
def sameCalls (cs : List Call) (owner id : Str) : List Call := cs.filter fun c => decide (c.owner = owner) && decide (c.id = id)

/-! ### Proofs -/

theorem newText_eq (a b : Option Str) : newText a b = if Says b then b else a := by
  unfold newText Says
  split
  · rename_i c r
    simp only [if_true]
    split
    · rfl
    · rename_i h; rw [Decidable.not_not] at h; exact h
  · rename_i h
    match b, h with
    | none, _ => rfl
    | some [], _ => rfl
    | some (c :: r), h => exact absurd rfl (h c r)

theorem lastSaid_snoc (ts : List (Option Str)) (t : Option Str) (h : ts ≠ []) : lastSaid (ts ++ [t]) = newText (lastSaid ts) t := by
  rw [newText_eq]
  unfold lastSaid
  rw [List.filter_append]
  by_cases hs : Says t = true
  · rw [if_pos hs, List.filter_cons_of_pos hs]
    simp
  · rw [if_neg hs, List.filter_cons_of_neg hs, List.filter_nil, List.append_nil]
    cases ts with
    | nil => exact absurd rfl h
    | cons a r => rfl

/-- What is stored, after the calls. -/
structure Kept (keyOf : Str → Str → κ) (n : Nat) (db : List (Item κ)) (cs : List Call) : Prop where
  items : ∀ i ∈ db, i.key = keyOf i.owner i.id ∧ sameCalls cs i.owner i.id ≠ [] ∧ i.texts.length = n ∧
    ∀ k, k < n → i.texts[k]? = some (lastSaid ((sameCalls cs i.owner i.id).map fun c => (c.texts[k]?).join))
  all : ∀ c ∈ cs, ∃ i ∈ db, i.owner = c.owner ∧ i.id = c.id

theorem sameCalls_snoc (cs : List Call) (c : Call) (o n : Str) :
    sameCalls (cs ++ [c]) o n = if c.owner = o ∧ c.id = n then sameCalls cs o n ++ [c] else sameCalls cs o n := by
  unfold sameCalls
  rw [List.filter_append]
  by_cases h : c.owner = o ∧ c.id = n
  · rw [if_pos h, List.filter_cons_of_pos (by simp [h.1, h.2])]; rfl
  · rw [if_neg h, List.filter_cons_of_neg (by simpa using h)]; simp

/-- Merging the texts of another call. -/
theorem merged (n : Nat) (ts : List (Option Str)) (cs : List Call) (c : Call) (hc : c.texts.length = n) (hne : cs ≠ [])
    (h1 : ts.length = n) (h2 : ∀ k, k < n → ts[k]? = some (lastSaid (cs.map fun c => (c.texts[k]?).join))) :
    (List.zipWith newText ts c.texts).length = n ∧
    ∀ k, k < n → (List.zipWith newText ts c.texts)[k]? = some (lastSaid ((cs ++ [c]).map fun c => (c.texts[k]?).join)) := by
  refine ⟨by simp [h1, hc], fun k hk => ?_⟩
  rw [List.map_append, List.map_cons, List.map_nil, lastSaid_snoc _ _ (by simpa using hne), List.getElem?_zipWith, h2 k hk]
  rw [List.getElem?_eq_getElem (show k < c.texts.length by omega)]
  simp

theorem getItem_spec (keyOf : Str → Str → κ) (n : Nat) (db : List (Item κ)) (cs : List Call) (c : Call)
    (hk : Kept keyOf n db cs) (hc : c.texts.length = n)
    (hinj : ∀ d ∈ cs, keyOf d.owner d.id = keyOf c.owner c.id → d.owner = c.owner ∧ d.id = c.id) :
    (∃ i, (getItem keyOf db c).1 = some i ∧ i.owner = c.owner ∧ i.id = c.id ∧ i.texts.length = n ∧
      ∀ k, k < n → i.texts[k]? = some (lastSaid ((sameCalls (cs ++ [c]) c.owner c.id).map fun c => (c.texts[k]?).join))) ∧
    Kept keyOf n (getItem keyOf db c).2 (cs ++ [c]) := by
  have hkey : ∀ i ∈ db, i.key = keyOf c.owner c.id → i.owner = c.owner ∧ i.id = c.id := by
    intro i hi e
    obtain ⟨h1, h2, -⟩ := hk.items i hi
    cases hcs : sameCalls cs i.owner i.id with
    | nil => exact absurd hcs h2
    | cons d r =>
      have : d ∈ sameCalls cs i.owner i.id := by rw [hcs]; simp
      simp only [sameCalls, List.mem_filter, Bool.and_eq_true, decide_eq_true_eq] at this
      obtain ⟨hd, e1, e2⟩ := this
      have := hinj d hd (by rw [e1, e2, ← h1, e])
      rw [e1, e2] at this
      exact this
  unfold getItem
  dsimp only
  split
  · rename_i i hf
    have h1 := List.find?_some hf
    have hi := List.mem_of_find?_eq_some hf
    simp only [Bool.and_eq_true, decide_eq_true_eq] at h1
    obtain ⟨-, eid⟩ := hkey i hi h1.1
    obtain ⟨a1, a2, a3, a4⟩ := hk.items i hi
    have hm := merged n i.texts _ c hc a2 a3 a4
    rw [h1.2, eid] at hm a2
    refine ⟨⟨_, rfl, h1.2, eid, hm.1, ?_⟩, ?_, ?_⟩
    · rw [sameCalls_snoc, if_pos ⟨rfl, rfl⟩]; exact hm.2
    · intro j hj
      unfold setTexts at hj
      rw [List.mem_map] at hj
      obtain ⟨x, hx, rfl⟩ := hj
      obtain ⟨b1, b2, b3, b4⟩ := hk.items x hx
      split
      · rename_i e
        obtain ⟨e1, e2⟩ := hkey x hx e
        have hm := merged n x.texts _ c hc b2 b3 b4
        dsimp only
        refine ⟨b1, ?_, hm.1, ?_⟩
        · rw [sameCalls_snoc, if_pos ⟨e1.symm, e2.symm⟩]; simp
        · rw [sameCalls_snoc, if_pos ⟨e1.symm, e2.symm⟩]; exact hm.2
      · rename_i e
        have hne : ¬ (c.owner = x.owner ∧ c.id = x.id) := fun h => e (by rw [b1, h.1, h.2])
        rw [sameCalls_snoc, if_neg hne]
        exact ⟨b1, b2, b3, b4⟩
    · intro d hd
      have : ∃ j ∈ db, j.owner = d.owner ∧ j.id = d.id := by
        rcases List.mem_append.1 hd with hd | hd
        · exact hk.all d hd
        · simp only [List.mem_singleton] at hd
          subst hd
          exact ⟨i, hi, h1.2, eid⟩
      obtain ⟨j, hj, e1, e2⟩ := this
      refine ⟨_, List.mem_map.2 ⟨j, hj, rfl⟩, ?_, ?_⟩
      · rw [← e1]; split <;> rfl
      · rw [← e2]; split <;> rfl
  · rename_i hf
    rw [List.find?_eq_none] at hf
    have hno : ∀ i ∈ db, i.key ≠ keyOf c.owner c.id := by
      intro i hi e
      apply hf i hi
      simp [e, (hkey i hi e).1]
    have hnc : sameCalls cs c.owner c.id = [] := by
      unfold sameCalls
      rw [List.filter_eq_nil_iff]
      intro d hd h
      simp only [Bool.and_eq_true, decide_eq_true_eq] at h
      obtain ⟨i, hi, e1, e2⟩ := hk.all d hd
      apply hno i hi
      rw [(hk.items i hi).1, e1, e2, h.1, h.2]
    rw [if_neg (by simp only [List.any_eq_true, decide_eq_true_eq, not_exists, not_and]; exact hno)]
    have hnew : c.texts.length = n ∧ ∀ k, k < n → c.texts[k]? =
        some (lastSaid ((sameCalls (cs ++ [c]) c.owner c.id).map fun c => (c.texts[k]?).join)) := by
      refine ⟨hc, fun k hkn => ?_⟩
      rw [sameCalls_snoc, if_pos ⟨rfl, rfl⟩, hnc]
      rw [List.getElem?_eq_getElem (show k < c.texts.length by omega)]
      simp only [List.nil_append, List.map_cons, List.map_nil, Option.some.injEq, lastSaid]
      rw [List.getElem?_eq_getElem (show k < c.texts.length by omega)]
      by_cases hs : Says c.texts[k] = true
      · simp [List.filter_cons_of_pos, hs]
      · simp [List.filter_cons_of_neg, hs]
    refine ⟨⟨_, rfl, rfl, rfl, hnew.1, hnew.2⟩, ?_, ?_⟩
    · intro j hj
      rcases List.mem_cons.1 hj with rfl | hj
      · refine ⟨rfl, ?_, hnew.1, hnew.2⟩
        dsimp only
        rw [sameCalls_snoc, if_pos ⟨rfl, rfl⟩]; simp
      · obtain ⟨b1, b2, b3, b4⟩ := hk.items j hj
        have hne : ¬ (c.owner = j.owner ∧ c.id = j.id) := fun h => hno j hj (by rw [b1, h.1, h.2])
        rw [sameCalls_snoc, if_neg hne]
        exact ⟨b1, b2, b3, b4⟩
    · intro d hd
      rcases List.mem_append.1 hd with hd | hd
      · obtain ⟨i, hi, h⟩ := hk.all d hd
        exact ⟨i, by simp [hi], h⟩
      · simp only [List.mem_singleton] at hd
        subst hd
        exact ⟨_, List.mem_cons_self, rfl, rfl⟩

theorem getItems_kept (keyOf : Str → Str → κ) (n : Nat) (cs : List Call) :
    ∀ (db : List (Item κ)) (pre : List Call), Kept keyOf n db pre → (∀ c ∈ pre ++ cs, c.texts.length = n) →
      (∀ c ∈ pre ++ cs, ∀ d ∈ pre ++ cs, keyOf d.owner d.id = keyOf c.owner c.id → d.owner = c.owner ∧ d.id = c.id) →
      Kept keyOf n (getItems keyOf db cs) (pre ++ cs) := by
  induction cs with
  | nil => intro db pre h _ _; rw [List.append_nil]; exact h
  | cons c cs ih =>
    intro db pre h hl hinj
    have := (getItem_spec keyOf n db pre c h (hl c (by simp)) (fun d hd => hinj c (by simp) d (by simp [hd]))).2
    have := ih _ _ this (by simpa using hl) (by simpa using hinj)
    simpa [getItems] using this

/-- Calls for entities whose keys are different. -/
theorem kept_last (keyOf : Str → Str → κ) (n : Nat) (cs : List Call) (c : Call) (hl : ∀ d ∈ cs ++ [c], d.texts.length = n)
    (hinj : ∀ x ∈ cs ++ [c], ∀ d ∈ cs ++ [c], keyOf d.owner d.id = keyOf x.owner x.id → d.owner = x.owner ∧ d.id = x.id) :
    ∃ i, (getItem keyOf (getItems keyOf [] cs) c).1 = some i ∧ i.owner = c.owner ∧ i.id = c.id ∧ i.texts.length = n ∧
      ∀ k, k < n → i.texts[k]? = some (lastSaid ((sameCalls (cs ++ [c]) c.owner c.id).map fun c => (c.texts[k]?).join)) := by
  have h0 : Kept keyOf n ([] : List (Item κ)) [] := ⟨by simp, by simp⟩
  have h1 := getItems_kept keyOf n cs [] [] h0 (fun d hd => hl d (by simp at hd; simp [hd]))
    (fun x hx d hd => hinj x (by simp at hx; simp [hx]) d (by simp at hd; simp [hd]))
  exact (getItem_spec keyOf n _ cs c h1 (hl c (by simp)) (fun d hd => hinj c (by simp) d (by simp [hd]))).1

/-! ### C112 -/

/-- C112: for resources and users.  After every history of launches, a launch gets the entity of its own consumer with
the id that was sent; each of its texts is the last one sent for it that was not empty, or the first one. -/
theorem C112_resources_users (n : Nat) (cs : List Call) (c : Call) (hl : ∀ d ∈ cs ++ [c], d.texts.length = n) :
    ∃ i, (getItem Prod.mk (getItems Prod.mk [] cs) c).1 = some i ∧ i.owner = c.owner ∧ i.id = c.id ∧ i.texts.length = n ∧
      ∀ k, k < n → i.texts[k]? = some (lastSaid ((sameCalls (cs ++ [c]) c.owner c.id).map fun c => (c.texts[k]?).join)) :=
  kept_last Prod.mk n cs c hl (fun _ _ _ _ e => Prod.mk.inj e)

/-- C112: the same for contexts, if the keys of the consumers all have the same length and the digest has no
collisions. -/
theorem C112_contexts_partial (H : Str → κ) (hH : Function.Injective H) (n len : Nat) (cs : List Call) (c : Call)
    (hl : ∀ d ∈ cs ++ [c], d.texts.length = n) (hlen : ∀ d ∈ cs ++ [c], d.owner.length = len) :
    ∃ i, (getItem (contextKey H) (getItems (contextKey H) [] cs) c).1 = some i ∧ i.owner = c.owner ∧ i.id = c.id ∧
      i.texts.length = n ∧
      ∀ k, k < n → i.texts[k]? = some (lastSaid ((sameCalls (cs ++ [c]) c.owner c.id).map fun c => (c.texts[k]?).join)) := by
  apply kept_last (contextKey H) n cs c hl
  intro x hx d hd e
  exact List.append_inj (hH e) ((hlen d hd).trans (hlen x hx).symm)

/-- C112, violated: a consumer can prevent the launches of another.  After a launch by the consumer "a" in the context
"bc", launches by the consumer "ab" in its context "c" fail. -/
theorem C112_clash (H : Str → κ) (t : Option Str) :
    (getItem (contextKey H) (getItems (contextKey H) [] [⟨[97], [98, 99], [t]⟩]) ⟨[97, 98], [99], [t]⟩).1 = none := by
  simp [getItem, getItems, contextKey]

/-! Cases that meet the hypotheses. -/

example : ((getItem Prod.mk (getItems Prod.mk [] [⟨[1], [2], [some [65], none]⟩, ⟨[1], [3], [some [66], none]⟩,
    ⟨[1], [2], [some [], some [67]]⟩]) ⟨[1], [2], [none, some [68]]⟩).1.map (·.texts)) = some [some [65], some [68]] := by
  decide +kernel
example : lastSaid [some [], some [65], none, some []] = some [65] ∧ lastSaid [some [], none] = some [] := by decide

end Verif.Lti

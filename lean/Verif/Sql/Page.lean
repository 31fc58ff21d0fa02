import Verif.Sql.Skip
/-!
# C89: paging in a SQL collection: `pyslet/odata2/sqlds.py` lines 530-698, 5550-5557
-/
namespace Verif.Sql
open Verif.OData

/-- The paging part of a collection: `top`, `skip`, `skiptoken`, `nextSkiptoken`. -/
structure PState where
  top : Option Nat
  skip : Nat
  token : Option (List Val)
  next : Option (List Val)
deriving Repr

/-- What the query needs to know of a table: the directions of the order (of `$orderby` and then of the key), the
order values of a row as the database holds them, the same values as read for a skiptoken
(`new_from_sql_value`), and `topmax`. -/
structure Table (R : Type) where
  dirs : List Bool
  cols : R → List SqlVal
  key : R → List Val
  topmax : Option Nat

variable {R : Type}

/-- The length of a token, sqlds.py:661-665.  (Lengths of texts; binary values are not modelled.) -/
def tokenLen : List Val → Nat
  | [] => 0
  | .str s :: vs => s.length + tokenLen vs
  | _ :: vs => tokenLen vs

/-- The condition of the skiptoken, which is the meaning of `where_skiptoken_clause` (C88).  Values of the token
beyond the terms of the order are not used. -/
def sel (T : Table R) (token : Option (List Val)) (r : R) : Bool :=
  match token with
  | none => true
  | some t => afterKey T.dirs (T.cols r) (t.map paramVal)

/-- The number of rows that is asked for, sqlds.py:598-604. -/
def limitOf (top topmax : Option Nat) : Option Nat :=
  match topmax, top with
  | some m, some t => some (min t m)
  | some m, none => some m
  | none, t => t

/-- The rows that SQLite returns, sqlds.py:617-624, 5550-5557: `rows` are those that satisfy the filter, in the
order of the ORDER BY clause.  A limit of 0 is left out; OFFSET without LIMIT is a syntax error. -/
def fetch (T : Table R) (rows : List R) (st : PState) : Option (List R) :=
  let found := rows.filter (sel T st.token)
  match limitOf st.top T.topmax with
  | none | some 0 => if st.skip = 0 then some found else none
  | some n => some ((found.drop st.skip).take n)

/-- The token for the row `r`, sqlds.py:656-673: `none` is TypeError from `list(None)`. -/
def tokenFor (T : Table R) (st : PState) (r : R) : Option (List Val) :=
  if tokenLen (T.key r) > 512 then
    match st.token, T.topmax with
    | some t, some m => some (t ++ [.i32 m])
    | _, _ => none
  else some (T.key r)

/-- The loop of `page_generator`, sqlds.py:631-687, for a caller that takes all the entities: `topmax` and `top` are
the local counters.  The second component is the collection afterwards; `none` is an exception. -/
def pageLoop (T : Table R) (setNext : Bool) (st : PState) : Option Nat → Option Nat → List R → List R × Option PState
  | _, _, [] => ([], some (if setNext then { st with top := some 0, skip := 0 } else st))
  | topmax, top, r :: rs =>
    if topmax.any (fun n => n ≤ 1) then
      ([r], (tokenFor T st r).map fun t =>
        if setNext then { st with next := some t, token := some t, skip := 0 } else { st with next := some t })
    else if top.any (fun n => n ≤ 1) then
      ([r], some (if setNext then { st with skip := st.skip + st.top.getD 0 } else st))
    else
      let rest := pageLoop T setNext st (topmax.map (· - 1)) (top.map (· - 1)) rs
      (r :: rest.1, rest.2)

/-- `page_generator`, sqlds.py:591-694. -/
def page (T : Table R) (rows : List R) (setNext : Bool) (st : PState) : List R × Option PState :=
  if st.top = some 0 then ([], some st) else
  match fetch T rows st with
  | none => ([], none)
  | some found => pageLoop T setNext st T.topmax st.top found

/-- `n` calls of `iterpage(True)`. -/
def pages (T : Table R) (rows : List R) : Nat → PState → Option (List (List R))
  | 0, _ => some []
  | n + 1, st =>
    match page T rows true st with
    | (_, none) => none
    | (p, some st') => (pages T rows n st').map (p :: ·)

/-- `set_page`, sqlds.py:530-580, for a token that is parsed already; `n` is the number of terms of the order. -/
def setPage (n : Nat) (top : Option Nat) (skip : Nat) : Option (List Val) → Option PState
  | none => some ⟨top, skip, none, none⟩
  | some t =>
    if t.length = n + 1 then
      match t.getLast? with
      | some (.i32 k) => if 0 ≤ k then some ⟨top, skip + k.toNat, some t.dropLast, none⟩ else none
      | _ => none
    else if t.length = n then some ⟨top, skip, some t, none⟩
    else none

/-! ### Specification -/

/-- The rows are in the order, no two have the same order values, and the values of a token for a row are those of
the row. -/
structure Ordered (T : Table R) (rows : List R) : Prop where
  sorted : rows.Pairwise fun a b => afterKey T.dirs (T.cols b) (T.cols a) = true
  key : ∀ r ∈ rows, (T.key r).map paramVal = T.cols r
  short : ∀ r ∈ rows, tokenLen (T.key r) ≤ 512

/-! ### The order -/

theorem valLt_asymm {a b : SqlVal} (h : valLt a b = true) : valLt b a = false := by
  cases a <;> cases b <;> simp [valLt] at h ⊢
  · omega
  · exact le_of_lt h

theorem valLt_trans {a b c : SqlVal} (h1 : valLt a b = true) (h2 : valLt b c = true) : valLt a c = true := by
  cases a <;> cases b <;> cases c <;> simp [valLt] at h1 h2 ⊢
  · omega
  · exact List.lt_trans h1 h2

/-- `a` comes after `b` in one term of the order. -/
def dirAfter (asc : Bool) (a b : SqlVal) : Bool := if asc then valLt b a else valLt a b

theorem dirAfter_asymm {asc : Bool} {a b : SqlVal} (h : dirAfter asc a b = true) : dirAfter asc b a = false := by
  cases asc <;> exact valLt_asymm h

theorem dirAfter_trans {asc : Bool} {a b c : SqlVal} (h1 : dirAfter asc a b = true) (h2 : dirAfter asc b c = true) :
    dirAfter asc a c = true := by
  cases asc
  · exact valLt_trans (a := a) h1 h2
  · exact valLt_trans (a := c) h2 h1

theorem afterKey_cons (asc : Bool) (ds : List Bool) (a b : SqlVal) (as bs : List SqlVal) :
    afterKey (asc :: ds) (a :: as) (b :: bs) = true ↔ dirAfter asc a b = true ∨ a = b ∧ afterKey ds as bs = true := by
  simp [afterKey, dirAfter]

theorem afterKey_asymm : ∀ (ds : List Bool) (a b : List SqlVal), afterKey ds a b = true → afterKey ds b a = false
  | [], _, _, h => by simp [afterKey] at h
  | _ :: _, [], _, h => by simp [afterKey] at h
  | _ :: _, _ :: _, [], h => by simp [afterKey] at h
  | asc :: ds, a :: as, b :: bs, h => by
    have ih := afterKey_asymm ds as bs
    rw [afterKey_cons] at h
    rw [Bool.eq_false_iff, Ne, afterKey_cons]
    rcases h with h | ⟨rfl, h⟩
    · have h' := dirAfter_asymm h
      rintro (k | ⟨rfl, k⟩)
      · rw [h'] at k; cases k
      · rw [h'] at h; cases h
    · rintro (k | ⟨_, k⟩)
      · have := dirAfter_asymm k; rw [this] at k; cases k
      · rw [ih h] at k; cases k

theorem afterKey_trans : ∀ (ds : List Bool) (a b c : List SqlVal), afterKey ds a b = true → afterKey ds b c = true →
    afterKey ds a c = true
  | [], _, _, _, h, _ => by simp [afterKey] at h
  | _ :: _, [], _, _, h, _ => by simp [afterKey] at h
  | _ :: _, _ :: _, [], _, h, _ => by simp [afterKey] at h
  | _ :: _, _ :: _, _ :: _, [], _, h => by simp [afterKey] at h
  | asc :: ds, a :: as, b :: bs, c :: cs, h1, h2 => by
    have ih := afterKey_trans ds as bs cs
    rw [afterKey_cons] at h1 h2 ⊢
    rcases h1 with h1 | ⟨rfl, h1⟩
    · rcases h2 with h2 | ⟨rfl, h2⟩
      · exact .inl (dirAfter_trans h1 h2)
      · exact .inl h1
    · rcases h2 with h2 | ⟨rfl, h2⟩
      · exact .inl h2
      · exact .inr ⟨rfl, ih h1 h2⟩

/-! ### Positions -/

theorem Ordered.tail {T : Table R} {r : R} {rows : List R} (h : Ordered T (r :: rows)) : Ordered T rows where
  sorted := (List.pairwise_cons.mp h.sorted).2
  key := fun x hx => h.key x (List.mem_cons_of_mem _ hx)
  short := fun x hx => h.short x (List.mem_cons_of_mem _ hx)

theorem filter_all {p : R → Bool} : ∀ {l : List R}, (∀ x ∈ l, p x = true) → l.filter p = l := by
  intro l h; exact List.filter_eq_self.mpr h

/-- The rows after a token are a tail of the rows. -/
theorem sel_suffix (T : Table R) (token : Option (List Val)) : ∀ (rows : List R), Ordered T rows →
    ∃ p, rows.filter (sel T token) = rows.drop p
  | [], _ => ⟨0, rfl⟩
  | r :: rows, h => by
    by_cases hr : sel T token r = true
    · refine ⟨0, filter_all fun x hx => ?_⟩
      rcases List.mem_cons.mp hx with rfl | hx
      · exact hr
      · cases token with
        | none => rfl
        | some t => exact afterKey_trans T.dirs _ _ _ ((List.pairwise_cons.mp h.sorted).1 x hx) hr
    · obtain ⟨p, hp⟩ := sel_suffix T token rows h.tail
      refine ⟨p + 1, ?_⟩
      rw [List.filter_cons_of_neg hr, hp, List.drop_succ_cons]

/-- The rows after the token of a row are the rows that follow it. -/
theorem sel_key (T : Table R) : ∀ (rows : List R), Ordered T rows → ∀ i r, rows[i]? = some r →
    rows.filter (sel T (some (T.key r))) = rows.drop (i + 1)
  | [], _, i, r, h => by simp at h
  | x :: rows, h, 0, r, hr => by
    have hx : x = r := by simpa using hr
    subst hx
    have hk := h.key x (by simp)
    have hn : ¬ sel T (some (T.key x)) x = true := by
      intro hs
      have hs' : afterKey T.dirs (T.cols x) (T.cols x) = true := by
        have hs2 : afterKey T.dirs (T.cols x) ((T.key x).map paramVal) = true := hs
        rwa [hk] at hs2
      have := afterKey_asymm _ _ _ hs'
      rw [this] at hs'; cases hs'
    rw [List.filter_cons_of_neg hn]
    show _ = rows
    refine filter_all fun y hy => ?_
    show afterKey T.dirs (T.cols y) ((T.key x).map paramVal) = true
    rw [hk]
    exact (List.pairwise_cons.mp h.sorted).1 y hy
  | x :: rows, h, i + 1, r, hr => by
    have hr' : rows[i]? = some r := by simpa using hr
    have hm : r ∈ rows := List.mem_of_getElem? hr'
    have hk := h.key r (List.mem_cons_of_mem _ hm)
    have hn : ¬ sel T (some (T.key r)) x = true := by
      intro hs
      have hs' : afterKey T.dirs (T.cols x) (T.cols r) = true := by rw [← hk]; exact hs
      have := afterKey_asymm _ _ _ ((List.pairwise_cons.mp h.sorted).1 r hm)
      rw [this] at hs'; cases hs'
    rw [List.filter_cons_of_neg hn, sel_key T rows h.tail i r hr', List.drop_succ_cons]

/-! ### One page -/

/-- The collection after a page that was filled. -/
def afterFull (T : Table R) (setNext : Bool) (st : PState) (byToken : Bool) (r : R) : Option PState :=
  if byToken then (tokenFor T st r).map fun t =>
    if setNext then { st with next := some t, token := some t, skip := 0 } else { st with next := some t }
  else some (if setNext then { st with skip := st.skip + st.top.getD 0 } else st)

theorem limitOf_pred {m t : Option Nat} {w : Nat} (h : limitOf t m = some (w + 1)) :
    limitOf (t.map (· - 1)) (m.map (· - 1)) = some w := by
  cases m <;> cases t <;> simp [limitOf] at h ⊢ <;> omega

theorem any_le_one {m : Option Nat} (h : m.any (fun n => n ≤ 1) = true) : ∃ n, m = some n ∧ n ≤ 1 := by
  cases m with
  | none => simp at h
  | some n => exact ⟨n, rfl, by simpa using h⟩

theorem pageLoop_spec (T : Table R) (setNext : Bool) (st : PState) : ∀ (L : List R) (m t : Option Nat) (w : Nat),
    limitOf t m = some (w + 1) → L.length ≤ w + 1 →
    (pageLoop T setNext st m t L).1 = L ∧
    (L.length < w + 1 → (pageLoop T setNext st m t L).2 =
      some (if setNext then { st with top := some 0, skip := 0 } else st)) ∧
    (∀ r, L.length = w + 1 → L.getLast? = some r →
      (pageLoop T setNext st m t L).2 = afterFull T setNext st (m == some (w + 1)) r)
  | [], m, t, w, _, _ => ⟨rfl, fun _ => rfl, fun r h => by simp at h⟩
  | r :: rs, m, t, w, hl, hlen => by
    rw [pageLoop]
    by_cases hm : m.any (fun n => n ≤ 1) = true
    · rw [if_pos hm]
      obtain ⟨n, rfl, hn⟩ := any_le_one hm
      have hw : w = 0 ∧ n = 1 := by cases t <;> simp [limitOf] at hl <;> omega
      obtain ⟨rfl, rfl⟩ := hw
      have hrs : rs = [] := List.eq_nil_of_length_eq_zero (by simpa using hlen)
      subst hrs
      refine ⟨rfl, fun h => by simp at h, fun x _ hx => ?_⟩
      have : r = x := by simpa using hx
      subst this
      rfl
    · rw [if_neg hm]
      by_cases ht : t.any (fun n => n ≤ 1) = true
      · rw [if_pos ht]
        obtain ⟨n, rfl, hn⟩ := any_le_one ht
        have hm' : ∀ k, m = some k → 2 ≤ k := by
          intro k hk; subst hk
          simp at hm; omega
        have hw : w = 0 ∧ n = 1 := by
          cases m with
          | none => simp [limitOf] at hl; omega
          | some k => have := hm' k rfl; simp [limitOf] at hl; omega
        obtain ⟨rfl, rfl⟩ := hw
        have hrs : rs = [] := List.eq_nil_of_length_eq_zero (by simpa using hlen)
        subst hrs
        refine ⟨rfl, fun h => by simp at h, fun x _ hx => ?_⟩
        have hne : (m == some (0 + 1)) = false := by
          cases m with
          | none => rfl
          | some k => have := hm' k rfl; simp; omega
        rw [hne]
        rfl
      · rw [if_neg ht]
        have hm' : ∀ k, m = some k → 2 ≤ k := by
          intro k hk; subst hk
          simp at hm; omega
        have ht' : ∀ k, t = some k → 2 ≤ k := by
          intro k hk; subst hk
          simp at ht; omega
        obtain ⟨v, rfl⟩ : ∃ v, w = v + 1 := by
          cases m with
          | none => cases t with
            | none => simp [limitOf] at hl
            | some k => have := ht' k rfl; simp [limitOf] at hl; exact ⟨w - 1, by omega⟩
          | some k => have := hm' k rfl; cases t with
            | none => simp [limitOf] at hl; exact ⟨w - 1, by omega⟩
            | some j => have := ht' j rfl; simp [limitOf] at hl; exact ⟨w - 1, by omega⟩
        obtain ⟨h1, h2, h3⟩ := pageLoop_spec T setNext st rs (m.map (· - 1)) (t.map (· - 1)) v (limitOf_pred hl)
          (by simpa using hlen)
        dsimp only
        refine ⟨by rw [h1], fun h => h2 (by simpa using h), fun x hx hlast => ?_⟩
        have hx' : rs.length = v + 1 := by simpa using hx
        have hlast' : rs.getLast? = some x := by
          cases rs with
          | nil => simp at hx'
          | cons y ys => simpa [List.getLast?_cons_cons] using hlast
        rw [h3 x hx' hlast']
        have : (m.map (· - 1) == some (v + 1)) = (m == some (v + 1 + 1)) := by
          cases m with
          | none => rfl
          | some k => have := hm' k rfl; simp only [Option.map_some]; rw [Bool.eq_iff_iff]; simp only [beq_iff_eq, Option.some.injEq]; omega
        rw [this]

/-- The collection is at row `p`. -/
def At (T : Table R) (rows : List R) (w p : Nat) (st : PState) : Prop :=
  (st.top = some 0 ∧ rows.drop p = []) ∨
  (limitOf st.top T.topmax = some w ∧ (rows.filter (sel T st.token)).drop st.skip = rows.drop p)

theorem tokenFor_short {T : Table R} {rows : List R} (h : Ordered T rows) (st : PState) {r : R} (hr : r ∈ rows) :
    tokenFor T st r = some (T.key r) := by
  unfold tokenFor
  rw [if_neg (by have := h.short r hr; omega)]

theorem fetch_at {T : Table R} {rows : List R} {st : PState} {w p : Nat}
    (hl : limitOf st.top T.topmax = some (w + 1))
    (hp : (rows.filter (sel T st.token)).drop st.skip = rows.drop p) :
    fetch T rows st = some ((rows.drop p).take (w + 1)) := by
  unfold fetch
  rw [hl]
  dsimp only
  rw [hp]
  rfl

theorem page_at {T : Table R} {rows : List R} (h : Ordered T rows) {w p : Nat} {st : PState}
    (hs : At T rows (w + 1) p st) :
    ∃ st', page T rows true st = ((rows.drop p).take (w + 1), some st') ∧ At T rows (w + 1) (p + (w + 1)) st' := by
  rcases hs with ⟨ht, hp⟩ | ⟨hl, hp⟩
  · refine ⟨st, ?_, .inl ⟨ht, ?_⟩⟩
    · rw [page, if_pos ht, hp]; rfl
    · rw [← List.drop_drop, hp]; rfl
  · have ht : ¬ st.top = some 0 := by
      intro ht
      rw [ht] at hl
      cases hm : T.topmax <;> rw [hm] at hl <;> simp [limitOf] at hl
    unfold page
    rw [if_neg ht, fetch_at hl hp]
    dsimp only
    have hlen : ((rows.drop p).take (w + 1)).length ≤ w + 1 := List.length_take_le _ _
    obtain ⟨h1, h2, h3⟩ := pageLoop_spec T true st _ T.topmax st.top w hl hlen
    by_cases hfull : ((rows.drop p).take (w + 1)).length = w + 1
    · have hlt : p + w < rows.length := by rw [List.length_take, List.length_drop] at hfull; omega
      obtain ⟨r, hr⟩ : ∃ r, rows[p + w]? = some r := ⟨rows[p + w], List.getElem?_eq_getElem hlt⟩
      have hlast : ((rows.drop p).take (w + 1)).getLast? = some r := by
        rw [List.getLast?_eq_getElem?, hfull, Nat.add_sub_cancel, List.getElem?_take, if_pos (by omega),
          List.getElem?_drop, hr]
      have hst := h3 r hfull hlast
      have hmem : r ∈ rows := List.mem_of_getElem? hr
      by_cases hm : T.topmax = some (w + 1)
      · have hb : (T.topmax == some (w + 1)) = true := by rw [hm]; simp
        rw [hb] at hst
        simp only [afterFull, if_true, tokenFor_short h st hmem, Option.map_some] at hst
        refine ⟨_, Prod.ext h1 hst, .inr ⟨hl, ?_⟩⟩
        dsimp only
        rw [sel_key T rows h _ _ hr]
        rfl
      · have hb : (T.topmax == some (w + 1)) = false := by simpa using hm
        rw [hb] at hst
        simp only [afterFull, if_true, Bool.false_eq_true, if_false] at hst
        have htop : st.top = some (w + 1) := by
          cases hm2 : T.topmax with
          | none => rw [hm2] at hl; exact hl
          | some k =>
            cases ht2 : st.top with
            | none => rw [hm2, ht2] at hl; exact absurd (hm2.trans hl) hm
            | some j =>
              rw [hm2, ht2] at hl
              rw [hm2] at hm
              simp [limitOf] at hl hm ⊢
              omega
        refine ⟨_, Prod.ext h1 hst, .inr ⟨hl, ?_⟩⟩
        dsimp only
        rw [htop, Option.getD_some, ← List.drop_drop, hp, List.drop_drop]
    · have hst := h2 (by omega)
      refine ⟨_, Prod.ext h1 hst, .inl ⟨rfl, ?_⟩⟩
      rw [List.length_take, List.length_drop] at hfull
      exact List.drop_eq_nil_of_le (by omega)

theorem pages_at {T : Table R} {rows : List R} (h : Ordered T rows) {w : Nat} : ∀ (n p : Nat) (st : PState),
    At T rows (w + 1) p st →
    pages T rows n st = some ((List.range n).map fun i => (rows.drop (p + i * (w + 1))).take (w + 1))
  | 0, _, _, _ => rfl
  | n + 1, p, st, hs => by
    obtain ⟨st', h1, h2⟩ := page_at h hs
    rw [pages, h1]
    dsimp only
    rw [pages_at h n _ st' h2, List.range_succ_eq_map, List.map_cons, List.map_map, Option.map_some]
    congr 1
    congr 1
    · simp
    · apply List.map_congr_left
      intro i _
      simp only [Function.comp]
      congr 2
      rw [Nat.succ_mul]; omega

/-- **C89** (order values are not null and the texts in a token are not longer than 512 characters; what is missing
is shown by the violations below).  Reading page after page with `iterpage(True)` gives, one page after the other
and without gaps or repetitions, the rows after the starting token, `skip` of them left out: the page with number `i`
has the rows from `skip + i * w` on, where the page size `w` is the smaller of `top` and `topmax`. -/
theorem C89_pages_partial (T : Table R) (rows : List R) (h : Ordered T rows) (st : PState) (w : Nat)
    (hw : limitOf st.top T.topmax = some w) (hpos : 0 < w) (n : Nat) :
    pages T rows n st = some ((List.range n).map fun i =>
      ((rows.filter (sel T st.token)).drop (st.skip + i * w)).take w) := by
  obtain ⟨v, rfl⟩ : ∃ v, w = v + 1 := ⟨w - 1, by omega⟩
  obtain ⟨p, hp⟩ := sel_suffix T st.token rows h
  rw [pages_at h n (p + st.skip) st (.inr ⟨hw, by rw [hp, List.drop_drop]⟩)]
  congr 1
  apply List.map_congr_left
  intro i _
  rw [hp, List.drop_drop]
  congr 2
  omega

/-- The pages together are the rows in their order. -/
theorem C89_pages_joined_partial (T : Table R) (rows : List R) (h : Ordered T rows) (st : PState) (w : Nat)
    (hw : limitOf st.top T.topmax = some w) (hpos : 0 < w) (n : Nat) :
    (pages T rows n st).map List.flatten = some (((rows.filter (sel T st.token)).drop st.skip).take (n * w)) := by
  rw [C89_pages_partial T rows h st w hw hpos n, Option.map_some]
  congr 1
  induction n with
  | zero => simp
  | succ n ih =>
    rw [List.range_succ, List.map_append, List.flatten_append, ih, Nat.succ_mul, List.take_add, List.drop_drop]
    simp


/-- **C89** for a client that sends the token of one page with the request for the next, when `topmax` limits the
page: a page has the next `w` rows; there is a token exactly when the page is full, and a request with this token
starts at the row after the page. -/
theorem C89_next_token_partial (T : Table R) (rows : List R) (h : Ordered T rows)
    (hlen : ∀ r ∈ rows, (T.key r).length = T.dirs.length) (st : PState) (w : Nat) (hnext : st.next = none)
    (hw : limitOf st.top T.topmax = some w) (hm : T.topmax = some w) (hpos : 0 < w) :
    ∃ st', page T rows false st = (((rows.filter (sel T st.token)).drop st.skip).take w, some st') ∧
      (((rows.filter (sel T st.token)).drop st.skip).length < w → st'.next = none) ∧
      (w ≤ ((rows.filter (sel T st.token)).drop st.skip).length → ∃ t st2, st'.next = some t ∧
        setPage T.dirs.length st.top 0 (some t) = some st2 ∧ st2.top = st.top ∧ st2.next = none ∧
        (rows.filter (sel T st2.token)).drop st2.skip = (rows.filter (sel T st.token)).drop (st.skip + w)) := by
  obtain ⟨v, rfl⟩ : ∃ v, w = v + 1 := ⟨w - 1, by omega⟩
  obtain ⟨p, hp⟩ := sel_suffix T st.token rows h
  have ht : ¬ st.top = some 0 := by
    intro ht
    rw [ht, hm] at hw
    simp [limitOf] at hw
  have hd : (rows.filter (sel T st.token)).drop st.skip = rows.drop (p + st.skip) := by rw [hp, List.drop_drop]
  have hpage : page T rows false st =
      pageLoop T false st T.topmax st.top ((rows.drop (p + st.skip)).take (v + 1)) := by
    unfold page
    rw [if_neg ht, fetch_at hw hd]
  rw [hpage, hd]
  obtain ⟨h1, h2, h3⟩ := pageLoop_spec T false st ((rows.drop (p + st.skip)).take (v + 1)) T.topmax st.top v hw
    (List.length_take_le _ _)
  by_cases hfull : ((rows.drop (p + st.skip)).take (v + 1)).length = v + 1
  · have hlt : p + st.skip + v < rows.length := by rw [List.length_take, List.length_drop] at hfull; omega
    obtain ⟨r, hr⟩ : ∃ r, rows[p + st.skip + v]? = some r := ⟨_, List.getElem?_eq_getElem hlt⟩
    have hlast : ((rows.drop (p + st.skip)).take (v + 1)).getLast? = some r := by
      rw [List.getLast?_eq_getElem?, hfull, Nat.add_sub_cancel, List.getElem?_take, if_pos (by omega),
        List.getElem?_drop, hr]
    have hst := h3 r hfull hlast
    have hmem : r ∈ rows := List.mem_of_getElem? hr
    have hb : (T.topmax == some (v + 1)) = true := by rw [hm]; simp
    rw [hb] at hst
    simp only [afterFull, if_true, Bool.false_eq_true, if_false, tokenFor_short h st hmem, Option.map_some] at hst
    refine ⟨_, Prod.ext h1 hst, ?_, ?_⟩
    · intro hl; rw [List.length_take, List.length_drop] at hfull; rw [List.length_drop] at hl; omega
    · intro _
      refine ⟨T.key r, ⟨st.top, 0, some (T.key r), none⟩, rfl, ?_, rfl, rfl, ?_⟩
      · unfold setPage
        dsimp only
        rw [if_neg (by rw [hlen r hmem]; omega), if_pos (hlen r hmem)]
      · dsimp only
        rw [sel_key T rows h _ _ hr, hp, List.drop_drop, List.drop_drop]
        congr 1
        omega
  · have hlt : ((rows.drop (p + st.skip)).take (v + 1)).length < v + 1 := by
      rw [List.length_take] at hfull ⊢; omega
    have hst := h2 hlt
    refine ⟨_, Prod.ext h1 hst, ?_, ?_⟩
    · intro _; exact hnext
    · intro hl; rw [List.length_take] at hlt; omega

/-! ### Examples -/

/-- Rows with an integer key. -/
def exTable (topmax : Option Nat) : Table Nat where
  dirs := [true]
  cols n := [.int n]
  key n := [.i32 n]
  topmax := topmax

theorem exTable_ordered (topmax : Option Nat) (n : Nat) : Ordered (exTable topmax) (List.range n) where
  sorted := List.pairwise_lt_range.imp fun {a b} h => by
    have : (a : Int) < b := by omega
    simp [exTable, afterKey, valLt, this]
  key := fun r _ => rfl
  short := fun r _ => by show 0 ≤ 512; omega

/-- Two pages of three rows, starting after the row with key 1. -/
example : pages (exTable (some 3)) (List.range 10) 4 ⟨some 5, 1, some [.i32 1], none⟩ =
    some [[3, 4, 5], [6, 7, 8], [9], []] := by decide +kernel

/-- Rows whose keys are long texts. -/
def longTable (topmax : Option Nat) : Table Nat where
  dirs := [true]
  cols n := [.text (List.replicate 600 n)]
  key n := [.str (List.replicate 600 n)]
  topmax := topmax

theorem longTable_len (topmax : Option Nat) (n : Nat) : tokenLen ((longTable topmax).key n) = 600 := by
  show (List.replicate 600 n).length + 0 = 600
  rw [List.length_replicate]

/-- If the texts of the order values of the last row of a page are longer than 512 characters then reading the first
page fails. -/
theorem C89_violation_long_token (rows : List Nat) (r : Nat) :
    page (longTable (some 1)) (r :: rows) true ⟨none, 0, none, none⟩ = ([r], none) := by
  have hf : fetch (longTable (some 1)) (r :: rows) ⟨none, 0, none, none⟩ = some [r] := by
    unfold fetch
    have : (r :: rows).filter (sel (longTable (some 1)) none) = r :: rows := filter_all fun _ _ => rfl
    rw [this]
    rfl
  unfold page
  rw [if_neg (by simp), hf]
  show pageLoop _ _ _ (some 1) none [r] = _
  rw [pageLoop, if_pos (by decide)]
  unfold tokenFor
  rw [longTable_len, if_pos (by omega)]
  rfl

theorem long_sel (extra : List Val) (n : Nat) (hn : 0 < n) :
    sel (longTable (some 1)) (some (.str [0] :: extra)) n = true := by
  show afterKey [true] [.text (List.replicate 600 n)] (SqlVal.text [0] :: extra.map paramVal) = true
  rw [afterKey_cons]
  refine .inl ?_
  show decide (([0] : List Nat) < List.replicate 600 n) = true
  rw [decide_eq_true_iff]
  have : List.replicate 600 n = n :: List.replicate 599 n := rfl
  rw [this, List.cons_lt_cons_iff]
  exact .inl hn

/-- If there is a token already, the page after such a row is the same page again, for ever: the token counts rows
from the old token, and the count is not used by the next page. -/
theorem C89_violation_long_token_repeats (n : Nat) (extra : List Val) (nx : Option (List Val)) :
    pages (longTable (some 1)) [1, 2, 3] n ⟨none, 0, some (.str [0] :: extra), nx⟩ = some (List.replicate n [1]) := by
  induction n generalizing extra nx with
  | zero => rfl
  | succ n ih =>
    have hf : fetch (longTable (some 1)) [1, 2, 3] ⟨none, 0, some (.str [0] :: extra), nx⟩ = some [1] := by
      unfold fetch
      have : [1, 2, 3].filter (sel (longTable (some 1)) (some (.str [0] :: extra))) = [1, 2, 3] :=
        filter_all fun x hx => long_sel extra x (by simp at hx; omega)
      rw [this]
      rfl
    have hp : page (longTable (some 1)) [1, 2, 3] true ⟨none, 0, some (.str [0] :: extra), nx⟩ =
        ([1], some ⟨none, 0, some (.str [0] :: (extra ++ [.i32 1])), some (.str [0] :: (extra ++ [.i32 1]))⟩) := by
      unfold page
      rw [if_neg (by simp), hf]
      show pageLoop _ _ _ (some 1) none [1] = _
      rw [pageLoop, if_pos (by decide)]
      unfold tokenFor
      rw [longTable_len, if_pos (by omega)]
      rfl
    rw [pages, hp]
    dsimp only
    rw [ih]
    rfl

/-- Skipping rows without a limit on the number of rows is not possible: SQLite has no OFFSET without LIMIT. -/
theorem C89_violation_skip (T : Table R) (hm : T.topmax = none) (rows : List R) (skip : Nat) (hs : 0 < skip) :
    page T rows true ⟨none, skip, none, none⟩ = ([], none) := by
  unfold page fetch
  rw [hm, if_neg (by simp)]
  dsimp only [limitOf]
  rw [if_neg (by omega)]

end Verif.Sql

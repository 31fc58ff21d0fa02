import Verif.Form.C113
import Verif.Form.Nav

/-!
# C116: the durations of a test session

Model of `TestSessionState.add_duration`
(`/repo/pyslet/qtiv2/variables.py` 2489-2519).
Durations are whole numbers of microseconds, `none` is NULL.
-/

namespace Verif.Form

/-- The duration variables by position in the form: position 0 is the test's own
(variables.py:2174-2192). -/
abbrev Durs := Nat → Option Int

/-- Add `dt` to the variable at a position; NULL becomes `dt`
(variables.py:2509-2513). -/
def addAt (d : Durs) (pos : Nat) (dt : Int) : Durs := fun i =>
  if i = pos then some ((d i).getD 0 + dt) else d i

/-- The loop back from the question (variables.py:2498-2514).  The list is the
form before the current position, last first, so the position of its head is the
length of its tail; the loop stops before position 0. -/
def backLoop (kind : Id → Option Kind) (dt : Int) :
    List Id → Nat → Durs → Except NavErr Durs
  | [], _, d => .ok d
  | id :: r, ignore, d =>
    if r = [] then .ok d
    else if id = [] then .error .index
    else if isClose id then backLoop kind dt r (ignore + 1) d
    else
      match kind id with
      | none => .error .key
      | some .item => backLoop kind dt r ignore d
      | some _ =>
        if ignore ≠ 0 then backLoop kind dt r (ignore - 1) d
        else backLoop kind dt r ignore (addAt d r.length dt)

/-- `self.namespace[pos]["duration"].value += dt`: a TypeError when the value is
NULL (variables.py:2494, 2516). -/
def bump (d : Durs) (pos : Nat) (dt : Int) : Except NavErr Durs :=
  match d pos with
  | none => .error .type
  | some v => .ok (fun i => if i = pos then some (v + dt) else d i)

/-- `add_duration(dt)`: nothing when there is no current question; otherwise the
item, the open sections and parts, and the test (variables.py:2489-2519). -/
def addDuration (kind : Id → Option Kind) (f : List Id) (q : Option Nat) (dt : Int) (d : Durs) :
    Except NavErr Durs :=
  match q with
  | none => .ok d
  | some 0 => .ok d
  | some iq =>
    match bump d iq dt with
    | .error e => .error e
    | .ok d =>
      match backLoop kind dt (f.take iq).reverse 0 d with
      | .error e => .error e
      | .ok d => bump d 0 dt

/-! ## Specification -/

/-- The container opened at position `j` of the form is open at position `i`: the
form has a block that starts at `j`, ends with the closing identifier, and
has position `i` inside. -/
def Encloses (item cont : Id → Prop) (f : List Id) (j i : Nat) : Prop :=
  ∃ pre x b post, f = pre ++ x :: (b ++ (45 :: x) :: post) ∧ pre.length = j ∧ cont x ∧
    Balanced item cont (b.map some) ∧ j < i ∧ i < j + 1 + b.length

/-- Items and containers are told apart by their identifiers, which do not start
with "-" and are not empty. -/
def KindOk (kind : Id → Option Kind) (item cont : Id → Prop) : Prop :=
  (∀ x, item x → kind x = some .item ∧ x ≠ [] ∧ isClose x = false) ∧
  (∀ x, cont x → (kind x = some .sect ∨ kind x = some .part) ∧ x ≠ [] ∧ isClose x = false)

/-- `GetPart` and `isinstance` for the parts of a test. -/
def Test.kind (t : Test) (x : Id) : Option Kind :=
  match t.get x with
  | some i => some (if i.isSect then .sect else .item)
  | none => if x ∈ t.map TPart.id then some .part else none

/-- The identifiers of the test are distinct (`register_part` refuses
duplicates) and proper: not empty and not starting with "-". -/
def Test.ProperIds (t : Test) : Prop :=
  (t.all.map Info.id ++ t.map TPart.id).Nodup ∧
  ∀ x ∈ t.all.map Info.id ++ t.map TPart.id, x ≠ [] ∧ isClose x = false

/-! ## Proof -/

/-- Credit a list of positions. -/
def credit (dt : Int) : List Nat → Durs → Durs
  | [], d => d
  | p :: ps, d => credit dt ps (addAt d p dt)

/-- The positions credited by the loop. -/
def backPos (kind : Id → Option Kind) : List Id → Nat → Except NavErr (List Nat)
  | [], _ => .ok []
  | id :: r, ignore =>
    if r = [] then .ok []
    else if id = [] then .error .index
    else if isClose id then backPos kind r (ignore + 1)
    else
      match kind id with
      | none => .error .key
      | some .item => backPos kind r ignore
      | some _ =>
        if ignore ≠ 0 then backPos kind r (ignore - 1)
        else
          match backPos kind r ignore with
          | .error e => .error e
          | .ok ps => .ok (r.length :: ps)

theorem backLoop_eq (kind : Id → Option Kind) (dt : Int) : ∀ (l : List Id) (n : Nat) (d : Durs),
    backLoop kind dt l n d =
      match backPos kind l n with
      | .error e => .error e
      | .ok ps => .ok (credit dt ps d) := by
  intro l
  induction l with
  | nil => intro n d; rfl
  | cons id r ih =>
    intro n d
    rw [backLoop, backPos]
    split
    · rfl
    · split
      · rfl
      · split
        · exact ih _ _
        · split
          · rfl
          · exact ih _ _
          · split
            · exact ih _ _
            · rw [ih]
              cases backPos kind r n with
              | error e => rfl
              | ok ps => rfl

theorem backPos_item {kind : Id → Option Kind} {item cont : Id → Prop}
    (hk : KindOk kind item cont) {x : Id} (hx : item x) (r : List Id) (hr : r ≠ [])
    (n : Nat) : backPos kind (x :: r) n = backPos kind r n := by
  obtain ⟨h1, h2, h3⟩ := hk.1 x hx
  rw [backPos, if_neg hr, if_neg h2, if_neg (by simp [h3])]
  rw [h1]

theorem backPos_cont {kind : Id → Option Kind} {item cont : Id → Prop}
    (hk : KindOk kind item cont) {x : Id} (hx : cont x) (r : List Id) (hr : r ≠ [])
    (n : Nat) : backPos kind (x :: r) n =
      if n ≠ 0 then backPos kind r (n - 1)
      else match backPos kind r n with
        | .error e => .error e
        | .ok ps => .ok (r.length :: ps) := by
  obtain ⟨h1, h2, h3⟩ := hk.2 x hx
  rw [backPos, if_neg hr, if_neg h2, if_neg (by simp [h3])]
  rcases h1 with h | h <;> rw [h]

theorem backPos_close (kind : Id → Option Kind) (x : Id) (r : List Id) (hr : r ≠ [])
    (n : Nat) :
    backPos kind ((45 :: x) :: r) n = backPos kind r (n + 1) := by
  rw [backPos, if_neg hr, if_neg (by simp), if_pos (by simp [isClose])]

/-- Going back over properly nested components changes nothing. -/
theorem backPos_balanced {kind : Id → Option Kind} {item cont : Id → Prop}
    (hk : KindOk kind item cont) {l : List Comp} (h : Balanced item cont l) :
    ∀ (ids : List Id), l = ids.map some → ∀ (r : List Id), r ≠ [] → ∀ (n : Nat),
    backPos kind (ids.reverse ++ r) n = backPos kind r n := by
  induction h with
  | nil =>
    intro ids e r hr n
    rw [List.map_eq_nil_iff.1 e.symm]; rfl
  | @item x l hx _ ih =>
    intro ids e r hr n
    cases ids with
    | nil => cases e
    | cons y ids =>
      simp only [List.map_cons, List.cons.injEq, Option.some.injEq] at e
      obtain ⟨rfl, e⟩ := e
      rw [List.reverse_cons, List.append_assoc, ih ids e _ (by simp) n]
      exact backPos_item hk hx r hr n
  | @block x b l hx _ _ ihb ihl =>
    intro ids e r hr n
    cases ids with
    | nil => cases e
    | cons y ids =>
      simp only [List.map_cons, List.cons.injEq, Option.some.injEq] at e
      obtain ⟨rfl, e⟩ := e
      obtain ⟨bi, li, rfl, eb, el⟩ := List.append_eq_map_iff.1 e
      cases li with
      | nil => cases el
      | cons c li =>
        simp only [List.map_cons, List.cons.injEq, Option.some.injEq] at el
        obtain ⟨rfl, el⟩ := el
        have e0 : (x :: (bi ++ (45 :: x) :: li)).reverse ++ r =
            li.reverse ++ ((45 :: x) :: (bi.reverse ++ (x :: r))) := by simp
        rw [e0, ihl li el.symm _ (by simp) n, backPos_close _ _ _ (by simp),
          ihb bi eb.symm _ (by simp), backPos_cont hk hx r hr]
        simp

/-- The components before an item: complete ones and open containers, whose
positions are listed last first. -/
inductive Open (item cont : Id → Prop) : List Id → List Nat → Prop
  | nil : Open item cont [] []
  | bal {p js b} : Open item cont p js → Balanced item cont (b.map some) →
      Open item cont (p ++ b) js
  | op {p js x} : Open item cont p js → cont x → Open item cont (p ++ [x]) (p.length :: js)

theorem Open.lt {item cont : Id → Prop} {p : List Id} {js : List Nat} (h : Open item cont p js) :
    js.Pairwise (· > ·) ∧ ∀ j ∈ js, j < p.length := by
  induction h with
  | nil => simp
  | bal _ _ ih =>
    refine ⟨ih.1, fun j hj => ?_⟩
    have := ih.2 j hj
    simp only [List.length_append]; omega
  | op _ _ ih =>
    refine ⟨List.pairwise_cons.2 ⟨fun j hj => ih.2 j hj, ih.1⟩, ?_⟩
    intro j hj
    simp only [List.length_append, List.length_singleton]
    rcases List.mem_cons.1 hj with e | e
    · omega
    · have := ih.2 j e; omega

/-- Complete components in front. -/
theorem Open.front {item cont : Id → Prop} {c p : List Id} {js : List Nat}
    (hc : Balanced item cont (c.map some)) (h : Open item cont p js) :
    Open item cont (c ++ p) (js.map (· + c.length)) := by
  induction h with
  | nil => simpa using Open.bal Open.nil hc
  | bal _ hb ih => rw [← List.append_assoc]; exact .bal ih hb
  | @op p js x _ hx ih =>
    rw [← List.append_assoc]
    have := Open.op ih hx
    rw [List.length_append] at this
    simpa [Nat.add_comm] using this

/-- An open container in front. -/
theorem Open.under {item cont : Id → Prop} {y : Id} {p : List Id} {js : List Nat}
    (hy : cont y) (h : Open item cont p js) :
    Open item cont (y :: p) (js.map (· + 1) ++ [0]) := by
  induction h with
  | nil => exact Open.op (p := []) Open.nil hy
  | bal _ hb ih => rw [← List.cons_append]; exact .bal ih hb
  | @op p js x _ hx ih =>
    rw [← List.cons_append]
    have := Open.op ih hx
    simpa using this

/-- Going back over an open prefix credits the open containers. -/
theorem backPos_open {kind : Id → Option Kind} {item cont : Id → Prop}
    (hk : KindOk kind item cont) {p : List Id} {js : List Nat}
    (h : Open item cont p js) : ∀ (r : List Id), r ≠ [] →
    backPos kind (p.reverse ++ r) 0 =
      match backPos kind r 0 with
      | .error e => .error e
      | .ok ps => .ok (js.map (· + r.length) ++ ps) := by
  induction h with
  | nil =>
    intro r hr
    simp only [List.reverse_nil, List.nil_append, List.map_nil]
    split <;> assumption
  | @bal p js b _ hb ih =>
    intro r hr
    rw [List.reverse_append, List.append_assoc,
      backPos_balanced hk hb b rfl _ (by simp [hr]) 0]
    exact ih r hr
  | @op p js x _ hx ih =>
    intro r hr
    rw [List.reverse_append, List.reverse_singleton, List.singleton_append, List.cons_append,
      backPos_cont hk hx _ (by simp [hr])]
    simp only [ne_eq, not_true_eq_false, if_false]
    rw [ih r hr]
    cases backPos kind r 0 with
    | error e => rfl
    | ok ps => simp

theorem Encloses.shift {item cont : Id → Prop} {f c : List Id} {j i : Nat}
    (h : Encloses item cont f j i) :
    Encloses item cont (c ++ f) (j + c.length) (i + c.length) := by
  obtain ⟨pre, x, b, post, rfl, rfl, h3, h4, h5, h6⟩ := h
  refine ⟨c ++ pre, x, b, post, by simp, by simp; omega, h3, h4, by omega, by omega⟩

theorem Encloses.snoc {item cont : Id → Prop} {f c : List Id} {j i : Nat}
    (h : Encloses item cont f j i) : Encloses item cont (f ++ c) j i := by
  obtain ⟨pre, x, b, post, rfl, h2, h3, h4, h5, h6⟩ := h
  exact ⟨pre, x, b, post ++ c, by simp, h2, h3, h4, h5, h6⟩

/-- The components before an item of a properly nested list, and what encloses
the item. -/
theorem open_of_balanced {kind : Id → Option Kind} {item cont : Id → Prop}
    (hk : KindOk kind item cont) {l : List Comp} (h : Balanced item cont l) :
    ∀ (pre : List Id) (x : Id) (post : List Id), l = (pre ++ x :: post).map some → item x →
    ∃ js, Open item cont pre js ∧
      ∀ j ∈ js, Encloses item cont (pre ++ x :: post) j pre.length := by
  induction h with
  | nil => intro pre x post e; simp at e
  | @item y l hy hl ih =>
    intro pre x post e hx
    cases pre with
    | nil => exact ⟨[], .nil, by simp⟩
    | cons z pre =>
      simp only [List.cons_append, List.map_cons, List.cons.injEq, Option.some.injEq] at e
      obtain ⟨rfl, e⟩ := e
      obtain ⟨js, h1, h2⟩ := ih pre x post e hx
      have := Open.front (c := [y]) (.item hy .nil) h1
      refine ⟨_, this, ?_⟩
      intro j hj
      obtain ⟨j', hj', rfl⟩ := List.mem_map.1 hj
      have := (h2 j' hj').shift (c := [y])
      simpa using this
  | @block y b l hy hb hl ihb ihl =>
    intro pre x post e hx
    obtain ⟨hk1, hk2, hk3⟩ := hk.1 x hx
    cases pre with
    | nil =>
      simp only [List.nil_append, List.map_cons, List.cons.injEq, Option.some.injEq] at e
      obtain ⟨rfl, -⟩ := e
      have := (hk.2 y hy).1
      rw [hk1] at this
      simp at this
    | cons z pre =>
      simp only [List.cons_append, List.map_cons, List.cons.injEq, Option.some.injEq] at e
      obtain ⟨rfl, e⟩ := e
      obtain ⟨bi, li, e1, rfl, el⟩ := List.append_eq_map_iff.1 e
      cases li with
      | nil => cases el
      | cons c li =>
        simp only [List.map_cons, List.cons.injEq, Option.some.injEq] at el
        obtain ⟨rfl, rfl⟩ := el
        rcases List.append_eq_append_iff.1 e1 with ⟨a, a1, a2⟩ | ⟨a, a1, a2⟩
        · -- the item is inside the block
          cases a with
          | nil =>
            simp only [List.nil_append, List.cons.injEq] at a2
            obtain ⟨rfl, -⟩ := a2
            simp [isClose] at hk3
          | cons w a =>
            simp only [List.cons_append, List.cons.injEq] at a2
            obtain ⟨rfl, rfl⟩ := a2
            subst a1
            obtain ⟨js, h1, h2⟩ := ihb pre x a rfl hx
            refine ⟨_, Open.under hy h1, ?_⟩
            intro j hj
            rcases List.mem_append.1 hj with hj | hj
            · obtain ⟨j', hj', rfl⟩ := List.mem_map.1 hj
              have := ((h2 j' hj').shift (c := [y])).snoc (c := (45 :: y) :: li)
              simpa using this
            · rw [List.mem_singleton] at hj
              subst hj
              exact ⟨[], y, pre ++ x :: a, li, by simp, rfl, hy, hb, by simp, by simp; omega⟩
        · -- behind the block
          subst a1
          cases a with
          | nil =>
            simp only [List.nil_append, List.cons.injEq] at a2
            obtain ⟨rfl, -⟩ := a2
            simp [isClose] at hk3
          | cons w a =>
            simp only [List.cons_append, List.cons.injEq] at a2
            obtain ⟨rfl, rfl⟩ := a2
            obtain ⟨js, h1, h2⟩ := ihl a x post rfl hx
            have hbal : Balanced item cont ((y :: (bi ++ [45 :: y])).map some) := by
              simpa using Balanced.block hy hb .nil
            have := Open.front hbal h1
            refine ⟨_, by simpa using this, ?_⟩
            intro j hj
            obtain ⟨j', hj', rfl⟩ := List.mem_map.1 hj
            have := (h2 j' hj').shift (c := y :: (bi ++ [45 :: y]))
            simp only [List.cons_append, List.append_assoc, List.nil_append, List.length_cons,
              List.length_append, List.length_nil] at this ⊢
            have e9 : a.length + (bi.length + (0 + 1) + 1) = bi.length + (a.length + 1) + 1 := by
              omega
            rw [e9] at this
            exact this

theorem credit_apply (dt : Int) : ∀ (ps : List Nat), ps.Nodup → ∀ (d : Durs) (p : Nat),
    credit dt ps d p = if p ∈ ps then some ((d p).getD 0 + dt) else d p := by
  intro ps
  induction ps with
  | nil => intro _ d p; simp [credit]
  | cons q ps ih =>
    intro hn d p
    rw [List.nodup_cons] at hn
    rw [credit, ih hn.2]
    unfold addAt
    by_cases hp : p = q
    · subst hp; simp [hn.1]
    · simp [hp]

/-- The positions credited for an item are those of the containers it is in. -/
theorem backPos_encloses {kind : Id → Option Kind} {item cont : Id → Prop}
    (hk : KindOk kind item cont) {ids : List Id} (hb : Balanced item cont (ids.map some))
    (i : Nat) (x : Id) (hi : ([] :: ids)[i]? = some x) (hx : item x) :
    ∃ ps, backPos kind ((([] : Id) :: ids).take i).reverse 0 = .ok ps ∧ ps.Nodup ∧
      (∀ p, p ∈ ps ↔ Encloses item cont ([] :: ids) p i) ∧ ∀ p ∈ ps, 0 < p ∧ p < i := by
  cases i with
  | zero =>
    simp only [List.getElem?_cons_zero, Option.some.injEq] at hi
    exact absurd hi.symm (hk.1 x hx).2.1
  | succ i =>
    rw [List.getElem?_cons_succ] at hi
    have hlt : i < ids.length := by
      by_contra hn
      rw [List.getElem?_eq_none (by omega)] at hi
      cases hi
    have hsplit : ids = ids.take i ++ x :: ids.drop (i + 1) := by
      have h1 : ids[i] = x := by
        rw [List.getElem?_eq_getElem hlt] at hi; simpa using hi
      rw [← h1, List.getElem_cons_drop, List.take_append_drop]
    have hlen : (ids.take i).length = i := by rw [List.length_take]; omega
    obtain ⟨js, h1, h2⟩ := open_of_balanced hk hb (ids.take i) x (ids.drop (i + 1))
      (by rw [← hsplit]) hx
    have hpos : backPos kind ((([] : Id) :: ids).take (i + 1)).reverse 0 =
        .ok (js.map (· + 1)) := by
      rw [List.take_succ_cons, List.reverse_cons, backPos_open hk h1 [[]] (by simp)]
      simp [backPos]
    have hsorted := h1.lt
    have hnd : (js.map (· + 1)).Nodup := by
      apply List.Pairwise.imp (R := (· > ·))
      · intro a b h; omega
      · rw [List.pairwise_map]; exact hsorted.1.imp (fun h => by omega)
    refine ⟨_, hpos, hnd, ?_, ?_⟩
    · intro p
      constructor
      · intro hp
        obtain ⟨j, hj, rfl⟩ := List.mem_map.1 hp
        have := (h2 j hj).shift (c := [[]])
        rw [← hsplit, hlen] at this
        simpa using this
      · rintro ⟨pre, y, b, post, e, e2, hy, hbb, h5, h6⟩
        subst e2
        -- split the block at the item
        have hk2 : i + 1 - (pre.length + 1) < b.length := by omega
        have hbk : b = b.take (i - pre.length) ++ x :: b.drop (i - pre.length + 1) := by
          have hlt2 : i - pre.length < b.length := by omega
          have h7 : b[i - pre.length]? = some x := by
            have h8 : (([] : Id) :: ids)[i + 1]? = some x := by rw [List.getElem?_cons_succ]; exact hi
            rw [e] at h8
            rw [List.getElem?_append_right (by omega)] at h8
            have h9 : i + 1 - pre.length = (i - pre.length) + 1 := by omega
            rw [h9, List.getElem?_cons_succ, List.getElem?_append_left hlt2] at h8
            exact h8
          have h1 : b[i - pre.length] = x := by
            rw [List.getElem?_eq_getElem hlt2] at h7; simpa using h7
          rw [← h1, List.getElem_cons_drop, List.take_append_drop]
        have hpre : pre ≠ [] := by
          intro hp
          subst hp
          simp only [List.nil_append, List.cons.injEq] at e
          exact (hk.2 y hy).2.1 e.1.symm
        obtain ⟨js1, g1, -⟩ := open_of_balanced hk hbb (b.take (i - pre.length)) x _
          (by rw [← hbk]) hx
        have htake : (([] : Id) :: ids).take (i + 1) = pre ++ y :: b.take (i - pre.length) := by
          rw [e, List.take_append, List.take_of_length_le (by omega)]
          congr 1
          have h9 : i + 1 - pre.length = (i - pre.length) + 1 := by omega
          rw [h9, List.take_succ_cons, List.take_append_of_le_length (by omega)]
        rw [htake] at hpos
        have e0 : (pre ++ y :: b.take (i - pre.length)).reverse =
            (b.take (i - pre.length)).reverse ++ (y :: pre.reverse) := by simp
        rw [e0, backPos_open hk g1 _ (by simp), backPos_cont hk hy _ (by simpa using hpre)] at hpos
        simp only [ne_eq, not_true_eq_false, if_false] at hpos
        cases hq : backPos kind pre.reverse 0 with
        | error e => rw [hq] at hpos; cases hpos
        | ok qs =>
          rw [hq] at hpos
          simp only [Except.ok.injEq] at hpos
          rw [← hpos]
          simp
    · intro p hp
      obtain ⟨j, hj, rfl⟩ := List.mem_map.1 hp
      have := hsorted.2 j hj
      omega

theorem kindOk_test (t : Test) (h : t.ProperIds) : KindOk t.kind (IsItem t) (IsCont t) := by
  obtain ⟨h1, h2⟩ := h
  rw [List.nodup_append] at h1
  have hu : t.Unique := h1.1
  refine ⟨?_, ?_⟩
  · rintro x ⟨i, hi, rfl, hs⟩
    have := h2 i.id (List.mem_append_left _ (List.mem_map_of_mem hi))
    refine ⟨?_, this⟩
    unfold Test.kind
    rw [get_of_mem hu hi]
    simp [hs]
  · rintro x (⟨i, hi, rfl, hs⟩ | ⟨p, hp, rfl⟩)
    · have := h2 i.id (List.mem_append_left _ (List.mem_map_of_mem hi))
      refine ⟨Or.inl ?_, this⟩
      unfold Test.kind
      rw [get_of_mem hu hi]
      simp [hs]
    · have := h2 p.id (List.mem_append_right _ (List.mem_map_of_mem hp))
      refine ⟨Or.inr ?_, this⟩
      unfold Test.kind
      have hg : t.get p.id = none := by
        unfold Test.get
        rw [List.find?_eq_none]
        intro i hi
        simp only [decide_eq_true_eq]
        exact h1.2.2 i.id (List.mem_map_of_mem hi) p.id (List.mem_map_of_mem hp)
      rw [hg]
      simp only
      rw [if_pos (List.mem_map_of_mem hp)]

open Classical in
/-- C116. In every form of a test, when time passes on an item, exactly that item, the
sections and the part that contain it in the form, and the test itself get the
time added to their durations; every other duration stays as it was. -/
theorem C116_durations (t : Test) (ht : t.ProperIds) (hh : t.NoHollow) (s : Src) (f : List Id)
    (hf : form t s = .ok (f.map some)) (i : Nat) (x : Id) (hi : f[i]? = some x)
    (hx : IsItem t x) (d : Durs) (hd : d i ≠ none) (hd0 : d 0 ≠ none) (dt : Int) :
    ∃ d', addDuration t.kind f (some i) dt d = .ok d' ∧
      ∀ p, d' p = if p = 0 ∨ p = i ∨ Encloses (IsItem t) (IsCont t) f p i
        then some ((d p).getD 0 + dt) else d p := by
  obtain ⟨r, e1, hb⟩ := C113_form_nested t s _ hh hf
  obtain ⟨ids, rfl, rfl⟩ : ∃ ids, f = [] :: ids ∧ r = ids.map some := by
    cases f with
    | nil => cases e1
    | cons a ids =>
      simp only [List.map_cons, List.cons.injEq, Option.some.injEq] at e1
      exact ⟨ids, by rw [e1.1], e1.2.symm⟩
  have hk := kindOk_test t ht
  obtain ⟨ps, q1, q2, q3, q4⟩ := backPos_encloses hk hb i x hi hx
  cases i with
  | zero =>
    simp only [List.getElem?_cons_zero, Option.some.injEq] at hi
    exact absurd hi.symm (hk.1 x hx).2.1
  | succ i =>
    obtain ⟨v, hv⟩ := Option.ne_none_iff_exists'.1 hd
    obtain ⟨v0, hv0⟩ := Option.ne_none_iff_exists'.1 hd0
    have h0 : 0 ∉ ps := fun h => by have := q4 0 h; omega
    have hi' : i + 1 ∉ ps := fun h => by have := q4 _ h; omega
    simp only [addDuration, bump, hv, backLoop_eq, q1, credit_apply dt ps q2, h0, if_false, hv0]
    rw [if_neg (by omega)]
    simp only
    refine ⟨_, rfl, ?_⟩
    intro p
    by_cases hp0 : p = 0
    · subst hp0; simp [hv0]
    · by_cases hpi : p = i + 1
      · subst hpi; simp [hi', hv]
      · by_cases hpe : p ∈ ps
        · have := (q3 p).1 hpe
          simp [hp0, hpi, hpe, this]
        · have : ¬ Encloses (IsItem t) (IsCont t) ([] :: ids) p (i + 1) :=
            fun h => hpe ((q3 p).2 h)
          simp [hp0, hpi, hpe, this]

/-- C116. When the test is over no duration changes. -/
theorem C116_finished (kind : Id → Option Kind) (f : List Id) (dt : Int) (d : Durs) :
    addDuration kind f none dt d = .ok d := rfl

/-! ## Examples -/

example : goodTest.ProperIds := by
  unfold Test.ProperIds
  decide +kernel

/-- The form P S Q1 T Q4 Q5 -T -S -P of the test used in the example. -/
def durTest : Test :=
  [⟨[80], [.sect { id := [83] } none false
    [q 1, .sect { id := [84] } none false [q 4, q 5], q 6]]⟩]

example : form durTest (fun _ => 0) = .ok ([[], [80], [83], [81, 1], [84], [81, 4], [81, 5],
    [45, 84], [81, 6], [45, 83], [45, 80]].map some) := by decide +kernel

/-- Q6 is in S and P, not in T. -/
example : (match addDuration durTest.kind [[], [80], [83], [81, 1], [84], [81, 4], [81, 5],
    [45, 84], [81, 6], [45, 83], [45, 80]] (some 8) 7 (fun _ => some 1) with
    | .ok d => (List.range 11).map d
    | .error _ => []) =
    [some 8, some 8, some 8, some 1, some 1, some 1, some 1, some 1, some 8, some 1, some 1] := by
  decide +kernel

example : IsItem durTest [81, 6] := ⟨{ id := [81, 6] }, by decide +kernel, rfl, rfl⟩

end Verif.Form

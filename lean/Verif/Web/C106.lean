import Verif.Web.Dispatch
/-!
# C106: theorems about the dispatcher
-/
namespace Verif.Web

variable {H : Type}

namespace Node

theorem child_setChild (n : Node H) (p q : Str) (c : Node H) :
    (n.setChild p c).child q = if q = p then some c else n.child q := by
  unfold child setChild
  show Option.map _ (List.find? _ ((p, c) :: _)) = _
  rw [List.find?_cons]
  by_cases h : q = p
  · subst h; simp
  · rw [beq_eq_false_iff_ne.2 (fun e => h e.symm), if_neg h]
    dsimp only
    rw [List.find?_filter]
    congr 2
    funext e
    by_cases he : e.1 = q
    · simp [he, h]
    · simp [he]

theorem handler_setChild (n : Node H) (p : Str) (c : Node H) : (n.setChild p c).handler = n.handler := rfl
theorem wildcard_setChild (n : Node H) (p : Str) (c : Node H) : (n.setChild p c).wildcard = n.wildcard := rfl

/-- The node for some components. -/
def get (n : Node H) : List Str → Option (Node H)
  | [] => some n
  | p :: r => (n.child p).bind fun c => c.get r

def handlerAt (n : Node H) (k : List Str) : Option H := (n.get k).bind handler
def wildAt (n : Node H) (k : List Str) : Option H := (n.get k).bind wildcard

theorem get_append (n : Node H) (a b : List Str) : n.get (a ++ b) = (n.get a).bind fun c => c.get b := by
  induction a generalizing n with
  | nil => rfl
  | cons p a ih =>
    rw [List.cons_append, get, get]
    cases n.child p with
    | none => rfl
    | some c => exact ih c

theorem get_snoc (n : Node H) (a : List Str) (p : Str) : n.get (a ++ [p]) = (n.get a).bind fun c => c.child p := by
  rw [get_append]
  congr 1
  funext c
  rw [get]
  cases c.child p <;> rfl

end Node

open Node

theorem child_empty (p : Str) : (Node.empty : Node H).child p = none := rfl

theorem get_empty (k : List Str) (h : k ≠ []) : (Node.empty : Node H).get k = none := by
  cases k with
  | nil => exact absurd rfl h
  | cons p r => rfl

theorem handlerAt_empty (k : List Str) : (Node.empty : Node H).handlerAt k = none := by
  cases k <;> rfl

theorem wildAt_empty (k : List Str) : (Node.empty : Node H).wildAt k = none := by
  cases k <;> rfl

theorem handlerAt_cons (n : Node H) (p : Str) (k : List Str) :
    n.handlerAt (p :: k) = ((n.child p).getD .empty).handlerAt k := by
  unfold handlerAt
  rw [Node.get]
  cases n.child p with
  | none => exact (handlerAt_empty k).symm
  | some c => rfl

theorem wildAt_cons (n : Node H) (p : Str) (k : List Str) : n.wildAt (p :: k) = ((n.child p).getD .empty).wildAt k := by
  unfold wildAt
  rw [Node.get]
  cases n.child p with
  | none => exact (wildAt_empty k).symm
  | some c => rfl

theorem setPath_handler (m : H) : ∀ (path : List Str) (n : Node H) (k : List Str),
    (setPath n path m).handlerAt k = if k = path then some m else n.handlerAt k
  | [], n, [] => rfl
  | [], n, p :: k => by
    rw [if_neg (by simp), setPath, handlerAt_cons, handlerAt_cons]; rfl
  | p :: path, n, [] => by
    rw [if_neg (by simp), setPath]
    split <;> rfl
  | p :: path, n, q :: k => by
    have ih := setPath_handler m path
    rw [setPath]
    rw [handlerAt_cons, child_setChild]
    have hc : ∀ n' : Node H, n' = (if p = star ∧ path = [] then .mk n.handler (some m) n.nodes else n) →
        ∀ q, n'.child q = n.child q := by
      rintro n' rfl q; split <;> rfl
    rw [hc _ rfl, hc _ rfl]
    by_cases h : q = p
    · subst h
      rw [if_pos rfl, Option.getD_some, ih]
      by_cases hk : k = path
      · subst hk; simp
      · rw [if_neg hk, if_neg (by simpa using hk), handlerAt_cons]
    · rw [if_neg h, if_neg (by simp [h]), handlerAt_cons]

theorem setPath_wild (m : H) : ∀ (path : List Str) (n : Node H) (k : List Str),
    (setPath n path m).wildAt k = if path = k ++ [star] then some m else n.wildAt k
  | [], n, k => by
    rw [if_neg (by simp), setPath]
    cases k with
    | nil => rfl
    | cons p k => rw [wildAt_cons, wildAt_cons]; rfl
  | p :: path, n, [] => by
    rw [setPath]
    show (if p = star ∧ path = [] then _ else n : Node H).wildcard = _
    by_cases h : p = star ∧ path = []
    · rw [if_pos h, if_pos (by rw [h.1, h.2]; rfl)]; rfl
    · rw [if_neg h, if_neg (by simpa using h)]; rfl
  | p :: path, n, q :: k => by
    have ih := setPath_wild m path
    rw [setPath]
    rw [wildAt_cons, child_setChild]
    have hc : ∀ n' : Node H, n' = (if p = star ∧ path = [] then .mk n.handler (some m) n.nodes else n) →
        ∀ q, n'.child q = n.child q := by
      rintro n' rfl q; split <;> rfl
    rw [hc _ rfl, hc _ rfl]
    by_cases h : q = p
    · subst h
      rw [if_pos rfl, Option.getD_some, ih]
      by_cases hk : path = k ++ [star]
      · subst hk; simp
      · rw [if_neg hk, if_neg (by simpa using hk), wildAt_cons]
    · rw [if_neg h, if_neg (by simp; exact fun e => absurd e.symm h), wildAt_cons]

theorem setPath_get (m : H) : ∀ (path : List Str) (n : Node H) (k : List Str),
    ((setPath n path m).get k).isSome = true ↔ k <+: path ∨ (n.get k).isSome = true
  | _, n, [] => by simp [Node.get]
  | [], n, p :: k => by
    simp only [List.prefix_nil, reduceCtorEq, false_or]
    rw [setPath, Node.get, Node.get]; rfl
  | p :: path, n, q :: k => by
    have ih := setPath_get m path
    rw [setPath]
    rw [Node.get, child_setChild]
    have hc : ∀ n' : Node H, n' = (if p = star ∧ path = [] then .mk n.handler (some m) n.nodes else n) →
        ∀ q, n'.child q = n.child q := by
      rintro n' rfl q; split <;> rfl
    rw [hc _ rfl, hc _ rfl]
    by_cases h : q = p
    · subst h
      rw [if_pos rfl, Option.bind_some, ih, List.cons_prefix_cons, Node.get]
      simp only [true_and]
      cases hn : n.child q with
      | none =>
        simp only [Option.getD_none, Option.bind_none, Option.isSome_none, Bool.false_eq_true, or_false]
        constructor
        · rintro (h | h)
          · exact h
          · cases k with
            | nil => exact List.nil_prefix
            | cons a k => rw [get_empty _ (by simp)] at h; cases h
        · exact Or.inl
      | some c => rfl
    · rw [if_neg h, List.cons_prefix_cons, Node.get]
      simp [h]

/-! ### What is registered -/

theorem lastReg_snoc (regs : List (List Str × H)) (p : List Str) (m : H) (k : List Str) :
    lastReg (regs ++ [(p, m)]) k = if k = p then some m else lastReg regs k := by
  unfold lastReg
  rw [List.reverse_append]
  show Option.map _ (List.find? _ ((p, m) :: _)) = _
  rw [List.find?_cons]
  by_cases h : k = p
  · subst h; simp
  · rw [beq_eq_false_iff_ne.2 (fun e => h e.symm), if_neg h]; rfl

theorem lastReg_mem {regs : List (List Str × H)} {k : List Str} {h : H} (e : lastReg regs k = some h) : (k, h) ∈ regs := by
  unfold lastReg at e
  rw [Option.map_eq_some_iff] at e
  obtain ⟨x, hx, rfl⟩ := e
  have h1 := List.mem_of_find?_eq_some hx
  have h2 : x.1 = k := by simpa using List.find?_some hx
  rw [← h2]
  exact List.mem_reverse.1 h1

theorem lastReg_some {regs : List (List Str × H)} {k : List Str} {h : H} (e : (k, h) ∈ regs) : (lastReg regs k).isSome = true := by
  unfold lastReg
  rw [Option.isSome_map, List.find?_isSome]
  exact ⟨_, List.mem_reverse.2 e, by simp⟩

theorem register_snoc (regs : List (Str × H)) (r : Str × H) : register (regs ++ [r]) = setMethod (register regs) r.1 r.2 := by
  unfold register
  rw [List.foldl_append]; rfl

theorem snoc_ind {α : Type} {P : List α → Prop} (h0 : P []) (h1 : ∀ l a, P l → P (l ++ [a])) (l : List α) : P l := by
  have : ∀ l : List α, P l.reverse := by
    intro l
    induction l with
    | nil => exact h0
    | cons a l ih => rw [List.reverse_cons]; exact h1 _ _ ih
  have := this l.reverse
  rwa [List.reverse_reverse] at this

theorem cut_snoc (regs : List (Str × H)) (r : Str × H) : cut (regs ++ [r]) = cut regs ++ [(Vfs.comps r.1, r.2)] := by
  unfold cut; rw [List.map_append]; rfl

theorem register_handler (regs : List (Str × H)) (k : List Str) : (register regs).handlerAt k = lastReg (cut regs) k := by
  induction regs using snoc_ind with
  | h0 => exact handlerAt_empty k
  | h1 regs r ih =>
    rw [register_snoc, setMethod, setPath_handler, ih, cut_snoc]
    exact (lastReg_snoc _ _ _ _).symm

theorem register_wild (regs : List (Str × H)) (k : List Str) : (register regs).wildAt k = lastReg (cut regs) (k ++ [star]) := by
  induction regs using snoc_ind with
  | h0 => exact wildAt_empty k
  | h1 regs r ih =>
    rw [register_snoc, setMethod, setPath_wild, ih, cut_snoc]
    refine Eq.trans ?_ (lastReg_snoc _ _ _ _).symm
    simp only [eq_comm]

theorem register_get (regs : List (Str × H)) (k : List Str) (hk : k ≠ []) :
    ((register regs).get k).isSome = true ↔ ∃ r ∈ cut regs, k <+: r.1 := by
  induction regs using snoc_ind with
  | h0 => simp [register, cut, get_empty k hk]
  | h1 regs r ih =>
    rw [register_snoc, setMethod, setPath_get, ih, cut_snoc]
    simp only [List.mem_append, List.mem_singleton]
    constructor
    · rintro (h | ⟨x, hx, h⟩)
      · exact ⟨_, Or.inr rfl, h⟩
      · exact ⟨x, Or.inl hx, h⟩
    · rintro ⟨x, hx | rfl, h⟩
      · exact Or.inr ⟨x, hx, h⟩
      · exact Or.inl h

/-! ### The handler is registered for the path -/

theorem segMatch_snoc {a b : List Str} {s x : Str} (h : SegMatch a b) (hs : s = x ∨ s = star) : SegMatch (a ++ [s]) (b ++ [x]) := by
  induction h with
  | nil => exact .cons hs .nil
  | cons h _ ih => exact .cons h ih

theorem segMatch_refl (a : List Str) : SegMatch a a := by
  induction a with
  | nil => exact .nil
  | cons x a ih => exact .cons (Or.inl rfl) ih

/-- A wildcard handler belongs to a pattern that matches. -/
def GoodWild (app : Node H) (path : List Str) (w : Option H) : Prop :=
  ∀ h, w = some h → ∃ q a b, path = a ++ b ∧ SegMatch q a ∧ app.wildAt q = some h

theorem goodWild_or {app : Node H} {path : List Str} {w : Option H} (hw : GoodWild app path w) {c : Node H} {q a b : List Str}
    (hp : path = a ++ b) (hm : SegMatch q a) (hc : app.get q = some c) : GoodWild app path (c.wildcard.or w) := by
  intro h e
  rw [Option.or_eq_some_iff] at e
  rcases e with e | ⟨_, e⟩
  · exact ⟨q, a, b, hp, hm, by unfold wildAt; rw [hc]; exact e⟩
  · exact hw h e

theorem dispatchLoop_sound (app : Node H) (path : List Str) (st : List (Entry H)) (node : Node H) (w : Option H) (rest : List Str) :
    (∀ e ∈ st, ∃ q a, path = a ++ e.1 ∧ SegMatch q a ∧ app.get q = some e.2.1 ∧ GoodWild app path e.2.2) →
    (∃ q a, path = a ++ rest ∧ SegMatch q a ∧ app.get q = some node) → GoodWild app path w →
    ∀ h, dispatchLoop st node w rest = some h →
      (∃ q, SegMatch q path ∧ app.handlerAt q = some h) ∨ ∃ q a b, path = a ++ b ∧ SegMatch q a ∧ app.wildAt q = some h := by
  fun_induction dispatchLoop st node w rest with
  | case1 st node w =>
    rintro _ ⟨q, a, hp, hm, hg⟩ hw h e
    rw [Option.or_eq_some_iff] at e
    rcases e with e | ⟨_, e⟩
    · left
      refine ⟨q, ?_, by unfold handlerAt; rw [hg]; exact e⟩
      rw [hp, List.append_nil]; exact hm
    · exact Or.inr (hw h e)
  | case2 st node w p rest w1 ws h2 h1 ih =>
    rintro hst ⟨q, a, hp, hm, hg⟩ hw
    have hp' : path = (a ++ [p]) ++ rest := by rw [hp]; simp
    have hgc : app.get (q ++ [p]) = some w1 := by rw [get_snoc, hg]; exact h1
    refine ih ?_ ⟨q ++ [p], a ++ [p], hp', segMatch_snoc hm (Or.inl rfl), hgc⟩
      (goodWild_or hw hp' (segMatch_snoc hm (Or.inl rfl)) hgc)
    intro e he
    rcases List.mem_cons.1 he with rfl | he
    · refine ⟨q ++ [star], a ++ [p], hp', segMatch_snoc hm (Or.inr rfl), ?_, hw⟩
      rw [get_snoc, hg]; exact h2
    · exact hst e he
  | case3 st node w p rest c h2 h1 ih =>
    rintro hst ⟨q, a, hp, hm, hg⟩ hw
    have hp' : path = (a ++ [p]) ++ rest := by rw [hp]; simp
    have hgc : app.get (q ++ [p]) = some c := by rw [get_snoc, hg]; exact h1
    exact ih hst ⟨q ++ [p], a ++ [p], hp', segMatch_snoc hm (Or.inl rfl), hgc⟩
      (goodWild_or hw hp' (segMatch_snoc hm (Or.inl rfl)) hgc)
  | case4 st node w p rest w1 h2 h1 ih =>
    rintro hst ⟨q, a, hp, hm, hg⟩ hw
    have hp' : path = (a ++ [p]) ++ rest := by rw [hp]; simp
    have hgc : app.get (q ++ [star]) = some w1 := by rw [get_snoc, hg]; exact h2
    exact ih hst ⟨q ++ [star], a ++ [p], hp', segMatch_snoc hm (Or.inr rfl), hgc⟩
      (goodWild_or hw hp' (segMatch_snoc hm (Or.inr rfl)) hgc)
  | case5 st node p rest h1 h2 h =>
    rintro _ _ hw h' e
    exact Or.inr (hw h' e)
  | case6 node p rest h1 h2 rest' w1 wc st ih =>
    rintro hst _ _
    obtain ⟨q, a, hp, hm, hg, hw⟩ := hst _ (List.mem_cons_self ..)
    exact ih (fun e he => hst e (List.mem_cons_of_mem _ he)) ⟨q, a, hp, hm, hg⟩ (goodWild_or hw hp hm hg)
  | case7 => rintro _ _ _ h e; cases e

/-- C106: the handler that is called is the one registered last for a pattern that matches the path. -/
theorem C106_sound (regs : List (Str × H)) (path : Str) (h : H) (e : dispatch (register regs) path = some h) :
    ∃ pat, Matches pat (Vfs.comps path) ∧ lastReg (cut regs) pat = some h := by
  have := dispatchLoop_sound (register regs) (Vfs.comps path) [] (register regs) none (Vfs.comps path)
    (fun _ h => nomatch h) ⟨[], [], rfl, .nil, rfl⟩ (fun _ h => nomatch h) h e
  rcases this with ⟨q, hm, hq⟩ | ⟨q, a, b, hp, hm, hq⟩
  · exact ⟨q, Or.inl hm, by rw [← register_handler]; exact hq⟩
  · exact ⟨q ++ [star], Or.inr ⟨q, a, b, rfl, hp, hm⟩, by rw [← register_wild]; exact hq⟩

/-! ### A pattern that names the path has precedence -/

theorem dispatchLoop_named (h : H) : ∀ (rest : List Str) (st : List (Entry H)) (w : Option H) (node : Node H),
    node.handlerAt rest = some h → dispatchLoop st node w rest = some h
  | [], st, w, node, hh => by
    rw [dispatchLoop.eq_def]
    have : node.handler = some h := hh
    simp [this]
  | p :: rest, st, w, node, hh => by
    have hc : ∃ c, node.child p = some c ∧ c.handlerAt rest = some h := by
      unfold handlerAt at hh
      rw [Node.get] at hh
      cases e : node.child p with
      | none => rw [e] at hh; cases hh
      | some c => rw [e] at hh; exact ⟨c, rfl, hh⟩
    obtain ⟨c, hc, hch⟩ := hc
    rw [dispatchLoop.eq_def]
    simp only [hc]
    cases node.child star <;> exact dispatchLoop_named h rest _ _ c hch

/-- C106: a handler registered for exactly this path is called, whatever else is registered. -/
theorem C106_named (regs : List (Str × H)) (path : Str) (h : H) (e : lastReg (cut regs) (Vfs.comps path) = some h) :
    dispatch (register regs) path = some h :=
  dispatchLoop_named h _ _ _ _ (by rw [register_handler]; exact e)

/-! ### Patterns with a star at the end only -/

/-- No pattern has a star before its last component. -/
def StarsLast (regs : List (List Str × H)) : Prop := ∀ r ∈ regs, star ∉ r.1.dropLast

theorem prefix_dropLast {k : List Str} {s x : Str} {r : List Str} (h : k ++ [s, x] <+: r) : s ∈ r.dropLast := by
  obtain ⟨t, rfl⟩ := h
  rw [show k ++ [s, x] ++ t = (k ++ [s]) ++ (x :: t) by simp, List.dropLast_append_of_ne_nil (by simp)]
  simp

/-- The handler of the longest pattern `q/*` where `q` is the beginning of the path; none if there is no such
pattern. -/
def Longest (regs : List (List Str × H)) (path : List Str) (w : Option H) : Prop :=
  (∃ q b h, w = some h ∧ path = q ++ b ∧ lastReg regs (q ++ [star]) = some h ∧
    ∀ q' b', path = q' ++ b' → q.length < q'.length → lastReg regs (q' ++ [star]) = none) ∨
  (w = none ∧ ∀ q b, path = q ++ b → lastReg regs (q ++ [star]) = none)

theorem Longest.here {regs : List (List Str × H)} {path : List Str} {w : Option H} (hw : Longest regs path w) {h : H}
    (hh : lastReg regs (path ++ [star]) = some h) : w = some h := by
  rcases hw with ⟨q, b, h', rfl, hp, hq, hl⟩ | ⟨_, hn⟩
  · by_cases hb : b = []
    · subst hb
      rw [List.append_nil] at hp
      rw [hp, hq] at hh
      exact hh
    · have := hl path [] (by simp) (by rw [hp, List.length_append]; have := List.length_pos_iff.2 hb; omega)
      rw [this] at hh; cases hh
  · have := hn path [] (by simp)
    rw [this] at hh; cases hh

theorem append_eq_snoc {q b done : List Str} {p : Str} (h : done ++ [p] = q ++ b) :
    (q = done ++ [p] ∧ b = []) ∨ ∃ b', b = b' ++ [p] ∧ done = q ++ b' := by
  by_cases hb : b = []
  · left; subst hb; simpa using h.symm
  · right
    have e : b = b.dropLast ++ [b.getLast hb] := (List.dropLast_concat_getLast hb).symm
    rw [e, ← List.append_assoc] at h
    have := List.append_inj' h rfl
    refine ⟨b.dropLast, ?_, this.1⟩
    rw [List.cons.inj this.2 |>.1]
    exact e

theorem Longest.snoc {regs : List (List Str × H)} {done : List Str} {w : Option H} (hw : Longest regs done w) (p : Str) :
    Longest regs (done ++ [p]) ((lastReg regs ((done ++ [p]) ++ [star])).or w) := by
  cases hh : lastReg regs ((done ++ [p]) ++ [star]) with
  | some h =>
    left
    refine ⟨done ++ [p], [], h, by simp, by simp, hh, ?_⟩
    intro q' b' e hl
    rw [e, List.length_append] at hl
    omega
  | none =>
    rw [Option.none_or]
    rcases hw with ⟨q, b, h', hw, hp, hq, hl⟩ | ⟨hw, hn⟩
    · left
      refine ⟨q, b ++ [p], h', hw, by rw [hp]; simp, hq, ?_⟩
      intro q' b' e hlt
      rcases append_eq_snoc e with ⟨rfl, _⟩ | ⟨b'', _, e'⟩
      · exact hh
      · exact hl q' b'' e' hlt
    · right
      refine ⟨hw, fun q b e => ?_⟩
      rcases append_eq_snoc e with ⟨rfl, _⟩ | ⟨b'', _, e'⟩
      · exact hh
      · exact hn q b'' e'

/-- Beyond a node that does not exist nothing is registered. -/
theorem Longest.beyond {regs : List (List Str × H)} {done : List Str} {w : Option H} (hw : Longest regs done w) (p : Str) (rest : List Str)
    (hno : ∀ k, lastReg regs (done ++ p :: k) = none) : Longest regs (done ++ p :: rest) w := by
  have key : ∀ q b, done ++ p :: rest = q ++ b → done.length < q.length → lastReg regs (q ++ [star]) = none := by
    intro q b e hl
    rcases List.append_eq_append_iff.1 e with ⟨a', e1, e2⟩ | ⟨c', e1, e2⟩
    · cases a' with
      | nil => rw [List.append_nil] at e1; rw [e1] at hl; omega
      | cons y a' =>
        rw [List.cons_append] at e2
        injection e2 with e3 e4
        subst e3
        rw [e1, List.append_assoc]
        exact hno _
    · rw [e1, List.length_append] at hl; omega
  have short : ∀ q b, done ++ p :: rest = q ++ b → q.length ≤ done.length → ∃ b', done = q ++ b' := by
    intro q b e hl
    rcases List.append_eq_append_iff.1 e with ⟨a', e1, e2⟩ | ⟨c', e1, e2⟩
    · rw [e1, List.length_append] at hl
      have : a' = [] := List.length_eq_zero_iff.1 (by omega)
      exact ⟨[], by rw [e1, this]; simp⟩
    · exact ⟨c', e1⟩
  rcases hw with ⟨q, b, h', hw, hp, hq, hl⟩ | ⟨hw, hn⟩
  · left
    refine ⟨q, b ++ p :: rest, h', hw, by rw [hp]; simp, hq, ?_⟩
    intro q' b' e hlt
    by_cases hc : done.length < q'.length
    · exact key q' b' e hc
    · obtain ⟨b'', e'⟩ := short q' b' e (by omega)
      exact hl q' b'' e' hlt
  · right
    refine ⟨hw, fun q b e => ?_⟩
    by_cases hc : done.length < q.length
    · exact key q b e hc
    · obtain ⟨b'', e'⟩ := short q b e (by omega)
      exact hn q b'' e'

theorem no_node {regs : List (Str × H)} {k : List Str} (hk : k ≠ []) (h : (register regs).get k = none) (t : List Str) :
    lastReg (cut regs) (k ++ t) = none := by
  cases e : lastReg (cut regs) (k ++ t) with
  | none => rfl
  | some x =>
    have := (register_get regs k hk).2 ⟨_, lastReg_mem e, List.prefix_append ..⟩
    rw [h] at this; cases this

/-- From a node that exists the loop finds the longest pattern that ends in a star, if no handler is registered for
the path. -/
theorem dispatchLoop_longest (regs : List (Str × H)) (hs : StarsLast (cut regs)) :
    ∀ (rest done : List Str) (st : List (Entry H)) (w : Option H) (node : Node H),
    (register regs).get done = some node → lastReg (cut regs) (done ++ rest) = none →
    Longest (cut regs) done w → w.isSome = true ∨ st = [] →
    Longest (cut regs) (done ++ rest) (dispatchLoop st node w rest)
  | [], done, st, w, node, hg, hn, hw, _ => by
    have hh : node.handler = none := by
      rw [List.append_nil, ← register_handler, handlerAt, hg] at hn
      exact hn
    rw [dispatchLoop.eq_def]
    simp only [hh, Option.none_or, List.append_nil]
    exact hw
  | p :: rest, done, st, w, node, hg, hn, hw, hst => by
    have hchild : ∀ x, (register regs).get (done ++ [x]) = node.child x := by
      intro x; rw [get_snoc, hg]; rfl
    have hstar : ∀ ws, node.child star = some ws → ∃ h, lastReg (cut regs) (done ++ [star]) = some h ∧ ws.handler = some h ∧
        ws.wildcard = none ∧ ∀ x, ws.child x = none := by
      intro ws hws
      have h1 := hchild star
      rw [hws] at h1
      obtain ⟨r, hr, hpre⟩ := (register_get regs (done ++ [star]) (by simp)).1 (by rw [h1]; rfl)
      obtain ⟨t, ht⟩ := hpre
      have ht0 : t = [] := by
        cases t with
        | nil => rfl
        | cons x t =>
          exact absurd (prefix_dropLast (k := done) (s := star) (x := x) ⟨t, by rw [← ht]; simp⟩) (hs r hr)
      have hrl : (lastReg (cut regs) (done ++ [star])).isSome = true := by
        rw [ht0, List.append_nil] at ht
        rw [ht]
        exact lastReg_some (h := r.2) hr
      obtain ⟨h, hh⟩ := Option.isSome_iff_exists.1 hrl
      refine ⟨h, hh, ?_, ?_, ?_⟩
      · rw [← register_handler, handlerAt, h1] at hh; exact hh
      · have hwl := register_wild regs (done ++ [star])
        rw [wildAt, h1] at hwl
        cases hl : lastReg (cut regs) (done ++ [star] ++ [star]) with
        | none => rw [hl] at hwl; exact hwl
        | some y =>
          exact absurd (prefix_dropLast (k := done) (s := star) (x := star) ⟨[], by simp⟩) (hs _ (lastReg_mem hl))
      · intro x
        have h2 : (register regs).get (done ++ [star] ++ [x]) = ws.child x := by rw [get_snoc, h1]; rfl
        cases hx : ws.child x with
        | none => rfl
        | some c =>
          exfalso
          rw [hx] at h2
          obtain ⟨r, hr, hpre⟩ := (register_get regs (done ++ [star] ++ [x]) (by simp)).1 (by rw [h2]; rfl)
          exact hs r hr (prefix_dropLast (k := done) (s := star) (x := x) (by rw [List.append_assoc] at hpre; exact hpre))
    cases hc : node.child p with
    | some c =>
      have hgc : (register regs).get (done ++ [p]) = some c := by rw [hchild, hc]
      have hwc : c.wildcard = lastReg (cut regs) ((done ++ [p]) ++ [star]) := by
        rw [← register_wild, wildAt, hgc]; rfl
      have hn' : lastReg (cut regs) ((done ++ [p]) ++ rest) = none := by
        rw [List.append_assoc]; exact hn
      have hlw := hw.snoc p
      rw [← hwc] at hlw
      rw [dispatchLoop.eq_def]
      simp only [hc]
      rw [show done ++ p :: rest = (done ++ [p]) ++ rest by simp]
      cases hws : node.child star with
      | some ws =>
        obtain ⟨h, hh, _⟩ := hstar ws hws
        have := hw.here hh
        refine dispatchLoop_longest regs hs rest (done ++ [p]) _ _ c hgc hn' hlw (Or.inl ?_)
        rw [this]; cases c.wildcard <;> rfl
      | none =>
        refine dispatchLoop_longest regs hs rest (done ++ [p]) _ _ c hgc hn' hlw ?_
        rcases hst with h | h
        · left; rw [Option.isSome_or, h, Bool.or_true]
        · exact Or.inr h
    | none =>
      have hb : Longest (cut regs) (done ++ p :: rest) w := by
        refine hw.beyond p rest (fun k => ?_)
        have := no_node (regs := regs) (k := done ++ [p]) (by simp) (by rw [hchild, hc]) k
        rw [List.append_assoc] at this
        exact this
      have hres : dispatchLoop st node w (p :: rest) = w := by
        rw [dispatchLoop.eq_def]
        simp only [hc]
        cases hws : node.child star with
        | some ws =>
          obtain ⟨h, hh, h1, h2, h3⟩ := hstar ws hws
          have hwh := hw.here hh
          subst hwh
          dsimp only
          rw [h2, Option.none_or, dispatchLoop.eq_def]
          cases rest with
          | nil => simp [h1]
          | cons x rest => simp only [h3]
        | none =>
          dsimp only
          cases w with
          | some h => rfl
          | none =>
            have : st = [] := hst.resolve_left (by simp)
            subst this
            rfl
      rw [hres]
      exact hb

/-- C106: when stars are at the end of patterns only (and after a slash), the handler is the one registered for the
path, and otherwise the one of the longest pattern `q/*` where the path begins with `q`; only when there is none the
page is not found. -/
theorem C106_longest_partial (regs : List (Str × H)) (hs : StarsLast (cut regs)) (h1 : ∀ r ∈ regs, r.1 ≠ star) (path : Str)
    (hn : lastReg (cut regs) (Vfs.comps path) = none) :
    Longest (cut regs) (Vfs.comps path) (dispatch (register regs) path) := by
  refine dispatchLoop_longest regs hs (Vfs.comps path) [] [] none (register regs) rfl hn ?_ (Or.inr rfl)
  right
  refine ⟨rfl, fun q b e => ?_⟩
  have : q = [] := by
    cases q with
    | nil => rfl
    | cons x q => cases e
  subst this
  cases hl : lastReg (cut regs) ([] ++ [star]) with
  | none => rfl
  | some h =>
    obtain ⟨r, hr, e⟩ := List.mem_map.1 (lastReg_mem hl)
    have e1 := (Prod.mk.inj e).1
    have := Vfs.joinSep_comps r.1
    rw [e1] at this
    exact absurd this.symm (h1 r hr)

/-- A pattern without stars matches its own path only. -/
theorem segMatch_plain {a b : List Str} (h : SegMatch a b) (hs : star ∉ a) : a = b := by
  induction h with
  | nil => rfl
  | cons h _ ih =>
    rw [ih (fun hm => hs (by simp [hm]))]
    rcases h with h | h
    · rw [h]
    · exact absurd (by simp [h]) hs

theorem segMatch_length {a b : List Str} (h : SegMatch a b) : a.length = b.length := by
  induction h with
  | nil => rfl
  | cons _ _ ih => simp [ih]

theorem segMatch_snoc_inv {a b : List Str} {s : Str} (h : SegMatch (a ++ [s]) b) : ∃ c x, b = c ++ [x] ∧ SegMatch a c := by
  induction a generalizing b with
  | nil =>
    cases h with
    | cons h1 h2 => cases h2; exact ⟨[], _, rfl, .nil⟩
  | cons y a ih =>
    cases h with
    | cons h1 h2 =>
      obtain ⟨c, x, rfl, h⟩ := ih h2
      exact ⟨_ :: c, x, rfl, .cons h1 h⟩

/-- C106: then the page is found exactly when a pattern matches. -/
theorem C106_complete_partial (regs : List (Str × H)) (hs : StarsLast (cut regs)) (h1 : ∀ r ∈ regs, r.1 ≠ star) (path : Str) :
    (dispatch (register regs) path).isSome = true ↔ ∃ r ∈ cut regs, Matches r.1 (Vfs.comps path) := by
  constructor
  · intro h
    obtain ⟨x, hx⟩ := Option.isSome_iff_exists.1 h
    obtain ⟨pat, hm, hl⟩ := C106_sound regs path x hx
    exact ⟨_, lastReg_mem hl, hm⟩
  · rintro ⟨r, hr, hm⟩
    cases hn : lastReg (cut regs) (Vfs.comps path) with
    | some x => rw [C106_named regs path x hn]; rfl
    | none =>
      have hstars := hs r hr
      -- the pattern is `q/*` and the path begins with `q`
      have hq : ∃ q b, r.1 = q ++ [star] ∧ Vfs.comps path = q ++ b := by
        have fin : ∀ q a b, r.1 = q ++ [star] → Vfs.comps path = a ++ b → SegMatch q a → ∃ q b, r.1 = q ++ [star] ∧ Vfs.comps path = q ++ b := by
          intro q a b e1 e2 hm
          refine ⟨q, b, e1, ?_⟩
          rw [e1, List.dropLast_concat] at hstars
          rw [segMatch_plain hm hstars]; exact e2
        rcases hm with hm | ⟨q, a, b, e1, e2, hm⟩
        · by_cases hstar : star ∈ r.1
          · have hne : r.1 ≠ [] := List.ne_nil_of_mem hstar
            have e := (List.dropLast_concat_getLast hne).symm
            have hl : r.1.getLast hne = star := by
              rw [e] at hstar
              rcases List.mem_append.1 hstar with h | h
              · exact absurd h hstars
              · exact (List.mem_singleton.1 h).symm
            rw [hl] at e
            rw [e] at hm
            obtain ⟨c, x, e2, hm⟩ := segMatch_snoc_inv hm
            exact fin _ c [x] e e2 hm
          · exfalso
            have := segMatch_plain hm hstar
            rw [← this] at hn
            have := lastReg_some (regs := cut regs) (k := r.1) (h := r.2) hr
            rw [hn] at this; cases this
        · exact fin q a b e1 e2 hm
      obtain ⟨q, b, e1, e2⟩ := hq
      rcases C106_longest_partial regs hs h1 path hn with ⟨_, _, h, e, _⟩ | ⟨_, hno⟩
      · rw [e]; rfl
      · have := hno q b e2
        rw [← e1] at this
        have h2 := lastReg_some (regs := cut regs) (k := r.1) (h := r.2) hr
        rw [this] at h2; cases h2

/-- C106 is violated when stars are used inside patterns: with `/a/x/y` and `/*/x` registered the page `/a/x` is not
found. -/
theorem C106_violation_backtrack :
    dispatch (register [([47, 97, 47, 120, 47, 121], 1), ([47, 42, 47, 120], 2)]) [47, 97, 47, 120] = none ∧
    Matches (Vfs.comps [47, 42, 47, 120]) (Vfs.comps [47, 97, 47, 120]) := by
  refine ⟨by decide +kernel, Or.inl ?_⟩
  show SegMatch [[], [42], [120]] [[], [97], [120]]
  exact .cons (Or.inl rfl) (.cons (Or.inr rfl) (.cons (Or.inl rfl) .nil))

/-- With `/a/*` and `/a/b/c` registered: `/a`, `/a/b` and `/a/d/e` go to the first, `/a/b/c` to the second. -/
def demoRegs : List (Str × Nat) := [([47, 97, 47, 42], 1), ([47, 97, 47, 98, 47, 99], 2)]

example : StarsLast (cut demoRegs) ∧ (∀ r ∈ demoRegs, r.1 ≠ star) := by unfold StarsLast; decide +kernel

example : dispatch (register demoRegs) [47, 97] = some 1 ∧ dispatch (register demoRegs) [47, 97, 47, 98] = some 1 ∧
    dispatch (register demoRegs) [47, 97, 47, 100, 47, 101] = some 1 ∧ dispatch (register demoRegs) [47, 97, 47, 98, 47, 99] = some 2 := by
  decide +kernel

end Verif.Web

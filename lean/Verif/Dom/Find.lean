import Verif.Dom.Model
import Mathlib.Data.List.Perm.Basic
import Mathlib.Data.List.Flatten

/-!
# C128, C129: finding elements, character data (pyslet/xml/structures.py:2066-2137, 2239-2360)
-/
namespace Verif.Dom

/-- An element: its identity (with its class) and its children; a child is an element or text. -/
inductive Elt where
  | mk (n : Nat) (kids : List (Option Elt))

def Elt.n : Elt → Nat
  | .mk n _ => n

theorem Elt.n_mk (n : Nat) (ks : List (Option Elt)) : (Elt.mk n ks).n = n := rfl

mutual
/-- `Element.find_children_depth_first`, structures.py:2106-2137; `m` is the class test.  The recursive call passes the remaining depth
as `sub_match` (where it is positive, so true) and so uses the default depth of 1000. -/
def depthFirst (m : Nat → Bool) (sub : Bool) (maxDepth : Int) : Elt → List Nat
  | .mk _ kids => dfKids m sub (maxDepth - 1) kids
/-- The loop over the children, structures.py:2129-2137. -/
def dfKids (m : Nat → Bool) (sub : Bool) (depth : Int) : List (Option Elt) → List Nat
  | [] => []
  | none :: r => dfKids m sub depth r
  | some (.mk n ks) :: r =>
    (if m n then n :: (if sub then (if depth > 0 then depthFirst m true 1000 (.mk n ks) else []) else [])
     else if depth > 0 then depthFirst m true 1000 (.mk n ks) else []) ++ dfKids m sub depth r
end

/-- The children that match, in order: the first loop of structures.py:2094-2096. -/
def matching (m : Nat → Bool) (kids : List (Option Elt)) : List Nat :=
  kids.filterMap (fun k => match k with | some e => if m e.n then some e.n else none | none => none)

mutual
/-- `Element.find_children_breadth_first`, structures.py:2066-2103; the recursive call as above. -/
def breadthFirst (m : Nat → Bool) (sub : Bool) (maxDepth : Int) : Elt → List Nat
  | .mk _ kids => matching m kids ++ (if maxDepth - 1 ≠ 0 then bfKids m sub kids else [])
/-- The second loop, structures.py:2098-2103. -/
def bfKids (m : Nat → Bool) (sub : Bool) : List (Option Elt) → List Nat
  | [] => []
  | none :: r => bfKids m sub r
  | some (.mk n ks) :: r => (if sub || !m n then breadthFirst m true 1000 (.mk n ks) else []) ++ bfKids m sub r
end

/-! ### Specification -/

mutual
/-- All elements below an element, in document order. -/
def below : Elt → List Nat
  | .mk _ kids => belowL kids
def belowL : List (Option Elt) → List Nat
  | [] => []
  | none :: r => belowL r
  | some (.mk n ks) :: r => (n :: below (.mk n ks)) ++ belowL r
end

/-- The element children. -/
def Elt.children : Elt → List Elt
  | .mk _ kids => kids.filterMap id

/-! ### Proofs -/

mutual
theorem df_below (m : Nat → Bool) (d : Int) (hd : 1 < d) : ∀ e, depthFirst m true d e = (below e).filter m
  | .mk n kids => by
    rw [depthFirst, below]
    exact dfKids_below m (d - 1) (by omega) kids
theorem dfKids_below (m : Nat → Bool) (d : Int) (hd : 0 < d) : ∀ l, dfKids m true d l = (belowL l).filter m
  | [] => rfl
  | none :: r => by rw [dfKids, belowL]; exact dfKids_below m d hd r
  | some (.mk n ks) :: r => by
    rw [dfKids, belowL, List.filter_append, dfKids_below m d hd r, df_below m 1000 (by omega) (.mk n ks), List.filter_cons]
    simp only [if_true, gt_iff_lt, hd]
end

mutual
theorem bf_below (m : Nat → Bool) (d : Int) (hd : d ≠ 1) : ∀ e, (breadthFirst m true d e).Perm ((below e).filter m)
  | .mk n kids => by
    rw [breadthFirst, below, if_pos (by omega)]
    exact bfKids_below m kids
theorem bfKids_below (m : Nat → Bool) : ∀ l, (matching m l ++ bfKids m true l).Perm ((belowL l).filter m)
  | [] => .nil
  | none :: r => by
    rw [bfKids, belowL]
    exact bfKids_below m r
  | some (.mk n ks) :: r => by
    have h1 := bfKids_below m r
    have h2 := bf_below m 1000 (by omega) (.mk n ks)
    rw [bfKids, belowL, List.filter_append, List.filter_cons]
    simp only [Bool.true_or, if_true]
    have h3 : matching m (some (.mk n ks) :: r) = (if m n then [n] else []) ++ matching m r := by
      cases hm : m n <;> simp [matching, Elt.n_mk, hm]
    rw [h3]
    have h4 : (if m n then n :: (below (.mk n ks)).filter m else (below (.mk n ks)).filter m) =
        (if m n then [n] else []) ++ (below (.mk n ks)).filter m := by split <;> rfl
    rw [h4, List.append_assoc, List.append_assoc]
    refine List.Perm.append_left _ ?_
    refine List.Perm.trans ?_ (List.Perm.append h2 h1)
    rw [← List.append_assoc, ← List.append_assoc]
    exact List.Perm.append_right _ List.perm_append_comm
end

theorem matching_children (m : Nat → Bool) (n : Nat) (kids : List (Option Elt)) :
    matching m kids = ((Elt.mk n kids).children.map Elt.n).filter m := by
  unfold matching Elt.children
  induction kids with
  | nil => rfl
  | cons k r ih =>
    cases k with
    | none => simpa using ih
    | some e =>
      simp only [List.filterMap_cons, id, List.map_cons, List.filter_cons]
      split <;> split <;> simp_all

/-- C128: with `sub_match`, the default, `find_children_depth_first` gives all the elements of the class below the element, in document
order, and `find_children_breadth_first` the same ones, each as often, starting with the children; with `max_depth` 1 both give the
children only. -/
theorem C128_find_partial (m : Nat → Bool) (e : Elt) :
    (∀ d : Int, 1 < d → depthFirst m true d e = (below e).filter m) ∧
    (∀ d : Int, 1 < d → (breadthFirst m true d e).Perm ((below e).filter m) ∧
      ((e.children.map Elt.n).filter m) <+: breadthFirst m true d e) ∧
    (∀ sub, depthFirst m sub 1 e = (e.children.map Elt.n).filter m ∧ breadthFirst m sub 1 e = (e.children.map Elt.n).filter m) := by
  refine ⟨fun d hd => df_below m d hd e, fun d hd => ⟨bf_below m d (by omega) e, ?_⟩, ?_⟩
  · cases e with
    | mk n kids =>
      rw [breadthFirst, ← matching_children]
      exact List.prefix_append _ _
  · intro sub
    cases e with
    | mk n kids =>
      rw [← matching_children]
      constructor
      · rw [depthFirst]
        show dfKids m sub 0 kids = _
        unfold matching
        induction kids with
        | nil => rfl
        | cons k r ih =>
          cases k with
          | none => rw [dfKids, ih]; rfl
          | some e =>
            cases e with
            | mk n ks =>
              rw [dfKids, ih, List.filterMap_cons]
              cases hm : m n <;> simp [Elt.n_mk, hm]
      · rw [breadthFirst]
        simp

/-- C128: without `sub_match`, what is found: the children of the class, and everything of the class below the other children. -/
theorem C128_outer_partial (m : Nat → Bool) (e : Elt) (d : Int) (hd : 1 < d) :
    depthFirst m false d e = e.children.flatMap (fun c => if m c.n then [c.n] else (below c).filter m) := by
  cases e with
  | mk n kids =>
    rw [depthFirst]
    have hd : 0 < d - 1 := by omega
    generalize d - 1 = d' at hd
    show dfKids m false d' kids = (kids.filterMap id).flatMap _
    induction kids with
    | nil => rfl
    | cons k r ih =>
      cases k with
      | none => rw [dfKids, ih]; rfl
      | some e =>
        cases e with
        | mk n ks =>
          rw [dfKids, ih, List.filterMap_cons]
          simp only [id_eq, List.flatMap_cons, Elt.n_mk, if_pos hd, df_below m 1000 (by omega : (1 : Int) < 1000), Bool.false_eq_true, if_false]
          rfl

/-- 0 holds 1, which holds 2, which holds 3, and 4, which holds 5. -/
def demoTree : Elt := .mk 0 [some (.mk 1 [some (.mk 2 [none, some (.mk 3 [])])]), some (.mk 4 [some (.mk 5 [])])]

example : depthFirst (fun _ => true) true 1000 demoTree = [1, 2, 3, 4, 5] ∧
    depthFirst (fun n => n % 2 == 1) true 1000 demoTree = [1, 3, 5] := by decide +kernel

/-- C128 is violated: a `max_depth` of 2 finds the element 3 at depth 3. -/
theorem C128_violation_depth : depthFirst (fun _ => true) true 2 demoTree = [1, 2, 3, 4, 5] := by decide +kernel

/-- C128 is violated: without `sub_match`, elements inside a matching element are found (3 is inside 2). -/
theorem C128_violation_sub : depthFirst (fun n => n == 2 || n == 3) false 1000 demoTree = [2, 3] := by decide +kernel

/-- C128 is violated: the order of `find_children_breadth_first` is not breadth first (3, at depth 3, comes before 5, at depth 2). -/
theorem C128_violation_order : breadthFirst (fun _ => true) true 1000 demoTree = [1, 4, 2, 3, 5] := by decide +kernel

/-! ### Character data -/

/-- The loop of `content_changed`, structures.py:2272-2290: `data_children` in turn (`new_children` is what is returned). -/
def changedLoop : List Str → List Kid → List Kid
  | data, [] => if data.length = 1 then [.text (data.headD [])] else if data.length > 1 then [.text data.flatten] else []
  | data, .text t :: r => changedLoop (data ++ [t]) r
  | data, .el n :: r =>
    if data.length = 1 then .text (data.headD []) :: .el n :: changedLoop [] r
    else if data.length > 1 then .text data.flatten :: .el n :: changedLoop [] r
    else .el n :: changedLoop [] r

/-- `Element.content_changed`, structures.py:2261-2291. -/
def contentChanged (l : List Kid) : List Kid := changedLoop [] l

/-- `Element.get_value`, structures.py:2293-2335; none for `XMLMixedContentError`. -/
def getValue (ignore : Bool) : List Kid → Option Str
  | [] => some []
  | .text t :: r => (getValue ignore r).map (t ++ ·)
  | .el _ :: r => if ignore then getValue ignore r else none

/-- The content: characters and elements in order. -/
def content (l : List Kid) : List (Nat ⊕ Nat) := l.flatMap (fun k => match k with | .text t => t.map .inl | .el n => [.inr n])

theorem changedLoop_content (l : List Kid) : ∀ data : List Str, content (changedLoop data l) = data.flatten.map .inl ++ content l := by
  induction l with
  | nil =>
    intro data
    unfold changedLoop
    split
    · rename_i h
      obtain ⟨x, rfl⟩ := List.length_eq_one_iff.1 h
      simp [content]
    · split
      · simp [content]
      · have : data = [] := List.eq_nil_of_length_eq_zero (by omega)
        subst this
        simp [content]
  | cons k r ih =>
    intro data
    cases k with
    | text t =>
      rw [changedLoop, ih]
      simp [content]
    | el n =>
      rw [changedLoop]
      split
      · rename_i h
        obtain ⟨x, rfl⟩ := List.length_eq_one_iff.1 h
        have := ih []
        simp [content] at this ⊢
        exact this
      · split
        · have := ih []
          simp [content] at this ⊢
          exact this
        · have hd : data = [] := List.eq_nil_of_length_eq_zero (by omega)
          subst hd
          have := ih []
          simp [content] at this ⊢
          exact this

/-- No two pieces of text are next to each other. -/
def NoAdjacent : List Kid → Prop
  | .text _ :: .text _ :: _ => False
  | _ :: r => NoAdjacent r
  | [] => True

theorem changedLoop_adjacent (l : List Kid) : ∀ data : List Str, NoAdjacent (changedLoop data l) := by
  induction l with
  | nil =>
    intro data
    unfold changedLoop
    split
    · simp [NoAdjacent]
    · split <;> simp [NoAdjacent]
  | cons k r ih =>
    intro data
    cases k with
    | text t => rw [changedLoop]; exact ih _
    | el n =>
      rw [changedLoop]
      split
      · simpa [NoAdjacent] using ih []
      · split <;> simpa [NoAdjacent] using ih []

theorem getValue_content (l : List Kid) (ignore : Bool) (h : ignore = true ∨ elKids l = []) :
    getValue ignore l = some ((content l).filterMap (fun x => match x with | .inl c => some c | .inr _ => none)) := by
  induction l with
  | nil => rfl
  | cons k r ih =>
    cases k with
    | text t =>
      rw [getValue, ih (by simpa [elKids] using h)]
      simp [content, List.filterMap_append, List.filterMap_map, Function.comp_def]
    | el n =>
      rcases h with rfl | h
      · rw [getValue, if_pos rfl, ih (.inl rfl)]
        simp [content]
      · simp [elKids] at h

/-- C129: `content_changed` changes nothing but the division of the text, after it no two pieces of text are next to each other;
`add_data` adds the text at the end; `get_value` gives the text, without regard to elements if `ignore_elements`, and otherwise only if
there are none. -/
theorem C129_text (l : List Kid) :
    content (contentChanged l) = content l ∧ NoAdjacent (contentChanged l) ∧
    (∀ t, content (addText l t) = content l ++ t.map .inl) ∧
    (∀ ignore, (ignore = true ∨ ∀ n, Kid.el n ∉ l) →
      getValue ignore l = some ((content l).filterMap (fun x => match x with | .inl c => some c | .inr _ => none))) ∧
    (∀ n, Kid.el n ∈ l → getValue false l = none) := by
  refine ⟨?_, changedLoop_adjacent l [], ?_, ?_, ?_⟩
  · exact changedLoop_content l []
  · intro t
    unfold addText
    split
    · rename_i u hu
      rw [List.getLast?_eq_some_iff] at hu
      obtain ⟨a, rfl⟩ := hu
      simp [content]
    · simp [content]
  · intro ignore h
    refine getValue_content l ignore (h.imp_right ?_)
    intro h
    unfold elKids
    rw [List.filterMap_eq_nil_iff]
    intro k hk
    cases k with
    | text => rfl
    | el n => exact absurd hk (h n)
  · intro n hn
    induction l with
    | nil => cases hn
    | cons k r ih =>
      cases k with
      | el n => rfl
      | text t =>
        rw [getValue, ih (by simpa using hn)]
        rfl

/-- C129: the value that is set is read, whatever the element held. -/
theorem C129_set_value (s s' : St) (e : Nat) (t : Str) (ignore : Bool) (h : step s (.setValue e (some t)) = (s', none)) :
    getValue ignore (s'.node e).kids = some t := by
  simp only [step] at h
  split at h
  · cases hr : resetKids s e with
    | none => rw [hr] at h; simp [orKey] at h
    | some s1 =>
      rw [hr] at h
      simp only [Option.map_some, orKey, Prod.mk.injEq, and_true] at h
      rw [← h]
      simp [upd, getValue]
  · cases h

example : contentChanged [.text [97], .text [], .text [98], .el 1, .text [99]] = [.text [97, 98], .el 1, .text [99]] ∧
    getValue false [.text [97], .el 1] = none ∧ getValue true [.text [97], .el 1, .text [98]] = some [97, 98] := by decide +kernel

end Verif.Dom

import Mathlib.Data.List.Forall2
import Verif.Form.Model

/-!
# What a form should be

A specification of selection and ordering that does not mention how the code
works: which children may be picked, and which lists of identifiers are
legal arrangements of them.
-/

namespace Verif.Form

/-- A legal choice of children (given by position, in document order): the
wanted number of them, all the required ones among them, and no child twice
unless replacement is allowed.  Without a selection rule all children. -/
def Picks (sel : Option Sel) (infos : List Info) (p : List Nat) : Prop :=
  p.Pairwise (· ≤ ·) ∧ (∀ i ∈ p, i < infos.length) ∧
  (∀ i c, infos[i]? = some c → c.required = true → i ∈ p) ∧
  match sel with
  | none => p = List.range infos.length
  | some x => x.select = some (p.length : Int) ∧ (x.repl = false → p.Nodup)

/-- One picked child in an arrangement: the child's position among its
siblings, the components it, or its slot, contributes; for a slot
also the identifiers the child puts in the hat (`offered`) and the identifiers
drawn for the slot (`placed`). -/
structure Row where
  pick : Nat
  block : List Comp
  offered : List Id
  placed : List Id

/-- A child with the arrangements legal for its contents. -/
abbrev CSpec := Info × (Bool → List Comp → Prop)

/-- The components of a child that keeps its place: an item is its identifier; a
section is its identifier, then (when expanded) an arrangement of its contents
and its closing identifier. -/
def Block (expand : Bool) (c : CSpec) (b : List Comp) : Prop :=
  if c.1.isSect = true ∧ expand = true then
    ∃ body, c.2 true body ∧ b = some c.1.id :: (body ++ [some (45 :: c.1.id)])
  else b = [some c.1.id]

/-- A section whose own children are mixed into the shuffling of its parent. -/
def Info.mixed (c : Info) : Prop := c.isSect = true ∧ c.visible = false ∧ c.keep = false

/-- A legal arrangement of the contents of a section: the picked children in
order; with shuffling each child that is not fixed gives a slot that holds at
least one item, and the slots together hold exactly the identifiers offered. -/
def legalBody (t : Test) (sel : Option Sel) (shuffle : Bool) (ch : List CSpec)
    (expand : Bool) (l : List Comp) : Prop :=
  ∃ rows : List Row,
    Picks sel (ch.map Prod.fst) (rows.map Row.pick) ∧
    l = rows.flatMap Row.block ∧
    (rows.flatMap Row.placed).Perm (rows.flatMap Row.offered) ∧
    ∀ r ∈ rows, ∃ c, ch[r.pick]? = some c ∧
      (shuffle = true ∧ c.1.fixed = false →
        r.placed ≠ [] ∧ r.block = r.placed.map some ∧
        (∀ x ∈ r.placed, ∃ i ∈ t.all, i.id = x ∧ i.isSect = false) ∧
        (c.1.mixed → c.2 false (r.offered.map some)) ∧
        (¬ c.1.mixed → r.offered = [c.1.id])) ∧
      (¬ (shuffle = true ∧ c.1.fixed = false) →
        r.placed = [] ∧ r.offered = [] ∧ Block expand c r.block)

mutual
/-- `legal t p expand l`: `l` is a legal arrangement of the contents of the
section `p`, with (`expand`) or without the contents of the sub-sections that
keep their place. -/
def legal (t : Test) : SPart → Bool → List Comp → Prop
  | .item _ => fun _ _ => False
  | .sect _ sel sh ch => legalBody t sel sh (legals t ch)
/-- The children with their legal arrangements. -/
def legals (t : Test) : List SPart → List CSpec
  | [] => []
  | p :: ps => (p.info, legal t p) :: legals t ps
end

/-- A section with its identifiers. -/
def SectForm (t : Test) (p : SPart) (l : List Comp) : Prop :=
  ∃ body, legal t p true body ∧ l = some p.info.id :: (body ++ [some (45 :: p.info.id)])

/-- A form of the test: the empty identifier of the test itself, then for every
test part its identifier, all of its sections in order, its closing identifier. -/
def FormSpec (t : Test) (l : List Comp) : Prop :=
  ∃ parts : List (List Comp), l = some [] :: parts.flatten ∧
    List.Forall₂ (fun (p : TPart) b => ∃ ss : List (List Comp),
      List.Forall₂ (SectForm t) p.sections ss ∧
      b = some p.id :: (ss.flatten ++ [some (45 :: p.id)])) t parts

/-- Properly nested lists of identifiers: items, and blocks between the
identifier of a container and its closing identifier. -/
inductive Balanced (item cont : Id → Prop) : List Comp → Prop
  | nil : Balanced item cont []
  | item {x l} : item x → Balanced item cont l → Balanced item cont (some x :: l)
  | block {x b l} : cont x → Balanced item cont b → Balanced item cont l →
      Balanced item cont (some x :: (b ++ some (45 :: x) :: l))

/-- The number of children the section selects is at least one. -/
def picksSome (sel : Option Sel) (n : Nat) : Prop :=
  match sel with
  | none => 0 < n
  | some x => ∀ k, x.select = some k → 0 < k

mutual
/-- No section that is mixed into its parent may be empty of picks. -/
def SPart.NoHollow : SPart → Prop
  | .item _ => True
  | .sect i sel _ ch =>
    (i.visible = false ∧ i.keep = false → picksSome sel ch.length) ∧ noHollowL ch
/-- The same for a list. -/
def noHollowL : List SPart → Prop
  | [] => True
  | p :: ps => p.NoHollow ∧ noHollowL ps
end

/-- No section of the test that is mixed into its parent may be empty of picks. -/
def Test.NoHollow (t : Test) : Prop := ∀ p ∈ t, noHollowL p.sections

/-- The selection rule of a section can be met: there is a wanted number, not
below the number of required children, and enough children. -/
def Feasible (sel : Option Sel) (infos : List Info) : Prop :=
  match sel with
  | none => True
  | some x => ∃ k : Nat, x.select = some (k : Int) ∧
      infos.countP Info.required ≤ k ∧
      (x.repl = false → k ≤ infos.length) ∧ (k = 0 ∨ infos ≠ [])

mutual
/-- Every selection rule can be met, and where a section is shuffled its
children that are not fixed are items. -/
def SPart.Good : SPart → Prop
  | .item _ => True
  | .sect _ sel sh ch =>
    Feasible sel (ch.map SPart.info) ∧
    (sh = true → ∀ c ∈ ch, c.info.fixed = false → c.info.isSect = false) ∧ goodL ch
/-- The same for a list. -/
def goodL : List SPart → Prop
  | [] => True
  | p :: ps => p.Good ∧ goodL ps
end

/-- The form of a test whose sections are all good; the children of a test part
are sections. -/
def Test.Good (t : Test) : Prop :=
  ∀ p ∈ t, goodL p.sections ∧ ∀ s ∈ p.sections, s.info.isSect = true

/-- No two section parts of the test have the same identifier
(`register_part`, tests.py:92-99, refuses duplicates). -/
def Test.Unique (t : Test) : Prop := (t.all.map Info.id).Nodup

end Verif.Form

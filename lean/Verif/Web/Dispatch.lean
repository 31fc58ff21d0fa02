import Verif.Vfs.Path
/-!
# C106: the dispatcher of WSGI applications (pyslet/wsgi.py:491-499, 818-861, 914-965)

A page handler is an element of an arbitrary type `H`; a missing handler is `none`.
-/
namespace Verif.Web

abbrev Str := List Nat

/-! ### Model -/

/-- `DispatchNode`, wsgi.py:491-499: handler, wildcard handler and the dictionary of nodes. -/
inductive Node (H : Type)
  | mk (handler wildcard : Option H) (nodes : List (Str × Node H))

namespace Node
variable {H : Type}

def handler : Node H → Option H | mk h _ _ => h
def wildcard : Node H → Option H | mk _ w _ => w
def nodes : Node H → List (Str × Node H) | mk _ _ d => d

/-- wsgi.py:495-498. -/
def empty : Node H := mk none none []

/-- `_nodes.get(p, None)`. -/
def child (n : Node H) (p : Str) : Option (Node H) := (n.nodes.find? (·.1 == p)).map (·.2)

/-- `_nodes[p] = c`. -/
def setChild (n : Node H) (p : Str) (c : Node H) : Node H :=
  mk n.handler n.wildcard ((p, c) :: n.nodes.filter (·.1 != p))

end Node

/-- `'*'`. -/
def star : Str := [42]

/-- The loop of `set_method`, wsgi.py:847-861. -/
def setPath {H : Type} (n : Node H) : List Str → H → Node H
  | [], m => .mk (some m) n.wildcard n.nodes
  | p :: rest, m =>
    let n := if p = star ∧ rest = [] then .mk n.handler (some m) n.nodes else n
    n.setChild p (setPath ((n.child p).getD .empty) rest m)

/-- `set_method`, wsgi.py:818-861.  (`split` never gives an empty list.) -/
def setMethod {H : Type} (n : Node H) (path : Str) (m : H) : Node H := setPath n (Vfs.comps path) m

/-- An entry of the stack of `__call__`: the components after `path[i]`, the node and the wildcard. -/
abbrev Entry (H : Type) := List Str × Node H × Option H

/-- A bound for the loop: every step makes it smaller. -/
def weight {H : Type} (st : List (Entry H)) : Nat := (st.map fun e => 4 ^ e.1.length + 1).sum

/-- The loop of `__call__`, wsgi.py:926-957: the remaining components, the node and the wildcard before the loop
condition is tested; the result is the handler that is called. -/
def dispatchLoop {H : Type} (st : List (Entry H)) (node : Node H) (wildcard : Option H) (rest : List Str) : Option H :=
  match rest with
  | [] => node.handler.or wildcard
  | p :: rest =>
    match node.child p, node.child star with
    | some c, some w => dispatchLoop ((rest, w, wildcard) :: st) c (c.wildcard.or wildcard) rest
    | some c, none => dispatchLoop st c (c.wildcard.or wildcard) rest
    | none, some w => dispatchLoop st w (w.wildcard.or wildcard) rest
    | none, none =>
      match wildcard with
      | some h => some h
      | none =>
        match st with
        | (rest', w, wc) :: st => dispatchLoop st w (w.wildcard.or wc) rest'
        | [] => none
termination_by 4 ^ rest.length + weight st
decreasing_by
  all_goals simp only [weight, List.map_cons, List.sum_cons, List.length_cons, Nat.pow_succ]
  all_goals have := Nat.pow_pos (n := rest.length) (show 0 < 4 by decide)
  all_goals omega

/-- `__call__`, wsgi.py:914-957. -/
def dispatch {H : Type} (app : Node H) (pathInfo : Str) : Option H := dispatchLoop [] app none (Vfs.comps pathInfo)

/-- The application after some registrations. -/
def register {H : Type} (regs : List (Str × H)) : Node H := regs.foldl (fun n r => setMethod n r.1 r.2) .empty

/-! ### Specification -/

/-- The handler registered last for a pattern. -/
def lastReg {H : Type} (regs : List (List Str × H)) (pat : List Str) : Option H :=
  (regs.reverse.find? (·.1 == pat)).map (·.2)

/-- Component by component: the same, or a star in the pattern. -/
inductive SegMatch : List Str → List Str → Prop
  | nil : SegMatch [] []
  | cons {s x : Str} {pat path : List Str} : s = x ∨ s = star → SegMatch pat path → SegMatch (s :: pat) (x :: path)

/-- A path matches a pattern: a star matches a component, and at the end any number of them. -/
def Matches (pat path : List Str) : Prop :=
  SegMatch pat path ∨ ∃ q a b, pat = q ++ [star] ∧ path = a ++ b ∧ SegMatch q a

/-- The registrations with their patterns cut at the slashes. -/
def cut {H : Type} (regs : List (Str × H)) : List (List Str × H) := regs.map fun r => (Vfs.comps r.1, r.2)

end Verif.Web

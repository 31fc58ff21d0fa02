import Verif.CharClass.Model
/-!
# Specification: a character class is a set of characters

`setOf ops` is the set a user expects after the calls `ops`, written with plain
set operations and no reference to how the class is stored.
-/
namespace Verif.CharClass

/-- The characters listed by a list of ranges. -/
def Mem (rs : List Range) (c : Nat) : Prop := ∃ r ∈ rs, r.1 ≤ c ∧ c ≤ r.2

/-- `c` lies between `a` and `z`, in either order. -/
def Between (a z c : Nat) : Prop := (a ≤ c ∧ c ≤ z) ∨ (z ≤ c ∧ c ≤ a)

/-- The set of characters a user expects after a history. -/
def Hist.set : Hist → Nat → Prop
  | .new => fun _ => False
  | .addChar h x => fun c => h.set c ∨ c = x
  | .addRange h a z => fun c => h.set c ∨ Between a z c
  | .addClass h arg => fun c => h.set c ∨ arg.set c
  | .subtractChar h x => fun c => h.set c ∧ c ≠ x
  | .subtractRange h a z => fun c => h.set c ∧ ¬ Between a z c
  | .subtractClass h arg => fun c => h.set c ∧ ¬ arg.set c
  | .negate h => fun c => c ≤ maxunicode ∧ ¬ h.set c

/-- Canonical representation: every range is non-empty and consecutive ranges are
separated by at least one missing character. -/
def Canon (rs : List Range) : Prop :=
  (∀ r ∈ rs, r.1 ≤ r.2) ∧ rs.Pairwise (fun r s => r.2 + 1 < s.1)

/-- Events whose class arguments are genuine CharClass objects. -/
def Op.Legal : Op → Prop
  | .addClass cs => ∃ h : Hist, cs = h.ranges
  | .subtractClass cs => ∃ h : Hist, cs = h.ranges
  | _ => True

def Event.Legal : Event → Prop
  | .mutate op => op.Legal
  | .tst _ => True

end Verif.CharClass

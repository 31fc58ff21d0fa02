import Mathlib.Data.List.Nodup
import Mathlib.Data.List.Basic
import Mathlib.Data.List.Flatten
/-!
# Model of named scopes, `pyslet/odata2/csdl.py:433-530`
-/
namespace Verif.Csdl

/-- Names: character codes; 46 is the dot. -/
abbrev Str := List Nat

/-- A declared value: its name, its identity, whether it is a `NameTableMixin`, and then the values of its table in the order of
declaration.  The key of a value in the table is its name at the time; names do not change afterwards. -/
inductive Val where
  | mk (name : Str) (ident : Nat) (isTable : Bool) (entries : List Val)

def Val.name : Val → Str
  | .mk n _ _ _ => n
def Val.isTable : Val → Bool
  | .mk _ _ t _ => t
def Val.entries : Val → List Val
  | .mk _ _ _ es => es

/-- `nameTable.get(key)`. -/
def lookup (es : List Val) (key : Str) : Option Val := es.find? (·.name == key)

/-- `key.split(".")` seen as the places where it can be cut, from the left: what is before and after each dot. -/
def cuts : Str → List (Str × Str)
  | [] => []
  | c :: cs => (if c = 46 then [([], cs)] else []) ++ (cuts cs).map fun p => (c :: p.1, p.2)

/-- `_split_key`, csdl.py:489-497. -/
def splitKey (es : List Val) (key : Str) : Option (Val × Str) :=
  (cuts key).findSome? fun p => match lookup es p.1 with
    | some v => if v.isTable then some (v, p.2) else none
    | none => none

/-- `__getitem__`, csdl.py:453-466; `none` is KeyError.  The key gets shorter with each turn. -/
def getFuel : Nat → List Val → Str → Option Val
  | 0, _, _ => none
  | fuel + 1, es, key => match lookup es key with
    | some v => some v
    | none => match splitKey es key with
      | some (v, rest) => getFuel fuel v.entries rest
      | none => none

def get (es : List Val) (key : Str) : Option Val := getFuel (key.length + 1) es key

mutual
/-- `__iter__`, csdl.py:468-478. -/
def keys : List Val → List Str
  | es => es.map Val.name ++ deepKeys es
termination_by es => (sizeOf es, 1)
/-- The second loop. -/
def deepKeys : List Val → List Str
  | [] => []
  | .mk n _ t sub :: es => (if t then (keys sub).map fun k => n ++ 46 :: k else []) ++ deepKeys es
termination_by es => (sizeOf es, 0)
end

/-- `__len__`, csdl.py:480-487. -/
def len : List Val → Nat
  | [] => 0
  | .mk _ _ t sub :: es => 1 + (if t then len sub else 0) + len es

/-- The ways `declare` fails. -/
inductive NameErr where
  | duplicate | incompatible
  deriving DecidableEq, Repr

/-- `declare`, csdl.py:499-520. -/
def declare (es : List Val) (v : Val) : Except NameErr (List Val) :=
  if es.any (·.name == v.name) then .error .duplicate
  else if es.any fun u => (v.name ++ [46]).isPrefixOf u.name || (u.name ++ [46]).isPrefixOf v.name then .error .incompatible
  else .ok (es ++ [v])

/-- `undeclare`, csdl.py:522-530; `none` is KeyError. -/
def undeclare (es : List Val) (v : Val) : Option (List Val) :=
  if es.any (·.name == v.name) then some (es.filter (·.name != v.name)) else none

end Verif.Csdl

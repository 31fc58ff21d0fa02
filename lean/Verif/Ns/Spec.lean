import Verif.Ns.Model

/-!
# What is claimed about names and namespaces
-/
namespace Verif.Ns

/-- What a prefix stands for, by the declarations in force: the nearest declaration counts. -/
def bind : List Frame → Str → Option Str
  | [], _ => none
  | f :: r, p => match get f.p2n p with | some v => some v | none => bind r p

/-- A prefix that may be declared: none at all, or a name without a colon that does not start with
the letters "xml", which are reserved. -/
def Good (p : Str) : Prop := 58 ∉ p ∧ ¬ xmlP <+: p

/-- The two maps of a node fit together, and the prefixes declared are good ones; the default
namespace is one of those used for elements. -/
structure Fit (E : Str → Prop) (f : Frame) : Prop where
  inv : ∀ ns p, get f.n2p ns = some p → get f.p2n p = some ns
  keys : (f.p2n.map Prod.fst).Nodup
  good : ∀ pv ∈ f.p2n, Good pv.1
  dflt : ∀ ns, get f.n2p ns = some [] → E ns

/-- An attribute whose name can be written: in no namespace (and not looking like a declaration), in
the XML namespace, or in a namespace that is not used for the names of elements. -/
def FineAttr (E : Str → Prop) (a : Attr) : Prop :=
  58 ∉ a.name ∧
    (a.ns = some XML ∨ (a.ns = some NONS ∧ ¬ xmlnsP <+: a.name) ∨ ∃ c s, a.ns = some (c :: s) ∧ c :: s ≠ NONS ∧ ¬ E (c :: s))

mutual
/-- All the elements of a tree are in namespaces of the set `E`, have proper names and fine
attributes, no two of the same name, and maps that fit together. -/
def Fine (E : Str → Prop) : Elem → Prop
  | .mk ns name attrs map kids =>
    (∃ c s, ns = some (c :: s) ∧ c :: s ≠ NONS ∧ E (c :: s)) ∧ 58 ∉ name ∧ name ≠ xmlnsP ∧
    (∀ a ∈ attrs, FineAttr E a) ∧ (attrs.map (fun a => (a.ns, a.name))).Nodup ∧ Fit E map ∧ FineAll E kids
/-- The same for a list. -/
def FineAll (E : Str → Prop) : List Elem → Prop
  | [] => True
  | e :: r => Fine E e ∧ FineAll E r
end

mutual
/-- The two trees have the same shape, names and attributes (the order of which does not matter). -/
inductive Same : Elem → Elem → Prop
  | mk (ns : Option Str) (name : Str) (as bs : List Attr) (f g : Frame) (ks ls : List Elem) :
      as.Perm bs → SameAll ks ls → Same (.mk ns name as f ks) (.mk ns name bs g ls)
/-- The same for lists. -/
inductive SameAll : List Elem → List Elem → Prop
  | nil : SameAll [] []
  | cons (a b : Elem) (ks ls : List Elem) : Same a b → SameAll ks ls → SameAll (a :: ks) (b :: ls)
end

mutual
/-- No element declares a default namespace of its own. -/
def Plain : Elem → Prop
  | .mk _ _ _ map kids => get map.p2n [] = none ∧ PlainAll kids
/-- The same for a list. -/
def PlainAll : List Elem → Prop
  | [] => True
  | e :: r => Plain e ∧ PlainAll r
end

/-- The maps that a program can bring about on a node with `make_prefix`, when the default namespaces
it declares are from `E`. -/
inductive Made (E : Str → Prop) : Frame → Prop
  | empty : Made E Frame.empty
  | make (f g : Frame) (ns p : Str) : Made E f → Good p → (p = [] → E ns) → makePrefix f ns p = some g → Made E g

end Verif.Ns

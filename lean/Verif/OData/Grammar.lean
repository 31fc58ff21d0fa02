import Verif.OData.Expr
import Verif.OData.LitProps
/-!
# The grammar of OData common expressions, as a specification

`Reads ids k e t`: the text `t` stands for the expression `e` where an expression of category at least `k` is
wanted.  Binary operators associate to the left; brackets may be put around anything; spaces and tabs may be put
anywhere between the parts and must be put around operators that are words.  A unary operator applies to an
expression of the primary category (a chain of unary operators is not derived; see `C62_unary_chain_violation`).
-/
namespace Verif.OData

/-- White space. -/
def Ws (w : Str) : Prop := ∀ c ∈ w, c = 32 ∨ c = 9

/-- A text that the literal parser reads as the value, whatever follows. -/
def LitText (ids : Ids) (v : Val) (t : Str) : Prop := ∀ r, Stop r → parseLit ids (t ++ r) = .ok v r

/-- Names that are not property names in an expression: the prefixes of literals (in any case), and the words
not, cast, isof. -/
def reserved : List Str :=
  [chars "null", chars "true", chars "false", chars "datetimeoffset", chars "datetime", chars "time", chars "binary",
   chars "nand", chars "nanf", chars "infd", chars "inff", chars "guid"]

/-- A name that can be used for a property. -/
def PropName (ids : Ids) (n : Str) : Prop :=
  IsName ids n ∧ lower n ∉ reserved ∧ n ≠ [88] ∧ n ≠ chars "not" ∧ n ≠ chars "isof" ∧ n ≠ chars "cast"

/-- The binary operators written as words. -/
def Op.isWord : Op → Bool
  | .mul | .div | .mod | .add | .sub | .lt | .gt | .le | .ge | .eq | .ne | .and | .or => true
  | _ => false

/-- How tightly the binary operators bind: multiplication and its like tighter than addition, that tighter than
comparison, then equality, and, or. -/
def Op.level : Op → Nat
  | .mul | .div | .mod => 7
  | .add | .sub => 6
  | .lt | .gt | .le | .ge => 5
  | .eq | .ne => 4
  | .and => 3
  | .or => 2
  | _ => 0

mutual
inductive Reads (ids : Ids) : Nat → Expr → Str → Prop
  | lit {k v t} : LitText ids v t → Reads ids k (.lit v) t
  | prop {k n} : PropName ids n → Reads ids k (.prop n) n
  | paren {k e t w} : Reads ids 0 e t → Ws w → Reads ids k e (40 :: (t ++ (w ++ [41])))
  | space {k e t w} : Reads ids k e t → Ws w → Reads ids k e (w ++ t)
  | negate {k e t} : k ≤ 8 → Reads ids 9 e t → (∀ r, Stop r → numeric (45 :: (t ++ r)) = .none) →
      Reads ids k (.node .negate [e]) (45 :: t)
  | not {k e t w} : k ≤ 8 → Reads ids 9 e t → Ws w → w ≠ [] → Reads ids k (.node .not [e]) (chars "not" ++ (w ++ t))
  | member {k l r tl tr w} : k ≤ 9 → Reads ids 9 l tl → Reads ids 10 r tr → Ws w →
      Reads ids k (.node .member [l, r]) (tl ++ (w ++ 47 :: tr))
  | word {k op l r tl tr w w'} : op.isWord = true → k ≤ op.level → Reads ids op.level l tl → Reads ids (op.level + 1) r tr →
      Ws w → w ≠ [] → Ws w' → w' ≠ [] → Reads ids k (.node op [l, r]) (tl ++ (w ++ (op.word ++ (w' ++ tr))))
  | call {k m es t w} : ReadsArgs ids es t → Ws w → Reads ids k (.node (.call m) es) (m.name ++ (w ++ 40 :: t))
  | castlike1 {k op s t w w' kw} : (op = .cast ∧ kw = chars "cast" ∨ op = .isof ∧ kw = chars "isof") →
      Reads ids 0 (.lit (.str s)) t → Ws w → Ws w' →
      Reads ids k (.node op [.lit (.str s)]) (kw ++ (w ++ 40 :: (t ++ (w' ++ [41]))))
  | castlike2 {k op e s t u w w' w'' kw} : (op = .cast ∧ kw = chars "cast" ∨ op = .isof ∧ kw = chars "isof") →
      Reads ids 0 e t → Reads ids 0 (.lit (.str s)) u → Ws w → Ws w' → Ws w'' →
      Reads ids k (.node op [e, .lit (.str s)]) (kw ++ (w ++ 40 :: (t ++ (w' ++ 44 :: (u ++ (w'' ++ [41]))))))
/-- The arguments of a call and the closing bracket. -/
inductive ReadsArgs (ids : Ids) : List Expr → Str → Prop
  | one {e t w} : Reads ids 0 e t → Ws w → ReadsArgs ids [e] (t ++ (w ++ [41]))
  | more {e es t u w} : Reads ids 0 e t → ReadsArgs ids es u → Ws w → ReadsArgs ids (e :: es) (t ++ (w ++ 44 :: u))
end

end Verif.OData

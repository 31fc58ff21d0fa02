import Verif.OData.Lit
/-!
# Model of OData common expressions: `pyslet/odata2/core.py` (Operator, CommonExpression, Parser)
-/
namespace Verif.OData

/-- `Method`, core.py:342-372. -/
inductive Method where
  | endswith | indexof | replace | startswith | tolower | toupper | trim | substring | substringof | concat
  | length | year | month | day | hour | minute | second | round | floor | ceiling
deriving DecidableEq, Repr

/-- `Method.to_str`. -/
def Method.name : Method → Str
  | .endswith => chars "endswith" | .indexof => chars "indexof" | .replace => chars "replace"
  | .startswith => chars "startswith" | .tolower => chars "tolower" | .toupper => chars "toupper"
  | .trim => chars "trim" | .substring => chars "substring" | .substringof => chars "substringof"
  | .concat => chars "concat" | .length => chars "length" | .year => chars "year" | .month => chars "month"
  | .day => chars "day" | .hour => chars "hour" | .minute => chars "minute" | .second => chars "second"
  | .round => chars "round" | .floor => chars "floor" | .ceiling => chars "ceiling"

/-- All the methods. -/
def Method.all : List Method := [.endswith, .indexof, .replace, .startswith, .tolower, .toupper, .trim, .substring,
  .substringof, .concat, .length, .year, .month, .day, .hour, .minute, .second, .round, .floor, .ceiling]

/-- `Method.from_str`: `none` is ValueError. -/
def Method.fromStr (n : Str) : Option Method := Method.all.find? fun m => m.name = n

/-- `Operator`, core.py:245-291.  `call` is `Operator.methodCall` together with the method of the CallExpression;
`binNot` is a BinaryExpression made with `Operator.not`, which the parser builds for "a not b". -/
inductive Op where
  | member | call (m : Method) | negate | not | binNot | cast | mul | div | mod | add | sub | lt | gt | le | ge | isof
  | eq | ne | and | or
deriving DecidableEq, Repr

/-- `Operator.Category`, core.py:232-242, 311-331. -/
def Op.cat : Op → Nat
  | .member => 9 | .call _ => 9
  | .negate => 8 | .not => 8 | .binNot => 8 | .cast => 8
  | .mul => 7 | .div => 7 | .mod => 7
  | .add => 6 | .sub => 6
  | .lt => 5 | .gt => 5 | .le => 5 | .ge => 5 | .isof => 5
  | .eq => 4 | .ne => 4
  | .and => 3
  | .or => 2

/-- The names of the operators that are written as words between two operands, `Operator.decode`. -/
def Op.word : Op → Str
  | .mul => chars "mul" | .div => chars "div" | .mod => chars "mod" | .add => chars "add" | .sub => chars "sub"
  | .lt => chars "lt" | .gt => chars "gt" | .le => chars "le" | .ge => chars "ge" | .eq => chars "eq" | .ne => chars "ne"
  | .and => chars "and" | .or => chars "or" | .binNot => chars "not"
  | _ => []

/-- `Operator.from_str(name)` followed by the `IsSpecial` test, core.py:1409-1412, with the aliases of
core.py:280-291: `none` is ValueError. -/
def binaryOp (n : Str) : Option Op :=
  if n = chars "mul" then some .mul
  else if n = chars "div" then some .div
  else if n = chars "mod" then some .mod
  else if n = chars "add" then some .add
  else if n = chars "sub" then some .sub
  else if n = chars "lt" then some .lt
  else if n = chars "gt" then some .gt
  else if n = chars "le" then some .le
  else if n = chars "ge" then some .ge
  else if n = chars "eq" then some .eq
  else if n = chars "ne" then some .ne
  else if n = chars "and" ∨ n = chars "boolAnd" ∨ n = chars "bool_and" then some .and
  else if n = chars "or" ∨ n = chars "boolOr" ∨ n = chars "bool_or" then some .or
  else if n = chars "not" ∨ n = chars "boolNot" ∨ n = chars "bool_not" then some .binNot
  else none

/-- A CommonExpression: literal, property, or an operator with its operands.  `none` stands for Python's None,
which the parser adds as an operand in some cases. -/
inductive Expr where
  | none
  | lit (v : Val)
  | prop (name : Str)
  | node (op : Op) (args : List Expr)

/-- `operator` of an expression (`None` for literals and properties). -/
def Expr.op? : Expr → Option Op
  | .node op _ => some op
  | _ => Option.none

/-! ### Formatting -/

/-- `lvalue.operator is not None and lvalue < self`: the operand is bracketed, core.py:445, 525, 530. -/
def bracketed (op : Op) (child : Option Op) : Bool :=
  match child with
  | some c => c.cat < op.cat
  | none => false

/-- The text of an operand. -/
def operandText (op : Op) (child : Option Op) (t : Str) : Str :=
  if bracketed op child then 40 :: t ++ [41] else t

/-- `','.join(...)`. -/
def joinComma : List Str → Str
  | [] => []
  | [t] => t
  | t :: ts => t ++ 44 :: joinComma ts

/-- All the texts, unless one of them raised an exception. -/
def allSome : List (Option Str) → Option (List Str)
  | [] => some []
  | none :: _ => none
  | some t :: ts => (allSome ts).map (t :: ·)

/-- `UnaryExpression.__unicode__` (core.py:439-450), `BinaryExpression.__unicode__` (core.py:508-535) and
`CallExpression.__unicode__` (core.py:985-987), given the operators and texts of the operands. -/
def nodeText (op : Op) (children : List (Option Op)) (texts : List (Option Str)) : Option Str :=
  match op with
  | .call m => (allSome texts).map fun ts => m.name ++ 40 :: joinComma ts ++ [41]
  | .negate | .not =>
    match children, texts with
    | c :: _, some t :: _ =>
      some ((if op = .negate then [45] else chars "not ") ++ operandText op c t)
    | _, _ => none
  | .cast | .isof =>
    match children, texts with
    | c :: d :: _, some t :: some u :: _ =>
      some ((if op = .cast then chars "cast(" else chars "isof(") ++ operandText op c t ++ 44 :: operandText op d u ++ [41])
    | _, _ => none
  | _ =>
    match children, texts with
    | c :: d :: _, some t :: some u :: _ =>
      some (operandText op c t ++ (if op = .member then [47] else 32 :: op.word ++ [32]) ++ operandText op d u)
    | _, _ => none

mutual
/-- `str(expression)`: `none` is an exception (or a literal whose text is not modelled). -/
def Expr.text : Expr → Option Str
  | .none => Option.none
  | .lit v => formatLit v
  | .prop n => some n
  | .node op args => nodeText op (args.map Expr.op?) (Expr.texts args)
/-- The texts of the operands. -/
def Expr.texts : List Expr → List (Option Str)
  | [] => []
  | e :: es => e.text :: Expr.texts es
end

/-! ### Parsing -/

/-- Space or tab. -/
def isWs (c : Nat) : Bool := c == 32 || c == 9

/-- `parse_wsp`, core.py:1505-1518. -/
def wsp (s : Str) : Str := s.dropWhile isWs

/-- An operator waiting for its last operand: an expression object with the operands it has so far. -/
structure Pend where
  op : Op
  args : List Expr

/-- What `right_op` can be after core.py:1339-1395: a complete operand or a UnaryExpression. -/
inductive Item where
  | operand (e : Expr)
  | unary (op : Op)

/-- `self.add_operand(e)` to a waiting operator, and the resulting expression. -/
def Pend.close (p : Pend) (e : Expr) : Expr := .node p.op (p.args ++ [e])

/-- The loop at the end of an expression, core.py:1422-1429. -/
def collapse : Option Pend → List Pend → Expr → Expr
  | none, _, e => e
  | some p, [], e => p.close e
  | some p, q :: st, e => collapse (some q) st (p.close e)

/-- The first operand, if there is one. -/
def start : Expr → List Expr
  | .none => []
  | e => [e]

/-- The loop of core.py:1437-1456 when `left_op` is not None. -/
def reduceStack (op : Op) : List Pend → Pend → Expr → Pend × List Pend
  | [], p, e => if p.op.cat < op.cat then (⟨op, start e⟩, [p]) else (⟨op, start (p.close e)⟩, [])
  | q :: st, p, e => if p.op.cat < op.cat then (⟨op, start e⟩, p :: q :: st) else reduceStack op st q (p.close e)

/-- The loop of core.py:1437-1456: the new value of `left_op` and of the stack when `op` was read after the
operand `e` (`e = none` after a unary operator was read in place of an operand). -/
def reduce (op : Op) (left : Option Pend) (stack : List Pend) (e : Expr) : Pend × List Pend :=
  match left with
  | none => (⟨op, start e⟩, [])
  | some p => reduceStack op stack p e

/-- What follows an operand, core.py:1400-1417: a slash, or a word that names a binary operator. -/
def nextOp (ids : Ids) (s : Str) : Option (Op × Str) :=
  match wsp s with
  | [] => none
  | c :: r =>
    if c = 47 then some (.member, r)
    else match parseIdent ids (c :: r) with
      | some (n, r') => (binaryOp n).map fun op => (op, r')
      | none => none

/-- The arguments of a method call after the opening bracket, core.py:1462-1473, given the expression parser. -/
def callArgs (sub : Str → R Expr) : Nat → Str → R (List Expr)
  | 0, _ => .err
  | fuel + 1, s =>
    ((sub (wsp s)).require).bind fun e r =>
      match wsp r with
      | c :: r =>
        if c = 44 then (callArgs sub fuel r).bind fun es q => .ok (e :: es) q
        else if c = 41 then .ok [e] r
        else .err
      | [] => .err

/-- Whether an operand is a string literal, core.py:1497-1499. -/
def isStringLit : Expr → Bool
  | .lit (.str _) => true
  | _ => false

/-- `parse_castlike` and `require_production`, core.py:1355-1368, 1476-1502. -/
def castlike (sub : Str → R Expr) (op : Op) (s : Str) : R Expr :=
  match wsp s with
  | [] => .err
  | c :: r =>
    if c = 40 then
      ((sub r).require).bind fun e r =>
        match wsp r with
        | [] => .err
        | d :: r =>
          if d = 41 then if isStringLit e then .ok (.node op [e]) r else .err
          else if d = 44 then
            ((sub (wsp r)).require).bind fun f r =>
              (expect 41 (wsp r)).bind fun _ r => if isStringLit f then .ok (.node op [e, f]) r else .err
          else .err
    else .err

/-- What an identifier begins, core.py:1351-1376. -/
def named (sub : Str → R Expr) (name r : Str) : R Item :=
  if name = chars "not" then
    match r with
    | c :: r' => if isWs c then .ok (.unary .not) (wsp r') else .err
    | [] => .err
  else if name = chars "isof" then (castlike sub .isof (wsp r)).bind fun e q => .ok (.operand e) q
  else if name = chars "cast" then (castlike sub .cast (wsp r)).bind fun e q => .ok (.operand e) q
  else
    match wsp r with
    | [] => .ok (.operand (.prop name)) []
    | c :: q =>
      if c = 40 then
        match Method.fromStr name with
        | none => .err
        | some m => (callArgs sub (q.length + 1) q).bind fun es q' => .ok (.operand (.node (.call m) es)) q'
      else .ok (.operand (.prop name)) (c :: q)

/-- The parameters of a parameterised expression. -/
abbrev Params := List (Str × Val)

/-- An operand or a unary operator without a parameter, core.py:1347-1395; `none`: there is nothing of the kind. -/
def plainItem (ids : Ids) (sub : Str → R Expr) (s : Str) : R Item :=
  match parseLit ids s with
  | .err => .err
  | .ok v r => .ok (.operand (.lit v)) r
  | .none =>
    match parseIdent ids s with
    | some (name, r) => named sub name r
    | none =>
      match s with
      | [] => .none
      | c :: r =>
        if c = 40 then
          ((sub r).require).bind fun e q => (expect 41 q).bind fun _ q => .ok (.operand e) q
        else if c = 45 then .ok (.unary .negate) r
        else .none

/-- An operand or a unary operator, core.py:1339-1395.  Parameters are not passed on to `sub`. -/
def item (ids : Ids) (sub : Str → R Expr) (params : Option Params) (s : Str) : R Item :=
  match params with
  | none => plainItem ids sub (wsp s)
  | some ps =>
    match wsp s with
    | [] => .none
    | c :: r =>
      if c = 58 then
        match parseIdent ids r with
        | none => .err
        | some (n, q) =>
          match ps.lookup n with
          | none => .err
          | some v => .ok (.operand (.lit v)) q
      else plainItem ids sub (c :: r)

/-- `parse_common_expression`, core.py:1321-1456, from the state (`left_op`, `op_stack`) at the start of the main
loop.  The fuel has to exceed the length of the text. -/
def exprLoop (ids : Ids) : Nat → Option Params → Option Pend → List Pend → Str → R Expr
  | 0, _, _, _, _ => .err
  | fuel + 1, params, left, stack, s =>
    match item ids (fun t => exprLoop ids fuel none none [] t) params s with
    | .err => .err
    | .none => if left.isSome then .err else .none
    | .ok (.unary op) r =>
      exprLoop ids fuel params (some (reduce op left stack .none).1) (reduce op left stack .none).2 r
    | .ok (.operand e) r =>
      match nextOp ids r with
      | none => .ok (collapse left stack e) (wsp r)
      | some (op, r') =>
        exprLoop ids fuel params (some (reduce op left stack e).1) (reduce op left stack e).2 r'

/-- `parse_common_expression(params)`. -/
def parseExpr (ids : Ids) (params : Option Params) (s : Str) : R Expr := exprLoop ids (s.length + 1) params none [] s

/-- `CommonExpression.from_str(src, params)`, core.py:404-409: `none` is a ValueError. -/
def exprFromStr (ids : Ids) (params : Option Params) (s : Str) : Option Expr :=
  match parseExpr ids params s with
  | .ok e [] => some e
  | _ => none

end Verif.OData

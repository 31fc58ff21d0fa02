import Verif.OData.Expr
/-!
# Model of the translation of OData expressions to SQL: `pyslet/odata2/sqlds.py` lines 55-216, 1487-1999

A SQL text is a list of tokens.  A token stands for a fixed piece of text (an operator with the spaces around
it, `LOWER(`, a bracket, a column name, a placeholder), so what is left out is only the spelling of the pieces,
which differs between the dialects.
-/
namespace Verif.Sql
open Verif.OData

/-- The binary operators that the translation writes. -/
inductive BOp where
  | or | and | eq | ne | like | lt | gt | le | ge | add | sub | mul | div | concat
deriving DecidableEq, Repr

/-- `SQLOperatorPrecedence`, sqlds.py:55-71; `||` is given the precedence of `*`, sqlds.py:1892-1895. -/
def BOp.prec : BOp → Nat
  | .or => 1
  | .and => 2
  | .eq | .ne | .lt | .gt | .le | .ge | .like => 4
  | .add | .sub => 5
  | .mul | .div | .concat => 6

/-- The precedence of the context `','`, sqlds.py:56. -/
def commaPrec : Nat := 0

/-- The pieces of a SQL text.  `ph none` is an anonymous placeholder (`?` or `%s`), `ph (some k)` the one that
names the parameter with index `k`; `val v` is a value that the database driver put in place of a placeholder;
`pct` is the literal `'%'`; `fopen m`, `fsep m` and `fclose m` are the pieces of text around the operands of the
function for the method `m`. -/
inductive Tok where
  | lp | rp
  | op (o : BOp)
  | col (name : Str)
  | ph (k : Option Nat)
  | val (v : Val)
  | pct
  | fopen (m : Method) | fsep (m : Method) | fclose (m : Method)
deriving DecidableEq, Repr

/-- How parameters are added to a query: `ParamsClass` and its `add_param`, sqlds.py:94-216. -/
structure Params where
  /-- the state of the parameter object -/
  State : Type
  /-- `add_param`: the placeholder and the new state -/
  add : State → Val → Tok × State

/-- `QMarkParams` and `FormatParams`, sqlds.py:138-161. -/
@[reducible] def positional : Params := ⟨List Val, fun ps v => (.ph none, ps ++ [v])⟩

/-- `NumericParams`, `NamedParams` and `PyFormatParams`, sqlds.py:169-211: the placeholder is made from the
number of the parameters (before or after adding the new one), so it identifies the index of the parameter. -/
@[reducible] def indexed : Params := ⟨List Val, fun ps v => (.ph (some ps.length), ps ++ [v])⟩

/-- The translation of an operand: a function of the context and of the parameters.  `none` is an exception. -/
abbrev Gen (P : Params) := Nat → P.State → Option (List Tok × P.State)

variable {P : Params}

/-- `sql_bracket`, sqlds.py:1562-1589. -/
def bracket (ctx prec : Nat) (ts : List Tok) : List Tok :=
  if ctx > prec then .lp :: ts ++ [.rp] else ts

/-- `sql_expression_generic_binary`, sqlds.py:1650-1669; also the LIKE of sqlds.py:1785-1790 and the concatenation
of sqlds.py:1889-1895. -/
def binary (o : BOp) (f g : Gen P) : Gen P := fun ctx ps =>
  match f o.prec ps with
  | none => none
  | some (t, ps) =>
    match g o.prec ps with
    | none => none
    | some (u, ps) => some (bracket ctx o.prec (t ++ .op o :: u), ps)

/-- The `UnparameterizedLiteral` for `'%'`, sqlds.py:1530-1532, 1779-1781. -/
def percent : Gen P := fun _ ps => some ([.pct], ps)

/-- A function with one operand, sqlds.py:1822-1841, 1897-1944. -/
def call1 (m : Method) (f : Gen P) : Gen P := fun _ ps =>
  match f commaPrec ps with
  | none => none
  | some (t, ps) => some (.fopen m :: t ++ [.fclose m], ps)

/-- `POSITION(a IN b)`, sqlds.py:1792-1799. -/
def call2 (m : Method) (f g : Gen P) : Gen P := fun _ ps =>
  match f commaPrec ps with
  | none => none
  | some (t, ps) =>
    match g commaPrec ps with
    | none => none
    | some (u, ps) => some (.fopen m :: t ++ .fsep m :: u ++ [.fclose m], ps)

/-- The SQL operator of an OData operator, sqlds.py:1671-1773. -/
def bopOf : Op → Option BOp
  | .mul => some .mul | .div => some .div | .add => some .add | .sub => some .sub
  | .lt => some .lt | .gt => some .gt | .le => some .le | .ge => some .ge
  | .eq => some .eq | .ne => some .ne | .and => some .and | .or => some .or
  | _ => none

/-- A column of the table, given the names of a member expression: `none` if it is not a simple property. -/
abbrev Cols := List Str → Option Str

/-- The methods of a function with one operand that have an implementation. -/
def oneOperand : Method → Bool
  | .tolower | .toupper | .trim | .length | .year | .month | .day | .hour | .minute | .second => true
  | _ => false

/-- The translation of an operator, given those of the operands: `sql_expression`, sqlds.py:1520-1529, 1553-1560
and the methods it calls, sqlds.py:1591-1956.  Unary operators, `cast`, `mod`, `isof`, `replace`, `round`, `floor`
and `ceiling` raise NotImplementedError, `substring` raises TypeError (sqlds.py:1851), a missing operand raises
IndexError; other operands are ignored.  `path` is the list of names of a member expression
(`_calculate_member_field_name`); the alias of a joined table is taken to be determined by them. -/
def sqlNode (cols : Cols) (op : Op) (path : Option (List Str)) (fs : List (Gen P)) : Gen P :=
  match op with
  | .member => fun _ ps => (path.bind cols).map fun c => ([.col c], ps)
  | .call m =>
    match m, fs with
    | .endswith, f :: g :: _ => binary .like f (binary .concat percent g)
    | .startswith, f :: g :: _ => binary .like f (binary .concat g percent)
    | .substringof, f :: g :: _ => binary .like g (binary .concat percent (binary .concat f percent))
    | .concat, f :: g :: _ => binary .concat f g
    | .indexof, f :: g :: _ => call2 .indexof f g
    | m, f :: _ => if oneOperand m then call1 m f else fun _ _ => none
    | _, _ => fun _ _ => none
  | op =>
    match bopOf op, fs with
    | some o, f :: g :: _ => binary o f g
    | _, _ => fun _ _ => none

/-- `_calculate_member_field_name` of a BinaryExpression, sqlds.py:1638-1642, given those of the operands. -/
def nodePath (op : Op) (paths : List (Option (List Str))) : Option (List Str) :=
  match op, paths with
  | .member, some p :: some q :: _ => some (p ++ q)
  | _, _ => none

mutual
/-- `_calculate_member_field_name`, sqlds.py:1635-1644: `none` is EvaluationError. -/
def memberPath : Expr → Option (List Str)
  | .prop n => some [n]
  | .node op args => nodePath op (memberPaths args)
  | _ => none
/-- The paths of the operands. -/
def memberPaths : List Expr → List (Option (List Str))
  | [] => []
  | e :: es => memberPath e :: memberPaths es
end

mutual
/-- `sql_expression`, sqlds.py:1487-1560. -/
def sqlExpr (P : Params) (cols : Cols) : Expr → Gen P
  | .none => fun _ _ => none
  | .lit v => fun _ ps => some ([(P.add ps v).1], (P.add ps v).2)
  | .prop n => fun _ ps => (cols [n]).map fun c => ([.col c], ps)
  | .node op args => sqlNode cols op (nodePath op (memberPaths args)) (sqlArgs P cols args)
/-- The translations of the operands. -/
def sqlArgs (P : Params) (cols : Cols) : List Expr → List (Gen P)
  | [] => []
  | e :: es => sqlExpr P cols e :: sqlArgs P cols es
end

/-- The context of a filter or an order expression: `"AND"`, sqlds.py:1487. -/
def defaultCtx : Nat := BOp.prec .and

/-! ### What a database does with the text -/

/-- The driver puts the values in place of the placeholders: anonymous ones take the parameters in the order of
the text.  A placeholder without a value stays. -/
def bindPos : List Val → List Tok → List Tok
  | _, [] => []
  | v :: vs, .ph none :: ts => .val v :: bindPos vs ts
  | vs, t :: ts => t :: bindPos vs ts

/-- Placeholders with an index take the parameter with that index. -/
def bindIdx (vs : List Val) : List Tok → List Tok
  | [] => []
  | .ph (some k) :: ts => (match vs[k]? with | some v => Tok.val v | none => .ph (some k)) :: bindIdx vs ts
  | t :: ts => t :: bindIdx vs ts

/-- A SQL expression. -/
inductive Ast where
  | col (name : Str)
  | val (v : Val)
  | pct
  | bin (o : BOp) (a b : Ast)
  | fn1 (m : Method) (a : Ast)
  | fn2 (m : Method) (a b : Ast)
deriving Repr

/-- The precedence of the operators in the grammar of SQLite (https://sqlite.org/lang_expr.html), from the lowest:
OR; AND; `=`, `<>`, LIKE; `<`, `>`, `<=`, `>=`; `+`, `-`; `*`, `/`; `||`. -/
def BOp.lvl : BOp → Nat
  | .or => 1
  | .and => 2
  | .eq | .ne | .like => 4
  | .lt | .gt | .le | .ge => 5
  | .add | .sub => 6
  | .mul | .div => 7
  | .concat => 8

/-- The grammar of SQL expressions: `Derives n ts a` when `ts` is a text of the expression `a` in which every
operator outside brackets has precedence at least `n`.  All the operators are left-associative. -/
inductive Derives : Nat → List Tok → Ast → Prop where
  | col {n} (c : Str) : Derives n [.col c] (.col c)
  | val {n} (v : Val) : Derives n [.val v] (.val v)
  | pct {n} : Derives n [.pct] .pct
  | paren {n ts a} : Derives 0 ts a → Derives n (.lp :: ts ++ [.rp]) a
  | fn1 {n m ts a} : Derives 0 ts a → Derives n (.fopen m :: ts ++ [.fclose m]) (.fn1 m a)
  | fn2 {n m ts us a b} : Derives 0 ts a → Derives 0 us b →
      Derives n (.fopen m :: ts ++ .fsep m :: us ++ [.fclose m]) (.fn2 m a b)
  | bin {n ts us a b} (o : BOp) : n ≤ o.lvl → Derives o.lvl ts a → Derives (o.lvl + 1) us b →
      Derives n (ts ++ .op o :: us) (.bin o a b)

/-- What the operators, functions, columns and values mean to a database. -/
structure Sem (D : Type) where
  bin : BOp → D → D → D
  fn1 : Method → D → D
  fn2 : Method → D → D → D
  col : Str → D
  val : Val → D
  pct : D

/-- The meaning of a SQL expression. -/
def Ast.den {D : Type} (S : Sem D) : Ast → D
  | .col c => S.col c
  | .val v => S.val v
  | .pct => S.pct
  | .bin o a b => S.bin o (a.den S) (b.den S)
  | .fn1 m a => S.fn1 m (a.den S)
  | .fn2 m a b => S.fn2 m (a.den S) (b.den S)

/-- AND, OR and `||` are associative. -/
structure Sem.Assoc {D : Type} (S : Sem D) : Prop where
  and : ∀ a b c, S.bin .and (S.bin .and a b) c = S.bin .and a (S.bin .and b c)
  or : ∀ a b c, S.bin .or (S.bin .or a b) c = S.bin .or a (S.bin .or b c)
  concat : ∀ a b c, S.bin .concat (S.bin .concat a b) c = S.bin .concat a (S.bin .concat b c)

end Verif.Sql

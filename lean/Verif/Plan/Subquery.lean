import Verif.Plan.Select

/-!
# Subqueries in WHERE (`src/sql/execution/expression_parser.rs`, `src/sql/execution/expressions/{subquery,exists,in}_expression.rs`)

`SELECT * FROM t WHERE p` where `p` is `[NOT] EXISTS (SELECT ...)`, `x [NOT] IN (SELECT ...)` or a comparison of `x` with `(SELECT ...)`. In the code a subquery is an expression of
the outer query. Not modelled: calls of scalar functions in the SELECT list of the subquery, FROM items that are not tables, subqueries as parts of larger conditions.
-/

namespace Verif.Plan

open Verif.Wire Verif.Bytes Verif.Sql Verif.Exec

/-- The SELECT of a subquery: its SELECT list, the first table of its FROM (its number and columns in the catalog) if it has one, and its WHERE. -/
structure Sub where
  items : List Item
  from_ : Option (Nat × Schema)
  where_ : Option NExpr

/-- A parsed subquery (`SubqueryExpression`, subquery_expression.rs:22-29): only the expression of its SELECT list is left. `scalarAgg` is the kind `Scalar` over an
aggregate, `list` the kind `InList` over any expression. The engine never fills in `cached_result`. -/
inductive SubExpr where
  | scalarAgg
  | list (e : Expr)

/-- `parse_subquery` (expression_parser.rs:3167-3251) with `parse_select_statements` (2290-2314) and `determine_subquery_type_and_return_type` (3264-3391): the columns are looked
up in the table of the subquery, or in the outer query when there is no FROM; the rest of the FROM, WHERE and all other clauses are not looked at. -/
def parseSub (outer : Schema) (q : Sub) : Option SubExpr :=
  let s := match q.from_ with | some (_, s) => s | none => outer
  match q.items with
  | [.expr (.agg f arg) none] => (parseS s (.agg f arg)).map fun _ => .scalarAgg
  | [.expr e _] => (parseS s e).map .list
  | _ => none

/-- `SubqueryExpression::evaluate` (subquery_expression.rs:131-187), on a row of the outer query. -/
def evalSub (row : Row) : SubExpr → Res
  | .scalarAgg => .err
  | .list e => (eval false (rowEnv row) e).bind fun v => match val v with
    | .vector _ => .ok v
    | .null => .ok (new (.vector [new .null]))
    | _ => .ok (new (.vector [v]))

/-- `evaluate_subquery` and `negate_result` of IN (in_expression.rs:94-109, 216-224). -/
def inSub (negated : Bool) (x l : Value) : Value :=
  let r := match val l with
    | .vector vs => inCheck x vs
    | .null => .n
    | _ => inCheck x [l]
  ofTri (if negated then (match r with | .t => .f | .f => .t | .n => .n) else r)

/-- The conditions. -/
inductive Pred where
  | exists_ (negated : Bool) (q : Sub)
  | in_ (negated : Bool) (x : NExpr) (q : Sub)
  | cmp (op : CmpOp) (x : NExpr) (q : Sub)

/-- A parsed condition (expression_parser.rs:1494-1508, 1823-1836): its value on a row. EXISTS is exists_expression.rs:33-41; IN is in_expression.rs:228-252; the comparison
is comparison_expression.rs:150-160. -/
def parsePred (outer : Schema) : Pred → Option (Row → Res)
  | .exists_ n q => (parseSub outer q).map fun e row => (evalSub row e).bind fun v => .ok (new (.boolean (if n then isNull v else !isNull v)))
  | .in_ n x q => do
    let x ← parse outer x
    let e ← parseSub outer q
    some fun row => (eval false (rowEnv row) x).bind fun v => (evalSub row e).bind fun l => .ok (inSub n v l)
  | .cmp op x q => do
    let x ← parse outer x
    let e ← parseSub outer q
    some fun row => (eval false (rowEnv row) x).bind fun v => (evalSub row e).bind fun l => comparison op v l

/-- `FilterExecutor` (filter_executor.rs:186-216, 506-528) as in `Exec.filter`, for a condition given by its values: an error drops the row. -/
def keepWhere {σ : Type} (p : Row → Res) (child : Machine σ Row) : Machine σ Row := fun c =>
  match child c with
  | .emit a c' => (match p a with
    | .ok v => if asBool v then .emit a c' else .cont c'
    | .overflow => .stop .panic
    | _ => .cont c')
  | .cont c' => .cont c'
  | .stop e => .stop e

/-- Running `SELECT * FROM t WHERE p` gives the rows `out` and ends with `e`. `s` are the columns of `t`. -/
def SubAnswers (w : World) (t : Nat) (s : Schema) (p : Pred) (out : List Row) (e : End) : Prop :=
  ∃ f, parsePred s p = some f ∧ Yields (keepWhere f source) (w.rows t) out e

end Verif.Plan

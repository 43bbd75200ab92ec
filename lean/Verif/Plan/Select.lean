import Verif.Plan.Model

/-!
# From SELECT to a plan (`src/sql/planner/plan_builder.rs`, `src/sql/execution/expression_parser.rs`, `src/catalog/schema.rs`)

A SELECT over one table. A scalar expression is a list of column names and an expression over these columns, numbered in the order of the list: parsing resolves the names.
The type checks of the parser, which only refuse queries, and its conversion of literals are not modelled. The argument of an aggregate is a column.
-/

namespace Verif.Plan

open Verif.Wire Verif.Bytes Verif.Sql Verif.Exec

/-- The name of a column, with its table or alias when it is qualified. The code keeps `table.column` in one string and splits it at the dot. -/
structure Name where
  tbl : Option String
  col : String
  deriving DecidableEq

/-- The names of the columns of a schema. -/
abbrev Schema := List Name

/-- `Schema::get_column_index` (schema.rs:304-311). -/
def index (s : Schema) (n : Name) : Option Nat := s.findIdx? (· == n)

/-- `Schema::get_qualified_column_index` (schema.rs:339-383). What `parse_expression` tries after it for `table.column` (expression_parser.rs:360-404) finds nothing more. -/
def resolve (s : Schema) (n : Name) : Option Nat :=
  match index s n with
  | some i => some i
  | none => match n.tbl with
    | some _ => index s ⟨none, n.col⟩
    | none => s.findIdx? fun c => c.tbl.isSome && c.col == n.col

mutual
/-- Replacing the number of every column. -/
def renumber (f : Nat → Nat) : Expr → Expr
  | .col _ i => .col 0 (f i)
  | .lit v => .lit v
  | .arith op a b => .arith op (renumber f a) (renumber f b)
  | .modulo a b => .modulo (renumber f a) (renumber f b)
  | .concat a b => .concat (renumber f a) (renumber f b)
  | .cmp op a b => .cmp op (renumber f a) (renumber f b)
  | .and a b => .and (renumber f a) (renumber f b)
  | .or a b => .or (renumber f a) (renumber f b)
  | .not a => .not (renumber f a)
  | .neg a => .neg (renumber f a)
  | .is c n a => .is c n (renumber f a)
  | .distinct n a b => .distinct n (renumber f a) (renumber f b)
  | .between n a l h => .between n (renumber f a) (renumber f l) (renumber f h)
  | .coalesce es => .coalesce (renumbers f es)
  | .caseWhen arms => .caseWhen (renumberArms f arms)
  | .caseOf b arms => .caseOf (renumber f b) (renumberArms f arms)
  | .inList n a l => .inList n (renumber f a) (renumber f l)
  | .any op a l => .any op (renumber f a) (renumber f l)
  | .all op a l => .all op (renumber f a) (renumber f l)
  | .array es => .array (renumbers f es)
termination_by structural e => e
def renumbers (f : Nat → Nat) : Exprs → Exprs
  | .nil => .nil
  | .cons e es => .cons (renumber f e) (renumbers f es)
termination_by structural es => es
def renumberArms (f : Nat → Nat) : Arms → Arms
  | .els e => .els (renumber f e)
  | .when c t rest => .when (renumber f c) (renumber f t) (renumberArms f rest)
termination_by structural arms => arms
end

/-- A scalar expression of SQL: `body` is over the columns `cols`. -/
structure NExpr where
  cols : List Name
  body : Expr

/-- A column by its name. -/
def NExpr.column (n : Name) : NExpr := ⟨[n], .col 0 0⟩

/-- `parse_expression` (expression_parser.rs:298-...): an unknown column is an error. -/
def parse (s : Schema) (e : NExpr) : Option Expr :=
  (e.cols.mapM (resolve s)).map fun is => renumber (fun i => is.getD i s.length) e.body

/-- The aggregate functions. -/
inductive Fn where | countStar | count | sum | min | max | avg
  deriving DecidableEq

def Fn.name : Fn → String
  | .countStar | .count => "COUNT"
  | .sum => "SUM"
  | .min => "MIN"
  | .max => "MAX"
  | .avg => "AVG"

/-- What stands in a SELECT list: a column, another scalar expression (with the text the code prints for it), or an aggregate of a column. -/
inductive SExpr where
  | column (n : Name)
  | scalar (e : NExpr) (text : String)
  | agg (f : Fn) (arg : Name)

/-- A SELECT item: `*`, or an expression with an alias if it has one. -/
inductive Item where
  | star
  | expr (e : SExpr) (alias_ : Option String)

/-- A SELECT statement over one table. `having` is a combination of columns and aggregates by comparisons, AND and OR. -/
structure Select where
  items : List Item
  where_ : Option NExpr
  groupBy : List Name
  having : Option (List SExpr × Expr)
  distinct : Bool
  orderBy : List (NExpr × Dir)
  limit : Option Nat
  offset : Option Nat

/-- The aggregate as the executor runs it. -/
def Fn.agg (f : Fn) (e : Expr) : Agg := match f with
  | .countStar => .countStar
  | .count => .count e
  | .sum => .sum e
  | .min => .min e
  | .max => .max e
  | .avg => .avg e

/-- `AggregateExpression::evaluate` (aggregate_expression.rs:105-166): what an aggregate is when it is evaluated on one row. -/
def Fn.onRow (f : Fn) (e : Expr) : Expr := match f with
  | .countStar => .lit (new (.bigInt 1))
  | .count => .caseWhen (.when (.is .isNull false e) (.lit (new (.bigInt 0))) (.els (.lit (new (.bigInt 1)))))
  | .sum => .coalesce (.cons e (.cons (.lit (new (.bigInt 0))) .nil))
  | .min | .max | .avg => e

/-- `parse_expression` of a SELECT item against a schema, an aggregate as it is evaluated on a row. -/
def parseS (s : Schema) : SExpr → Option Expr
  | .column n => parse s (.column n)
  | .scalar e _ => parse s e
  | .agg f arg => (parse s (.column arg)).map f.onRow

/-- The name of the output column (plan_builder.rs:937-954, 1023-1026). The dots inside an argument's name are left out (aggregate_expression.rs:55-85). -/
def outName (e : SExpr) (alias_ : Option String) : Name := match alias_, e with
  | some a, _ => ⟨none, a⟩
  | none, .column n => n
  | none, .scalar _ text => ⟨none, text⟩
  | none, .agg .countStar _ => ⟨none, "COUNT_star"⟩
  | none, .agg f arg => ⟨none, f.name ++ "_" ++ arg.col⟩

/-- `build_projection_plan_with_schema` when the input is not an aggregation (plan_builder.rs:909-1136): the items are parsed against `parseSchema`, `*` is all columns of the
input. The result is the expressions and the output schema. -/
def projection (input parseSchema : Schema) : List Item → Option (List Expr × Schema)
  | [] => some ([], [])
  | .star :: rest => (projection input parseSchema rest).map fun r => ((List.range input.length).map (.col 0 ·) ++ r.1, input ++ r.2)
  | .expr e a :: rest => do
    let x ← parseS parseSchema e
    let r ← projection input parseSchema rest
    some (x :: r.1, outName e a :: r.2)

/-- The text `s` starts with `f(` or `f_`. -/
def startsWithFn (f : Fn) (s : String) : Bool := s.startsWith (f.name ++ "(") || s.startsWith (f.name ++ "_")

/-- The column of the aggregation's output that stands for an item (plan_builder.rs:957-1012, 1029-1111): `i` is the place of the item in the SELECT list. -/
def aggItem (aggSchema parseSchema : Schema) (i : Nat) (e : SExpr) (alias_ : Option String) : Option Expr := match e with
  | .agg f arg => do
    let _ ← parse parseSchema (.column arg)
    some (.col 0 ((aggSchema.findIdx? fun c => c == outName e none || (c.tbl.isNone && startsWithFn f c.col)).getD (Nat.min i (aggSchema.length - 1))))
  | e => do
    let x ← parseS parseSchema e
    let byName := match alias_, e with
      | none, _ => resolve aggSchema (outName e none)
      | some a, .column n => (resolve aggSchema ⟨none, a⟩).orElse fun _ => match n.tbl with
        | some t => resolve aggSchema (if t = "e" ∧ n.col = "name" then ⟨none, "employee"⟩ else if t = "d" ∧ n.col = "name" then ⟨none, "department"⟩ else n)
        | none => none
      | some a, _ => resolve aggSchema ⟨none, a⟩
    some (match byName with | some j => .col 0 j | none => x)

/-- The same function when the input is an aggregation. -/
def aggProjection (aggSchema parseSchema : Schema) : Nat → List Item → Option (List Expr × Schema)
  | _, [] => some ([], [])
  | _, .star :: _ => none
  | i, .expr e a :: rest => do
    let x ← aggItem aggSchema parseSchema i e a
    let r ← aggProjection aggSchema parseSchema (i + 1) rest
    some (x :: r.1, outName e a :: r.2)

/-- The aggregates of the SELECT list (plan_builder.rs:535-565). -/
def aggsOf : List Item → List (Fn × Name)
  | [] => []
  | .expr (.agg f arg) _ :: rest => (f, arg) :: aggsOf rest
  | _ :: rest => aggsOf rest

/-- `create_column_alias_mapping` (schema_manager.rs:1199-1245) on the name of a GROUP BY column; the last entry wins. -/
def aliasOf (group : List Name) : List Item → Name → Name
  | [], n => n
  | .expr (.column m) a :: rest, n =>
    let later := aliasOf group rest n
    if later = n ∧ m = n ∧ m.tbl.isSome then (match a with
      | some a => ⟨none, a⟩
      | none => if m ∈ group then ⟨none, m.col⟩ else n)
    else later
  | _ :: rest, n => aliasOf group rest n

/-- The names seen first. -/
def dedup : List Name → List Name → List Name
  | _, [] => []
  | seen, n :: ns => if n ∈ seen then dedup seen ns else n :: dedup (n :: seen) ns

/-- `create_aggregation_output_schema_with_alias_mapping` (schema_manager.rs:304-360): an aggregate's column is called by its function, and a name that is there already is
left out. `names` are the names of the GROUP BY columns in the table's schema. -/
def aggSchema (names : List Name) (items : List Item) : Schema := dedup [] (names.map (aliasOf names items) ++ (aggsOf items).map fun a => ⟨none, a.1.name⟩)

/-- `validate_group_by_clause` (plan_builder.rs:825-886): a column of the SELECT list must be a GROUP BY column; a qualified one matches by its last part. -/
def groupByOk (s : Schema) (names : List Name) : List Item → Bool
  | [] => true
  | .star :: _ => false
  | .expr (.column n) _ :: rest => (match (resolve s n).bind (s[·]?) with
    | some c => (names.contains c || names.any (fun g => g.tbl.isSome && ⟨none, g.col⟩ == c) ||
        (c.tbl.isSome && (names.contains ⟨none, c.col⟩ || names.any fun g => g.tbl.isSome && g.col == c.col))) && groupByOk s names rest
    | none => false)
  | _ :: rest => groupByOk s names rest

/-- `replace_aggregates_with_column_refs` (expression_parser.rs:4099-4217) on one leaf: an aggregate of the SELECT list becomes its column after the GROUP BY columns, a column
keeps its number in the table. -/
def havingLeaf (s : Schema) (aggs : List (Fn × Name)) (groupCount : Nat) : SExpr → Option Expr
  | .agg f arg => do
    let x ← parse s (.column arg)
    let i ← aggs.findIdx? fun a => a.1 == f && (f == .countStar || a.2 == arg)
    let _ := x
    some (.col 0 (groupCount + i))
  | e => parseS s e

mutual
/-- Putting the leaves into an expression. -/
def fill (ls : List Expr) : Expr → Expr
  | .col s i => ls.getD i (.col s i)
  | .cmp op a b => .cmp op (fill ls a) (fill ls b)
  | .and a b => .and (fill ls a) (fill ls b)
  | .or a b => .or (fill ls a) (fill ls b)
  | e => e
end

/-- The items without aggregates, in their order. -/
def hasStar : List Item → Bool
  | [] => false
  | .star :: _ => true
  | _ :: rest => hasStar rest

/-- WHERE (plan_builder.rs:507-523). -/
def planWhere (s : Schema) (base : Plan) (q : Select) : Option Plan := match q.where_ with
  | none => some base
  | some e => (parse s e).map fun p => .filter p base

/-- The SELECT list, GROUP BY and HAVING (plan_builder.rs:526-674): the plan and its output schema. -/
def planBody (s : Schema) (q : Select) (before : Plan) : Option (Plan × Schema) :=
  let aggs := aggsOf q.items
  if q.groupBy ≠ [] ∨ aggs ≠ [] then do
    if hasStar q.items then none
    let idx ← q.groupBy.mapM (resolve s)
    let names := idx.filterMap (s[·]?)
    if q.groupBy ≠ [] ∧ groupByOk s names q.items = false then none
    let as ← aggs.mapM fun a => (parse s (.column a.2)).map a.1.agg
    let schema := aggSchema names q.items
    let p := Plan.agg (idx.map (.col 0 ·)) as before
    match q.having with
    | none => do
      let r ← aggProjection schema s 0 q.items
      some (.project r.1 p, r.2)
    | some h => do
      let ls ← h.1.mapM (havingLeaf s aggs (schema.length - aggs.length))
      let r ← projection schema s q.items
      some (.project r.1 (.filter (fill ls h.2) p), r.2)
  else do
    let r ← projection s s q.items
    match q.having with
    | none => some (.project r.1 before, r.2)
    | some h => do
      let ls ← h.1.mapM (parseS s)
      some (.filter (fill ls h.2) (.project r.1 before), r.2)

/-- ORDER BY (plan_builder.rs:685-771): the keys are looked for in the output columns; when that fails for one of them, the rows from before the SELECT list are sorted and the
SELECT list is applied to them. -/
def planOrder (s : Schema) (q : Select) (before p : Plan) (out : Schema) : Option Plan :=
  if q.orderBy = [] then some p
  else match q.orderBy.mapM (fun k => (parse out k.1).map fun e => (e, k.2)) with
    | some specs => some (.sort specs p)
    | none => do
      let specs ← q.orderBy.mapM fun k => (parse s k.1).map fun e => (e, k.2)
      let r ← projection s s q.items
      let p' := Plan.project r.1 (.sort specs before)
      some (if q.distinct then .distinct p' else p')

def withDistinct (q : Select) (p : Plan) : Plan := if q.distinct then .distinct p else p

/-- OFFSET and LIMIT (plan_builder.rs:368-416). -/
def withLimit (q : Select) (p : Plan) : Plan :=
  let p := match q.offset with | some n => .offset n p | none => p
  match q.limit with | some n => .limit n p | none => p

/-- `build_query_plan` (plan_builder.rs:299-443) with `build_select_plan_with_order_by` (488-802) for a SELECT from what the plan `base` gives, with the columns `s`. `none` is an
error. -/
def planOn (s : Schema) (base : Plan) (q : Select) : Option Plan := do
  let before ← planWhere s base q
  let (body, out) ← planBody s q before
  let p ← planOrder s q before (withDistinct q body) out
  some (withLimit q p)

/-- A SELECT from the table `t` (`build_table_scan`, plan_builder.rs:1717-1749). -/
def plan (s : Schema) (t : Nat) (q : Select) : Option Plan := planOn s (.scan t) q

end Verif.Plan

import Verif.Plan.Select
import Verif.Plan.Optimizer

/-!
# FROM with several tables (`src/sql/planner/plan_builder.rs`, `src/sql/planner/logical_plan.rs`)

Tables, joins and parenthesised joins without an alias. Derived tables and parenthesised joins with an alias are not modelled here; the node they put into the plan is `Plan.rename`.
-/

namespace Verif.Plan

open Verif.Wire Verif.Bytes Verif.Sql Verif.Exec

/-- A table of a FROM clause: its number and columns in the catalog, its name and its alias. -/
structure Table where
  oid : Nat
  name : String
  cols : List String
  alias_ : Option String

/-- The join operators. `other` are the semi, anti, apply and as-of joins, which the planner or the executor refuses (plan_builder.rs:1572-1581,
nested_loop_join_executor.rs:674-677). -/
inductive JoinOp where | inner | left | right | full | cross | other
  deriving DecidableEq

/-- What stands after a join: ON, USING, NATURAL or nothing. -/
inductive Constraint where
  | on (e : NExpr)
  | using_ (cols : List String)
  | natural
  | none

/-- What stands in a FROM clause between commas: joins associate to the left, parentheses can change that. -/
inductive From where
  | table (T : Table)
  | join (op : JoinOp) (l r : From) (c : Constraint)

/-- The join type of the executor (nested_loop_join_executor.rs:657-678). -/
def JoinOp.type : JoinOp → Option JoinType
  | .inner => some .inner
  | .left => some .left
  | .right => some .right
  | .full => some .full
  | .cross => some .cross
  | .other => none

/-- The schema of a table scan (`process_table_factor`, plan_builder.rs:1620-1640): with an alias the columns are called `alias.column`, without one just `column`. -/
def Table.schema (T : Table) : Schema := T.cols.map fun c => ⟨T.alias_, c⟩

/-- `get_schema` of scans and joins (logical_plan.rs:2191, 2198-2245), the same as `Schema::merge_with_aliases` without aliases (schema.rs:475-532). -/
def From.schema : From → Schema
  | .table T => T.schema
  | .join _ l r _ => l.schema ++ r.schema

/-- `extract_join_keys` (logical_plan.rs:3638-3749), of which the predicate is used: the condition is made of equalities of columns with AND; what stands on the left of an
equality is taken from the left row, and what stands on its right from the right row. A column called `d.id` becomes the first of the right row. -/
def joinKeys (s : Schema) : Expr → Option Expr
  | .cmp .eq (.col _ i) (.col _ j) => some (.cmp .eq (.col 0 i) (.col 1 (if s[j]? = some ⟨some "d", "id"⟩ then 0 else j)))
  | .and a b => do some (.and (← joinKeys s a) (← joinKeys s b))
  | _ => none

/-- `process_table_with_joins` and `process_table_factor` (plan_builder.rs:1534-1702). `extract_join_keys` is applied when the plan is made physical (logical_plan.rs:3165-3191),
after the optimizer, which does not look into join conditions except to see that they have operands; here it is applied at once. Join types the executor does not know end the
query when the first pair of rows is tried; here they are refused at once. -/
def planFrom : From → Option Plan
  | .table T => some (.scan T.oid)
  | .join op l r c => do
    let pl ← planFrom l
    let pr ← planFrom r
    match c with
    | .on e => do
      let x ← parse (l.schema ++ r.schema) e
      let p ← joinKeys (l.schema ++ r.schema) x
      let jt ← op.type
      some (.join jt p l.schema.length r.schema.length pl pr)
    | _ => none

/-- `prepare_join_scan` (plan_builder.rs:1471-1506): the elements of the FROM list are joined by cross joins on the constant TRUE. -/
def planComma (first : From) (rest : List From) : Option (Plan × Schema) := do
  let p ← planFrom first
  rest.foldlM (fun acc f => do
    let q ← planFrom f
    some (.join .cross (.lit (new (.boolean true))) acc.2.length f.schema.length acc.1 q, acc.2 ++ f.schema)) (p, first.schema)

/-- `build_select_plan_with_order_by` (plan_builder.rs:488-802) for any FROM clause that is not empty. -/
def planSelect (first : From) (rest : List From) (q : Select) : Option Plan := do
  let (b, s) ← planComma first rest
  planOn s b q

end Verif.Plan

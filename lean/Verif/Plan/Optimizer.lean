import Verif.Plan.Model

/-!
# The optimizer (`src/sql/optimizer/optimizer_impl.rs`)

`optimize` runs index selection, early pruning, the rewrite rules and the join phase, and then checks the plan. The engine asks for one check option only
(`EnableNljCheck`, execution_engine.rs:763-779), so the sort-and-limit phase does not run. Creating the indexes of constraints (optimizer_impl.rs:325-361) is in `Plan/Index`.
-/

namespace Verif.Plan

open Verif.Wire Verif.Sql Verif.Exec

/-- `apply_index_scan_optimization` (optimizer_impl.rs:654-739). `ix t` is the first index of the table whose first key column is the first column of the scan, if there is one. -/
def useIndex (ix : Nat → Option Nat) : Plan → Plan
  | .scan t => (match ix t with
    | some i => .index t i
    | none => .scan t)
  | .index t i => .index t i
  | .values rows => .values rows
  | .filter p c => .filter p (useIndex ix c)
  | .project es c => .project es (useIndex ix c)
  | .rename n c => .rename n (useIndex ix c)
  | .join jt p nl nr l r => .join jt p nl nr (useIndex ix l) (useIndex ix r)
  | .agg by_ aggs c => .agg by_ aggs (useIndex ix c)
  | .sort specs c => .sort specs (useIndex ix c)
  | .limit n c => .limit n (useIndex ix c)
  | .offset n c => .offset n (useIndex ix c)
  | .distinct c => .distinct (useIndex ix c)
  | .topN k specs c => .topN k specs (useIndex ix c)

/-- The test for a constant TRUE (optimizer_impl.rs:775-777). -/
def isTrueLit : Expr → Bool
  | .lit v => (match val v with | .boolean b => b | _ => false)
  | _ => false

/-- `apply_early_pruning` (optimizer_impl.rs:754-788, 946-956): a projection without expressions and a filter on TRUE are replaced by their child, which is not looked at. A TRUE
written in a query is a `Literal` and not a `Constant`; which constants of the plan are `Constant`s is left open (`isConst`). -/
def prune (isConst : Expr → Bool) : Plan → Plan
  | .scan t => .scan t
  | .index t i => .index t i
  | .values rows => .values rows
  | .filter p c => if isTrueLit p && isConst p then c else .filter p (prune isConst c)
  | .project [] c => c
  | .project (e :: es) c => .project (e :: es) (prune isConst c)
  | .rename _ c => c
  | .join jt p nl nr l r => .join jt p nl nr (prune isConst l) (prune isConst r)
  | .agg by_ aggs c => .agg by_ aggs (prune isConst c)
  | .sort specs c => .sort specs (prune isConst c)
  | .limit n c => .limit n (prune isConst c)
  | .offset n c => .offset n (prune isConst c)
  | .distinct c => .distinct (prune isConst c)
  | .topN k specs c => .topN k specs (prune isConst c)

/-- `push_down_predicate` (optimizer_impl.rs:1011-1070). -/
def pushDown (p : Expr) : Plan → Plan
  | .filter q c => pushDown (.and p q) c
  | c => .filter p c

def isProjection : Plan → Bool
  | .project _ _ | .rename _ _ => true
  | _ => false

/-- `apply_rewrite_rules` (optimizer_impl.rs:803-837, 959-969) with `merge_projections` (1091-1135), which returns the inner projection. -/
def rewrite : Plan → Plan
  | .scan t => .scan t
  | .index t i => .index t i
  | .values rows => .values rows
  | .filter p c => pushDown p c
  | .project es c => if isProjection c then c else .project es (rewrite c)
  | .rename n c => if isProjection c then c else .rename n (rewrite c)
  | .join jt p nl nr l r => .join jt p nl nr (rewrite l) (rewrite r)
  | .agg by_ aggs c => .agg by_ aggs (rewrite c)
  | .sort specs c => .sort specs (rewrite c)
  | .limit n c => .limit n (rewrite c)
  | .offset n c => .offset n (rewrite c)
  | .distinct c => .distinct (rewrite c)
  | .topN k specs c => .topN k specs (rewrite c)

/-- `should_use_hash_join` (optimizer_impl.rs:1155-1162). -/
def shouldUseHashJoin (_ : Expr) : Bool := false

/-- `get_children().is_empty()` of a predicate as the parser builds it (expression_parser.rs:496-712): columns and constants have no children. -/
def noOperands : Expr → Bool
  | .col _ _ | .lit _ => true
  | _ => false

/-- `validate_plan` (optimizer_impl.rs:1183-1234). `known t` says that the table is in the catalog. -/
def validate (known : Nat → Bool) : Plan → Bool
  | .scan t => known t
  | .index _ _ | .values _ => true
  | .join _ p _ _ l r => !noOperands p && validate known l && validate known r
  | .topN k specs c => k ≠ 0 && !specs.isEmpty && validate known c
  | .filter _ c | .project _ c | .rename _ c | .agg _ _ c | .sort _ c | .limit _ c | .offset _ c | .distinct c => validate known c

/-- `Optimizer::optimize` (optimizer_impl.rs:246-300) with the engine's check options. `optimize_joins` (856-891) changes nothing because `should_use_hash_join` is false. -/
def optimize (ix : Nat → Option Nat) (isConst : Expr → Bool) (known : Nat → Bool) (p : Plan) : Option Plan :=
  let q := rewrite (prune isConst (useIndex ix p))
  if validate known q then some q else none

end Verif.Plan

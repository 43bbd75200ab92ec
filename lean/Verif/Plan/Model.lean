import Verif.Exec.Join
import Verif.Exec.Agg
import Verif.Exec.IndexScan

/-!
# Plans (`src/sql/planner/logical_plan.rs`) and the executors made from them (`src/sql/execution/plans/abstract_plan.rs`)
-/

namespace Verif.Plan

open Verif.Wire Verif.Bytes Verif.Sql Verif.Exec

/-- The query plans of `LogicalPlanType` (logical_plan.rs:276-770) that are modelled. Schemas are left out, except for how many columns they have where the executor uses it;
the node `Projection` without expressions, which the planner uses to rename the columns of a derived table (plan_builder.rs:1658-1665), is `rename`, with the number of columns. -/
inductive Plan where
  | scan (t : Nat)
  | index (t : Nat) (ix : Nat)
  | values (rows : List Row)
  | filter (p : Expr) (c : Plan)
  | project (es : List Expr) (c : Plan)
  | rename (w : Nat) (c : Plan)
  | join (jt : JoinType) (p : Expr) (nl nr : Nat) (l r : Plan)
  | agg (by_ : List Expr) (aggs : List Agg) (c : Plan)
  | sort (specs : Specs) (c : Plan)
  | limit (n : Nat) (c : Plan)
  | offset (n : Nat) (c : Plan)
  | distinct (c : Plan)
  | topN (k : Nat) (specs : Specs) (c : Plan)

/-- What the plans are run on: the visible rows of each table in the order of a sequential scan, the record ids each index gives when all of it is scanned, what the table holds
for a record id, and the choices of the standard library that are left open. -/
structure World where
  rows : Nat → List Row
  entries : Nat → List Nat
  fetch : Nat → Nat → Option Row
  debug : Value → List Byte
  drain : List Group → List Group
  heap : Heap Entry

/-- An executor with its first state. -/
structure Exe where
  σ : Type
  m : Machine σ Row
  s : σ

/-- `ProjectionExecutor::next` with no expressions and a schema of `w` columns (projection_executor.rs:264-303): `Tuple::new` panics unless the schema is empty too
(tuple.rs:434-450). -/
def renameExec {σ : Type} (w : Nat) (child : Machine σ Row) : Machine σ Row := fun c =>
  match child c with
  | .emit _ c' => if w = 0 then .emit [] c' else .stop .panic
  | .cont c' => .cont c'
  | .stop e => .stop e

/-- `Tuple::new` with values that are not as many as the columns of the schema panics (tuple.rs:434-450); `ok` says that they are. -/
def checked {σ : Type} (ok : Bool) (m : Machine σ Row) : Machine σ Row := fun c =>
  match m c with
  | .emit a c' => if ok then .emit a c' else .stop .panic
  | .cont c' => .cont c'
  | .stop e => .stop e

def isCol : Expr → Bool
  | .col _ _ => true
  | _ => false

/-- `PlanNode::create_executor` (abstract_plan.rs) after `to_physical_plan` (logical_plan.rs:2900-3560). `leaf` are the sequential scans of the tables; an index scan
does not fail. The output schema of an aggregation has a column for each GROUP BY expression that is a column reference, and none for the others
(aggregation_plan.rs:44-49). -/
def compileOn (w : World) (leaf : Nat → Exe) : Plan → Exe
  | .scan t => leaf t
  | .index t ix => ⟨_, indexScan [] (w.fetch t) source, w.entries ix⟩
  | .values rows => ⟨_, source, rows⟩
  | .filter p c => let c := compileOn w leaf c; ⟨_, Exec.filter p c.m, c.s⟩
  | .project es c => let c := compileOn w leaf c; ⟨_, Exec.projection es c.m, c.s⟩
  | .rename n c => let c := compileOn w leaf c; ⟨_, renameExec n c.m, c.s⟩
  | .join jt p nl nr l r => let l := compileOn w leaf l; let r := compileOn w leaf r; ⟨_, nestedLoop jt p nl nr l.m r.m r.s, .fetch l.s ⟨[], [], []⟩⟩
  | .agg by_ aggs c => let c := compileOn w leaf c; ⟨_, checked (by_.all isCol) (aggregate w.drain by_ aggs c.m), .collect [] false c.s⟩
  | .sort specs c => let c := compileOn w leaf c; ⟨_, Exec.sort specs c.m, .collect [] c.s⟩
  | .limit n c => let c := compileOn w leaf c; ⟨_, Exec.limit n c.m, (0, c.s)⟩
  | .offset n c => let c := compileOn w leaf c; ⟨_, Exec.offset n c.m, (0, c.s)⟩
  | .distinct c => let c := compileOn w leaf c; ⟨_, Exec.distinct w.debug c.m, ([], c.s)⟩
  | .topN k specs c => let c := compileOn w leaf c; ⟨_, Exec.topN w.heap k (specs.map (·.1)) c.m, .collect [] c.s⟩

/-- The same with sequential scans that give the rows one by one and do not fail. -/
def compile (w : World) (p : Plan) : Exe := compileOn w (fun t => ⟨_, source, w.rows t⟩) p

/-- Running a plan gives the rows `xs` and ends with `e`. -/
def Runs (w : World) (p : Plan) (xs : List Row) (e : End) : Prop := Yields (compile w p).m (compile w p).s xs e

end Verif.Plan

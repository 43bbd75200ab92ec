import Verif.Exec.IndexScan
import Verif.Exec.Join

/-!
# The index nested-loop join (`src/sql/execution/executors/nested_index_join_executor.rs`)
-/

namespace Verif.Exec

open Verif.Wire Verif.Bytes Verif.Sql

/-- The predicates for the lookup (nested_index_join_executor.rs:402-424): each right key expression compared with the value of its left key expression. A left key
that does not evaluate is left out. `none` is a panic. -/
def keyPreds (a : Row) : List Expr → List Expr → Option (List Expr)
  | l :: ls, r :: rs => match eval false (rowEnv a) l with
    | .ok v => (keyPreds a ls rs).map (.cmp .eq r (.lit v) :: ·)
    | .overflow => none
    | _ => keyPreds a ls rs
  | _, _ => some []

/-- The states of the loop of `next` (nested_index_join_executor.rs:566-625): no current left row, a left row for which the right executor is not yet made, and a left
row with its right executor and the record ids already seen. -/
inductive IjSt (σ τ ρ : Type) where
  | fetch (l : σ)
  | begin (l : σ) (row : Row)
  | scan (l : σ) (row : Row) (r : τ) (seen : List ρ)

/-- `NestedIndexJoinExecutor::next` with `get_next_inner_tuple` and `evaluate_predicate` (nested_index_join_executor.rs:214-248, 302-357, 557-625). `start` makes the right
executor for the predicates (`none`: it cannot be made, which counts as no rows). An error of the right executor counts as its end (309, 335, 582), an error of the
predicate as false (244-247). The join type is not looked at. -/
def indexJoin {σ τ ρ : Type} [DecidableEq ρ] (_jt : JoinType) (p : Expr) (lk rk : List Expr) (left : Machine σ Row) (right : Machine τ (ρ × Row))
    (start : List Expr → Option τ) : Machine (IjSt σ τ ρ) Row
  | .fetch l => (match left l with
    | .emit a l' => .cont (.begin l' a)
    | .cont l' => .cont (.fetch l')
    | .stop e => .stop e)
  | .begin l a => (match keyPreds a lk rk with
    | some ps => (match start ps with
      | some r => .cont (.scan l a r [])
      | none => .cont (.fetch l))
    | none => .stop .panic)
  | .scan l a r seen => (match right r with
    | .emit (rid, b) r' =>
      if rid ∈ seen then .cont (.scan l a r' seen)
      else (match eval true (joinEnv a b) p with
        | .ok v => (match val v with
          | .boolean true => .emit (a ++ b) (.scan l a r' (rid :: seen))
          | _ => .cont (.scan l a r' (rid :: seen)))
        | .overflow => .stop .panic
        | _ => .cont (.scan l a r' (rid :: seen)))
    | .cont r' => .cont (.scan l a r' seen)
    | .stop .panic => .stop .panic
    | .stop _ => .cont (.fetch l))

/-- The right child of the plan: a scan of the table, an index scan with its predicates, or something else. -/
inductive RightChild where
  | seq
  | index (preds : List Expr)
  | other

/-- An index of the right table: how many columns its key has, and the record ids its iterator gives between two keys. -/
structure JoinIndex (ρ : Type) where
  columns : Nat
  between : Option Value × Option Value → List ρ

/-- The right table: its rows in the order of a scan, what it holds for a record id, and its indexes in the order of `get_table_indexes`. -/
structure RightTable (ρ : Type) where
  rows : List (ρ × Row)
  fetch : ρ → Option Row
  indexes : List (JoinIndex ρ)

/-- The right executor: what is left of a scan, or the predicates of an index scan and what is left of its iterator. -/
inductive RightScan (ρ : Type) where
  | all (rows : List (ρ × Row))
  | byIndex (preds : List Expr) (rids : List ρ)

/-- `create_right_executor` (nested_index_join_executor.rs:392-484) for right key expressions numbering `k`: the first index with as many key columns, whatever columns
they are, else a scan of the table without a predicate. The predicates of the right child are not used. -/
def RightTable.start {ρ : Type} (t : RightTable ρ) (child : RightChild) (k : Nat) (preds : List Expr) : Option (RightScan ρ) := match child with
  | .other => none
  | _ => match t.indexes.find? (·.columns == k) with
    | some ix => some (.byIndex preds (ix.between (bounds preds)))
    | none => some (.all t.rows)

/-- A step of the right executor: `SeqScanExecutor::next` or `IndexScanExecutor::next`, with the record id of the row. -/
def RightTable.step {ρ : Type} (t : RightTable ρ) : Machine (RightScan ρ) (ρ × Row)
  | .all [] => .stop .done
  | .all (x :: xs) => .emit x (.all xs)
  | .byIndex ps rids => (match indexScan ps t.fetch source rids with
    | .emit row rest => (match rids with
      | rid :: _ => .emit (rid, row) (.byIndex ps rest)
      | [] => .stop .done)
    | .cont rest => .cont (.byIndex ps rest)
    | .stop e => .stop e)

end Verif.Exec

import Verif.Exec.Model

/-!
# The index scan (`src/sql/execution/executors/index_scan_executor.rs`)
-/

namespace Verif.Exec

open Verif.Wire Verif.Bytes Verif.Sql

/-- A range of keys: start, whether it is included, end, whether it is included. -/
structure Range where
  start : Option Value
  startIncl : Bool
  stop : Option Value
  stopIncl : Bool

/-- `value > *current` and `value < *current`: `PartialOrd` of values. -/
def gtV (a b : Value) : Bool := valueCmp a b == some .gt
def ltV (a b : Value) : Bool := valueCmp a b == some .lt

/-- The body of the inner loop for AND (index_scan_executor.rs:243-270). -/
def Range.narrow (acc r : Range) : Range :=
  let acc := match r.start, acc.start with
    | some v, none => { acc with start := some v, startIncl := r.startIncl }
    | some v, some cur => if gtV v cur then { acc with start := some v, startIncl := r.startIncl } else acc
    | none, _ => acc
  match r.stop, acc.stop with
    | some v, none => { acc with stop := some v, stopIncl := r.stopIncl }
    | some v, some cur => if ltV v cur then { acc with stop := some v, stopIncl := r.stopIncl } else acc
    | none, _ => acc

/-- Evaluating the right side of a comparison on an empty row (index_scan_executor.rs:336-339). -/
def constOf (e : Expr) : Option Value := match eval false (rowEnv []) e with
  | .ok v => some v
  | _ => none

/-- `analyze_predicate_ranges` (index_scan_executor.rs:221-377). The left side of a comparison is not looked at; what the NOT arm computes is dropped (line 330). -/
def ranges : Expr → List Range
  | .and a b => [(ranges a ++ ranges b).foldl Range.narrow ⟨none, false, none, false⟩]
  | .or a b => ranges a ++ ranges b
  | .cmp op _ b => (match constOf b with
    | none => []
    | some v => (match op with
      | .eq => [⟨some v, true, some v, true⟩]
      | .gt => [⟨some v, false, none, false⟩]
      | .ge => [⟨some v, true, none, false⟩]
      | .lt => [⟨none, false, some v, false⟩]
      | .le => [⟨none, false, some v, true⟩]
      | .ne => []))
  | _ => []

/-- The body of the loop of `analyze_bounds` (index_scan_executor.rs:420-446); whether an end is included is not used later. -/
def widen (acc : Option Value × Option Value) (r : Range) : Option Value × Option Value :=
  (match acc.1, r.start with
    | none, some v => some v
    | some cur, some v => if ltV v cur then some v else some cur
    | cur, none => cur,
   match acc.2, r.stop with
    | none, some v => some v
    | some cur, some v => if gtV v cur then some v else some cur
    | cur, none => cur)

/-- `analyze_bounds` (index_scan_executor.rs:401-465): the keys given to the index iterator. -/
def bounds (preds : List Expr) : Option Value × Option Value := (preds.flatMap ranges).foldl widen (none, none)

/-- The loop over the predicates (index_scan_executor.rs:575-591): a predicate that does not evaluate counts as true. `none` is a panic. -/
def matchAll (row : Row) : List Expr → Option Bool
  | [] => some true
  | p :: ps => match eval false (rowEnv row) p with
    | .ok v => (match val v with
      | .boolean true => matchAll row ps
      | _ => some false)
    | .overflow => none
    | _ => matchAll row ps

/-- `IndexScanExecutor::next` (index_scan_executor.rs:526-610) over the iterator on the keys of `bounds`; `fetch` is what the table holds for a record id: `none` for a deleted row and
for an error, which are both passed over. -/
def indexScan {σ ρ : Type} (preds : List Expr) (fetch : ρ → Option Row) (iter : Machine σ ρ) : Machine σ Row := fun c =>
  match iter c with
  | .emit rid c' => (match fetch rid with
    | some row => (match matchAll row preds with
      | some true => .emit row c'
      | some false => .cont c'
      | none => .stop .panic)
    | none => .cont c')
  | .cont c' => .cont c'
  | .stop e => .stop e

end Verif.Exec

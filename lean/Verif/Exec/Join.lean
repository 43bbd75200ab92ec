import Verif.Exec.Model

/-!
# The nested loop join (`src/sql/execution/executors/nested_loop_join_executor.rs`)
-/

namespace Verif.Exec

open Verif.Wire Verif.Bytes Verif.Sql

/-- The join types the executor supports (nested_loop_join_executor.rs:657-678). -/
inductive JoinType where | inner | cross | left | right | full
  deriving DecidableEq, Repr

/-- RIGHT and FULL joins record the right rows (nested_loop_join_executor.rs:1092-1097). -/
def JoinType.keepsRight : JoinType → Bool
  | .right | .full => true
  | _ => false

/-- `JoinPredicateEvaluator::evaluate` (nested_loop_join_executor.rs:533-583): NULL and values that are not boolean count as false. -/
def pairHolds (p : Expr) (l r : Row) : Except End Bool := match eval true (joinEnv l r) p with
  | .ok v => .ok (match val v with | .boolean b => b | _ => false)
  | .overflow => .error .panic
  | _ => .error .err

/-- The part of `JoinState` that outlives a left row (nested_loop_join_executor.rs:167-196): the right rows seen, the numbers of those matched, and the
unmatched left rows. -/
structure Saved where
  all : List Row
  matched : List Nat
  unmatchedLeft : List Row

/-- The right row is recorded unless one with equal values is (nested_loop_join_executor.rs:1099-1108). -/
def Saved.add (S : Saved) (jt : JoinType) (r : Row) : Saved :=
  if jt.keepsRight ∧ S.all.any (valuesEq · r) = false then { S with all := S.all ++ [r] } else S

/-- The first recorded row with equal values is marked (nested_loop_join_executor.rs:1117-1131). -/
def Saved.mark (S : Saved) (jt : JoinType) (r : Row) : Saved :=
  if jt.keepsRight then (match S.all.findIdx? (valuesEq · r) with
    | some i => { S with matched := i :: S.matched }
    | none => S)
  else S

/-- `collect_unmatched_right_tuples` (nested_loop_join_executor.rs:312-320). -/
def Saved.unmatchedRight (S : Saved) : List Row := (S.all.zipIdx.filter fun x => !S.matched.contains x.2).map (·.1)

/-- The states of the loop: `fetch` when there is no current left row, `scan` while the right side is read, `after` when it is exhausted for this left row,
and the two phases for the unmatched rows. -/
inductive JoinSt (σ τ : Type) where
  | fetch (l : σ) (S : Saved)
  | scan (l : σ) (row : Row) (found : Bool) (r : τ) (S : Saved)
  | after (l : σ) (row : Row) (found : Bool) (S : Saved)
  | unmatchedRight (rows : List Row) (S : Saved)
  | unmatchedLeft (rows : List Row)

/-- `Value::new(Val::Null)` for each column (nested_loop_join_executor.rs:431-443). -/
def nulls (n : Nat) : Row := List.replicate n (new .null)

/-- `NestedLoopJoinExecutor::next` with `execute_main_join`, `process_tuple_pair` and `process_unmatched_tuples` (nested_loop_join_executor.rs:651-795,
1060-1230, 1274-1301), for a left side of `nl` columns and a right side of `nr` columns. The right side starts again from `r0` for every left row
(`reset_right_executor`, 900-916). -/
def nestedLoop {σ τ : Type} (jt : JoinType) (p : Expr) (nl nr : Nat) (left : Machine σ Row) (right : Machine τ Row) (r0 : τ) :
    Machine (JoinSt σ τ) Row
  | .fetch l S => (match left l with
    | .emit a l' => .cont (.scan l' a false r0 S)
    | .cont l' => .cont (.fetch l' S)
    | .stop .done => if jt.keepsRight then .cont (.unmatchedRight S.unmatchedRight S) else .stop .done
    | .stop e => .stop e)
  | .scan l a found r S => (match right r with
    | .emit b r' =>
      (match (if jt = .cross then .ok true else pairHolds p a b) with
      | .ok true => .emit (a ++ b) (.scan l a true r' ((S.add jt b).mark jt b))
      | .ok false => .cont (.scan l a found r' (S.add jt b))
      | .error e => .stop e)
    | .cont r' => .cont (.scan l a found r' S)
    | .stop .done => .cont (.after l a found S)
    | .stop e => .stop e)
  | .after l a found S =>
    if found then .cont (.fetch l S)
    else match jt with
      | .left => .emit (a ++ nulls nr) (.fetch l S)
      | .full => .cont (.fetch l { S with unmatchedLeft := S.unmatchedLeft ++ [a] })
      | _ => .cont (.fetch l S)
  | .unmatchedRight (b :: bs) S => .emit (nulls nl ++ b) (.unmatchedRight bs S)
  | .unmatchedRight [] S => if jt = .full then .cont (.unmatchedLeft S.unmatchedLeft) else .stop .done
  | .unmatchedLeft (a :: as) => .emit (a ++ nulls nr) (.unmatchedLeft as)
  | .unmatchedLeft [] => .stop .done

end Verif.Exec

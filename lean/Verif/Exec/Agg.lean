import Verif.Exec.Model

/-!
# Aggregation (`src/sql/execution/executors/aggregation_executor.rs`)
-/

namespace Verif.Exec

open Verif.Wire Verif.Bytes Verif.Sql

/-- `+` of two integers in the integer type `t`, which panics (or, in release builds, wraps) when the sum does not fit. -/
def plusInt (t : Nat) (n : Int) : PanicR := if lo t ≤ n ∧ n ≤ hi t then .ok (intVal t n) else .overflow

/-- `Value::add` (value.rs:1632-1722). -/
def addValue (a b : Value) : PanicR :=
  if isNull a || isNull b then .ok (new .null)
  else match val a, val b with
    | .integer i, .integer j => plusInt 3 (i + j)
    | .bigInt i, .bigInt j => plusInt 4 (i + j)
    | .integer i, .bigInt j => plusInt 4 (i + j)
    | .bigInt i, .integer j => plusInt 4 (i + j)
    | .decimal x, .decimal y => .ok (new (.decimal (f64.add x y)))
    | .smallInt i, .smallInt j => plusInt 2 (i + j)
    | .tinyInt i, .tinyInt j => plusInt 1 (i + j)
    | .tinyInt i, .integer j => plusInt 3 (i + j)
    | .integer i, .tinyInt j => plusInt 3 (i + j)
    | .smallInt i, .integer j => plusInt 3 (i + j)
    | .integer i, .smallInt j => plusInt 3 (i + j)
    | .float x, .float y => .ok (new (.float (f32.add x y)))
    | .interval i, .interval j => if lo 4 ≤ i + j ∧ i + j ≤ hi 4 then .ok (new (.interval (i + j))) else .overflow
    | .varLen s, .varLen s' => .ok (new (.varLen (s ++ s')))
    | .constLen s, .constLen s' => .ok (new (.constLen (s ++ s')))
    | _, _ => .err

/-- The expressions of the SELECT list of an aggregate query: `AggregationType`, a plain column, any other expression. STDDEV and VARIANCE are
unsupported and left out. -/
inductive Agg where
  | countStar
  | count (e : Expr)
  | sum (e : Expr)
  | min (e : Expr)
  | max (e : Expr)
  | avg (e : Expr)
  | column (e : Expr)
  | other (e : Expr)

/-- The running value of an aggregate of a group, and for AVG its entry of `avg_counts` (0 when there is none). -/
abbrev Cell := Value × Nat

/-- The outcome for one row and one aggregate: `fail` is `Err(..)`, which keeps what has been written. -/
inductive Upd where
  | ok (c : Cell)
  | fail (c : Cell)
  | panic

/-- Evaluating the argument, with `unwrap()`. -/
def withArg (e : Expr) (row : Row) (k : Value → Upd) : Upd := match eval false (rowEnv row) e with
  | .ok v => k v
  | _ => .panic

/-- `values[i] = values[i].add(..)?` -/
def addTo (cur x : Value) (n : Nat) : Upd := match addValue cur x with
  | .ok v => .ok (v, n)
  | .err => .fail (cur, n)
  | .overflow => .panic

/-- The arms of the loop of `compute_aggregate` (aggregation_executor.rs:295-378). -/
def Agg.update (a : Agg) (row : Row) (c : Cell) : Upd := match a with
  | .countStar | .count _ => if isNull c.1 then .ok (new (.bigInt 1), c.2) else addTo c.1 (new (.bigInt 1)) c.2
  | .sum e => withArg e row fun v => if isNull v then .ok c else if isNull c.1 then .ok (v, c.2) else addTo c.1 v c.2
  | .min e => withArg e row fun v => if isNull v then .ok c else if isNull c.1 then .ok (v, c.2)
      else if compareOp .lt v c.1 = .t then .ok (v, c.2) else .ok c
  | .max e => withArg e row fun v => if isNull v then .ok c else if isNull c.1 then .ok (v, c.2)
      else if compareOp .lt c.1 v = .t then .ok (v, c.2) else .ok c
  | .avg e => withArg e row fun v => if isNull v then .ok c else if isNull c.1 then .ok (v, c.2 + 1) else addTo c.1 v (c.2 + 1)
  | .column e => if isNull c.1 then withArg e row fun v => .ok (v, c.2) else .ok c
  | .other e => withArg e row fun v => .ok (v, c.2)

/-- The loop of `compute_aggregate` (aggregation_executor.rs:293-381): an error leaves the rest of the aggregates as they are. `none` is a panic. -/
def updateAll (row : Row) : List Agg → List Cell → Option (List Cell)
  | a :: as, c :: cs => match a.update row c with
    | .ok c' => (updateAll row as cs).map (c' :: ·)
    | .fail c' => some (c' :: cs)
    | .panic => none
  | _, cs => some cs

/-- A group: its key and the running values. -/
abbrev Group := Row × List Cell

/-- `compute_aggregate` (aggregation_executor.rs:273-382); the hash map by `==` of the keys is a list. -/
def touch (aggs : List Agg) (key row : Row) : List Group → Option (List Group)
  | [] => (updateAll row aggs (aggs.map fun _ => (new .null, 0))).map fun cs => [(key, cs)]
  | g :: gs =>
    if valuesEq g.1 key then (updateAll row aggs g.2).map fun cs => (g.1, cs) :: gs
    else (touch aggs key row gs).map (g :: ·)

/-- The values of an empty input without GROUP BY (aggregation_executor.rs:451-478). -/
def Agg.empty : Agg → Cell
  | .countStar | .count _ => (new (.bigInt 0), 0)
  | .sum _ => (new (.integer 0), 0)
  | _ => (new .null, 0)

/-- The order of the groups (aggregation_executor.rs:482-496). -/
def groupCmp : Row → Row → Ordering
  | a :: as, b :: bs => match compareOp .lt a b with
    | .t => .lt
    | .f => if compareOp .lt b a = .t then .gt else groupCmp as bs
    | .n => groupCmp as bs
  | _, _ => .eq

/-- What is put out for an aggregate (aggregation_executor.rs:537-597). -/
def Agg.final (a : Agg) (c : Cell) : Value := match a with
  | .avg _ =>
    if c.2 = 0 ∨ isNull c.1 then new .null
    else (match val c.1 with
      | .integer i | .bigInt i => new (.decimal (f64.div (f64.ofInt i) (f64.ofInt c.2)))
      | .decimal x => new (.decimal (f64.div x (f64.ofInt c.2)))
      | _ => new .null)
  | _ => c.1

/-- The output row of a group (aggregation_executor.rs:599-611). That the output schema has as many columns is not modelled (`Tuple::new` would panic). -/
def outRow (aggs : List Agg) (g : Group) : Row := g.1 ++ (aggs.zip g.2).map fun x => x.1.final x.2

/-- Collecting the groups, or giving them out. -/
inductive AggSt (σ : Type) where
  | collect (gs : List Group) (any : Bool) (c : σ)
  | out (rows : List Row)

/-- `AggregationExecutor::init` and `next` (aggregation_executor.rs:405-499, 525-615). `drain` is the order in which the hash map gives its entries. An error of
the child leaves the executor without rows; `next` then calls `init` again, and it is assumed that a child that has failed fails again. -/
def aggregate {σ : Type} (drain : List Group → List Group) (by_ : List Expr) (aggs : List Agg) (child : Machine σ Row) : Machine (AggSt σ) Row
  | .collect gs any c => (match child c with
    | .emit a c' => (match project (rowEnv a) by_ with
      | .ok key => (match touch aggs key a gs with
        | some gs' => .cont (.collect gs' true c')
        | none => .stop .panic)
      | .error _ => .stop .panic)
    | .cont c' => .cont (.collect gs any c')
    | .stop .done =>
      let gs := if any = false ∧ by_.isEmpty then [([], aggs.map Agg.empty)] else gs
      .cont (.out ((stableSort (drain gs) fun a b => groupCmp a.1 b.1 != .gt).reverse.map (outRow aggs)))
    | .stop .err => .stop .done
    | .stop .panic => .stop .panic)
  | .out [] => .stop .done
  | .out (a :: as) => .emit a (.out as)

end Verif.Exec

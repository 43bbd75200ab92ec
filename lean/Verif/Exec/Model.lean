import Verif.Sql.Expr

/-!
# Query executors (`src/sql/execution/executors/`)

An executor is a machine with a state and one step. A step is one round of a loop of `next` or `init`: it gives a row out, goes on without
one, or ends (`Ok(None)`, `Err(..)`, or a panic). The child of an executor is any such machine, so every theorem about an executor is for
all the plans that can stand below it. `init` runs when the first row is asked for; creating executors and locking are not modelled.
-/

namespace Verif.Exec

open Verif.Wire Verif.Bytes Verif.Sql

/-- A row is the list of the values of a tuple; its RID is not modelled. -/
abbrev Row := List Value

/-- How an executor ends: with `Ok(None)`, with `Err(..)` or with a panic. -/
inductive End where | done | err | panic
  deriving DecidableEq, Repr

/-- One step of an executor. -/
inductive Step (σ α : Type) where
  | emit (a : α) (s : σ)
  | cont (s : σ)
  | stop (e : End)

abbrev Machine (σ α : Type) := σ → Step σ α

/-- Draining the executor from state `s` gives the rows `xs` and then ends with `e`. This is the loop of `ExecutionEngine::execute`
(execution_engine.rs:642-685). -/
inductive Yields {σ α : Type} (m : Machine σ α) : σ → List α → End → Prop where
  | emit {s a s' xs e} : m s = .emit a s' → Yields m s' xs e → Yields m s (a :: xs) e
  | cont {s s' xs e} : m s = .cont s' → Yields m s' xs e → Yields m s xs e
  | stop {s e} : m s = .stop e → Yields m s [] e

/-- The rows of a list one by one (`ValuesExecutor` and `MockExecutor`, values_executor.rs:42-85): the simplest child. -/
def source {α : Type} : Machine (List α) α
  | [] => .stop .done
  | a :: as => .emit a as

/-- A child that gives its rows and then fails. -/
def broken {α : Type} : Machine (List α) α
  | [] => .stop .err
  | a :: as => .emit a as

/-- `LimitExecutor::next` (limit_executor.rs:233-252). -/
def limit {σ α : Type} (n : Nat) (child : Machine σ α) : Machine (Nat × σ) α := fun (i, c) =>
  if n ≤ i then .stop .done
  else match child c with
    | .emit a c' => .emit a (i + 1, c')
    | .cont c' => .cont (i, c')
    | .stop e => .stop e

/-- `OffsetExecutor::next` (offset_executor.rs:217-238). -/
def offset {σ α : Type} (n : Nat) (child : Machine σ α) : Machine (Nat × σ) α := fun (i, c) =>
  match child c with
  | .emit a c' => if i < n then .cont (i + 1, c') else .emit a (i, c')
  | .cont c' => .cont (i, c')
  | .stop e => .stop e

/-- `Val::as_bool` (value.rs:2101-2123). -/
def asBool (a : Value) : Bool := match val a with
  | .boolean b => b
  | .tinyInt i | .smallInt i | .integer i | .bigInt i | .date i | .time i | .interval i => i != 0
  | .timestamp n => n != 0
  | .decimal x => f64.cmp x 0 != some .eq
  | .float x => f32.cmp x 0 != some .eq
  | .varLen s | .constLen s | .binary s | .json s | .uuid s => !s.isEmpty
  | .vector vs | .array vs => !vs.isEmpty
  | .enum _ _ | .point _ _ | .struct => true
  | .null => false

/-- `FilterExecutor::apply_where_filter` with `FilterExpression::evaluate` (filter_executor.rs:186-216, filter_expression.rs:82-92): an
evaluation error drops the row; `none` is a panic. -/
def whereKeeps (p : Expr) (row : Row) : Option Bool := match eval false (rowEnv row) p with
  | .ok v => some (asBool v)
  | .overflow => none
  | _ => some false

/-- `FilterExecutor::next` for WHERE (filter_executor.rs:506-528). -/
def filter {σ : Type} (p : Expr) (child : Machine σ Row) : Machine σ Row := fun c =>
  match child c with
  | .emit a c' => (match whereKeeps p a with
    | some true => .emit a c'
    | some false => .cont c'
    | none => .stop .panic)
  | .cont c' => .cont c'
  | .stop e => .stop e

/-- The loop of `ProjectionExecutor::next` over its expressions (projection_executor.rs:269-292). -/
def project (ρ : Env) : List Expr → Except End Row
  | [] => .ok []
  | e :: es => match eval false ρ e with
    | .ok v => (project ρ es).map (v :: ·)
    | .overflow => .error .panic
    | _ => .error .err

/-- `ProjectionExecutor::next` (projection_executor.rs:256-309). Simplification: a reference to a column the row does not have ends the query
here; the code skips such a row. -/
def projection {σ : Type} (es : List Expr) (child : Machine σ Row) : Machine σ Row := fun c =>
  match child c with
  | .emit a c' => (match project (rowEnv a) es with
    | .ok b => .emit b c'
    | .error e => .stop e)
  | .cont c' => .cont c'
  | .stop e => .stop e

/-- `OrderDirection` (sort_plan.rs). -/
inductive Dir where | asc | desc
  deriving DecidableEq, Repr

/-- `OrderBySpec`: an expression and a direction. -/
abbrev Specs := List (Expr × Dir)

def Dir.apply : Dir → Ordering → Ordering
  | .asc, o => o
  | .desc, o => o.swap

/-- The closure given to `sort_by` (sort_executor.rs:342-391): keys that do not evaluate or do not compare are passed over. A panic inside an
expression is not modelled here. -/
def sortCmp : Specs → Row → Row → Ordering
  | [], _, _ => .eq
  | (e, d) :: rest, a, b => match eval false (rowEnv a) e, eval false (rowEnv b) e with
    | .ok x, .ok y => (match valueCmp x y with
      | some .lt => d.apply .lt
      | some .gt => d.apply .gt
      | _ => sortCmp rest a b)
    | _, _ => sortCmp rest a b

/-- An executor that first collects its input and then gives out a list. -/
inductive Collect (σ α : Type) where
  | collect (acc : List α) (c : σ)
  | out (rows : List α)

/-- Put `a` before the first element it may stand before. -/
def insertStable {α : Type} (le : α → α → Bool) (a : α) : List α → List α
  | [] => [a]
  | b :: l => if le a b then a :: b :: l else b :: insertStable le a l

/-- A stable sort. -/
def stableSort {α : Type} (l : List α) (le : α → α → Bool) : List α := l.foldr (insertStable le) []

/-- `SortExecutor::init` and `next` (sort_executor.rs:294-451). `slice::sort_by` is a stable sort; `stableSort` stands for it: for a total order there
is only one result (for a comparison that is none both give some permutation, the code's may also panic). An error of the child only ends the
collecting. -/
def sort {σ : Type} (specs : Specs) (child : Machine σ Row) : Machine (Collect σ Row) Row
  | .collect acc c => match child c with
    | .emit a c' => .cont (.collect (acc ++ [a]) c')
    | .cont c' => .cont (.collect acc c')
    | .stop .panic => .stop .panic
    | .stop _ => .cont (.out (stableSort acc fun a b => sortCmp specs a b != .gt))
  | .out [] => .stop .done
  | .out (a :: as) => .emit a (.out as)

/-- `i32::to_le_bytes` and `i64::to_le_bytes`: two's complement. -/
def leInt (w : Nat) (i : Int) : List Byte := toLE w (i % (256 ^ w : Nat)).toNat

/-- One value in `DistinctExecutor::serialize_tuple` (distinct_executor.rs:160-179). `debug` is the `{:?}` rendering of a value. -/
def serValue (debug : Value → List Byte) (a : Value) : List Byte := match val a with
  | .integer i => leInt 4 i
  | .bigInt i => leInt 8 i
  | .varLen s => toLE 4 s.length ++ s
  | .boolean b => [if b then 1 else 0]
  | .decimal x => toLE 8 x
  | .null => [255]
  | _ => toLE 4 (debug a).length ++ debug a

/-- `DistinctExecutor::serialize_tuple` (distinct_executor.rs:157-182). -/
def serRow (debug : Value → List Byte) (row : Row) : List Byte := row.flatMap (serValue debug)

/-- `DistinctExecutor::next` (distinct_executor.rs:231-265); the hash set of byte strings is a list. -/
def distinct {σ : Type} (debug : Value → List Byte) (child : Machine σ Row) : Machine (List (List Byte) × σ) Row := fun (seen, c) =>
  match child c with
  | .emit a c' => if seen.contains (serRow debug a) then .cont (seen, c') else .emit a (serRow debug a :: seen, c')
  | .cont c' => .cont (seen, c')
  | .stop e => .stop e

/-- `Ord for TupleWithKeys` (topn_executor.rs:45-63). -/
def keyCmp : List Value → List Value → Ordering
  | a :: as, b :: bs => match compareOp .lt a b with
    | .t => .lt
    | .f => (match compareOp .gt a b with
      | .t => .gt
      | .f => keyCmp as bs
      | .n => .eq)
    | .n => .eq
  | _, _ => .eq

/-- `TopNExecutor::evaluate_sort_keys` (topn_executor.rs:99-109): an error is unwrapped, so a panic. -/
def sortKeys (es : List Expr) (row : Row) : Option (List Value) := match es with
  | [] => some []
  | e :: es => match eval false (rowEnv row) e with
    | .ok v => (sortKeys es row).map (v :: ·)
    | _ => none

/-- What is left open about `std::collections::BinaryHeap`: which of the least entries is on top, and the order `into_iter` gives. -/
structure Heap (α : Type) where
  top : List α → Nat
  order : List α → List α

/-- What the standard library promises of a `BinaryHeap<Reverse<_>>` when `cmp` is a total order on the entries that are `good`: the entry on top is
not greater than any other, and `into_iter` gives all entries. -/
structure Heap.Lawful {α : Type} (h : Heap α) (good : α → Prop) (cmp : α → α → Ordering) : Prop where
  top_min : ∀ l : List α, (∀ x ∈ l, good x) → l ≠ [] → ∃ m, l[h.top l]? = some m ∧ ∀ x ∈ l, cmp m x ≠ .gt
  order_perm : ∀ l, (h.order l).Perm l

/-- One entry of the heap: the keys and the row. -/
abbrev Entry := List Value × Row

/-- The body of the loop of `TopNExecutor::init` (topn_executor.rs:140-152). -/
def heapStep (h : Heap Entry) (k : Nat) (heap : List Entry) (x : Entry) : List Entry :=
  if heap.length < k then x :: heap
  else match heap[h.top heap]? with
    | some m => if keyCmp m.1 x.1 = .lt then x :: heap.eraseIdx (h.top heap) else heap
    | none => heap

/-- The state of TopN. -/
inductive TopSt (σ : Type) where
  | collect (heap : List Entry) (c : σ)
  | out (rows : List Entry)

/-- `TopNExecutor::init` and `next` (topn_executor.rs:113-195). -/
def topN {σ : Type} (h : Heap Entry) (k : Nat) (es : List Expr) (child : Machine σ Row) : Machine (TopSt σ) Row
  | .collect heap c => match child c with
    | .emit a c' => (match sortKeys es a with
      | some ks => .cont (.collect (heapStep h k heap (ks, a)) c')
      | none => .stop .panic)
    | .cont c' => .cont (.collect heap c')
    | .stop .panic => .stop .panic
    | .stop _ => .cont (.out (h.order heap).reverse)
  | .out [] => .stop .done
  | .out (a :: as) => .emit a.2 (.out as)

end Verif.Exec

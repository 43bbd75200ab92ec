import Verif.Exec.Model

/-!
# Executors that work group by group: the first rows of each group (`topn_per_group_executor.rs`) and window functions (`window_executor.rs`)

Both are reached through their plan nodes (`TopNPerGroupNode`, `WindowNode`); the SQL planner makes neither.
-/

namespace Verif.Exec

open Verif.Wire Verif.Bytes Verif.Sql

/-- `HashMap::entry(key).or_default()` with a change `f` of the entry (topn_per_group_executor.rs:181, window_executor.rs:153-156); the hash map by `==` of the
keys is a list. -/
def entryIn {β : Type} (empty : β) (f : β → β) (key : Row) : List (Row × β) → List (Row × β)
  | [] => [(key, f empty)]
  | g :: gs => if valuesEq g.1 key then (g.1, f g.2) :: gs else g :: entryIn empty f key gs

/-- `HashMap::get` (topn_per_group_executor.rs:243, window_executor.rs:214). -/
def lookup {β : Type} (key : Row) : List (Row × β) → Option β
  | [] => none
  | g :: gs => if valuesEq g.1 key then some g.2 else lookup key gs

/-- `TopNPerGroupExecutor::compare_group_keys` (topn_per_group_executor.rs:131-147), and the same closure in the window executor (window_executor.rs:161-174). -/
def groupKeyCmp : Row → Row → Ordering
  | a :: as, b :: bs => match compareOp .lt a b with
    | .t => .lt
    | .f => (match compareOp .gt a b with
      | .t => .gt
      | .f => groupKeyCmp as bs
      | .n => .eq)
    | .n => .eq
  | as, bs => compare as.length bs.length

/-- `keys().cloned().collect()` and `sort_by` (topn_per_group_executor.rs:210-212, window_executor.rs:160-174). `drain` is the order in which the hash map gives its
keys; `List.mergeSort` stands for the stable sort. -/
def sortedKeys {β : Type} (drain : List Row → List Row) (gs : List (Row × β)) : List Row :=
  (drain (gs.map (·.1))).mergeSort fun a b => groupKeyCmp a b != .gt

/-- The groups while the input is read; then what is left of the current group, the keys of the groups to come, and the groups. -/
inductive GroupSt (σ : Type) where
  | collect (gs : List (Row × List Entry)) (c : σ)
  | out (cur : List Entry) (keys : List Row) (gs : List (Row × List Entry))

/-- The rows of a group as they are given out: a copy of the heap sorted by `b.cmp(a)` (topn_per_group_executor.rs:245-251). -/
def groupRows (h : Heap Entry) (heap : List Entry) : List Entry := (h.order heap).mergeSort fun a b => keyCmp b.1 a.1 != .gt

/-- `TopNPerGroupExecutor::init` and `next` (topn_per_group_executor.rs:151-262). The keys are evaluated by `unwrap()`, so that a failing expression is a panic
(105-128). An error of the child leaves the executor without group keys and not initialized (202-205): the call of `next` gives `Ok(None)`. -/
def topNPerGroup {σ : Type} (drain : List Row → List Row) (h : Heap Entry) (k : Nat) (es by_ : List Expr) (child : Machine σ Row) : Machine (GroupSt σ) Row
  | .collect gs c => (match child c with
    | .emit a c' => (match sortKeys es a, sortKeys by_ a with
      | some ks, some key => .cont (.collect (entryIn [] (fun heap => heapStep h k heap (ks, a)) key gs) c')
      | _, _ => .stop .panic)
    | .cont c' => .cont (.collect gs c')
    | .stop .done => .cont (.out [] (sortedKeys drain gs) gs)
    | .stop .err => .stop .done
    | .stop .panic => .stop .panic)
  | .out (x :: cur) keys gs => .emit x.2 (.out cur keys gs)
  | .out [] [] _ => .stop .done
  | .out [] (key :: keys) gs => (match lookup key gs with
    | some heap => .cont (.out (groupRows h heap) keys gs)
    | none => .cont (.out [] keys gs))

/-- `WindowFunctionType` (window_plan.rs:11-24): the executor treats all but the first alike. -/
inductive WinType where | rowNumber | other
  deriving DecidableEq, Repr

/-- `WindowFunction` (window_plan.rs:28-33); the argument is never evaluated. -/
structure WinFn where
  type : WinType
  part : List Expr
  order : List Expr

/-- The loop of `heap.pop()` over a heap of `n` entries (window_executor.rs:191-193). -/
def popAll (h : Heap Entry) : Nat → List Entry → List Entry
  | 0, _ => []
  | n + 1, heap => match heap[h.top heap]? with
    | some m => m :: popAll h n (heap.eraseIdx (h.top heap))
    | none => []

/-- `partition_by` and `order_by` of the first function, evaluated by `unwrap()` and `[0]` (window_executor.rs:101-125): `none` is a panic. -/
def winKeys (fns : List WinFn) (row : Row) : Option (Row × List Value) := match fns with
  | [] => none
  | f :: _ => match sortKeys f.part row, sortKeys f.order row with
    | some p, some s => some (p, s)
    | _, _ => none

/-- `as i32` of a number that is not negative. -/
def asI32 (n : Nat) : Int := (n : Int).bmod (2 ^ 32)

/-- The loop over the window functions for the row at index `i` of its partition (window_executor.rs:231-245); `none` is the error "Unsupported window function". -/
def winResults (i : Nat) : List WinFn → Option (List Value)
  | [] => some []
  | f :: fs => match f.type with
    | .rowNumber => (winResults i fs).map (new (.integer (asI32 (i + 1))) :: ·)
    | .other => none

/-- The partitions while the input is read; then the index in the current partition, the keys of the current and the coming partitions, and the partitions. -/
inductive WinSt (σ : Type) where
  | collect (gs : List (Row × List Entry)) (c : σ)
  | out (i : Nat) (keys : List Row) (parts : List (Row × List Entry))

/-- `WindowExecutor::init` and `next` (window_executor.rs:129-260). `width` is the number of columns of the output schema: `Tuple::new` panics for another number of
values (tuple.rs:434-449). An error of the child leaves the executor without partitions: `next` gives `Ok(None)`. -/
def window {σ : Type} (drain : List Row → List Row) (h : Heap Entry) (width : Nat) (fns : List WinFn) (child : Machine σ Row) : Machine (WinSt σ) Row
  | .collect gs c => (match child c with
    | .emit a c' => (match winKeys fns a with
      | some (key, ks) => .cont (.collect (entryIn [] (· ++ [(ks, a)]) key gs) c')
      | none => .stop .panic)
    | .cont c' => .cont (.collect gs c')
    | .stop .done => .cont (.out 0 (sortedKeys drain gs) (gs.map fun g => (g.1, popAll h g.2.length g.2)))
    | .stop .err => .stop .done
    | .stop .panic => .stop .panic)
  | .out _ [] _ => .stop .done
  | .out i (key :: keys) parts => (match lookup key parts with
    | none => .stop .panic
    | some part => match part[i]? with
      | none => .cont (.out 0 keys parts)
      | some x => match winResults i fns with
        | none => .stop .err
        | some vs => if (x.2 ++ vs).length = width then .emit (x.2 ++ vs) (.out (i + 1) (key :: keys) parts) else .stop .panic)

end Verif.Exec

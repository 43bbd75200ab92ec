/-!
# Model of `src/concurrency/watermark.rs`

`Watermark` is always used behind a lock, so each method is one atomic step.
Timestamps are `Nat`; `next_ts` is assumed not to reach `u64::MAX` (2^64 - 1 begins).
-/

namespace Verif.Watermark

/-- `u64::MAX`, used by `saturating_add` (watermark.rs:284). -/
def u64Max : Nat := 2 ^ 64 - 1

/-- `struct Watermark` (watermark.rs:165-183). `active` is the `HashSet`, as a duplicate-free list. -/
structure WM where
  active : List Nat
  watermark : Nat
  nextTs : Nat
  deriving Repr, DecidableEq

/-- `Watermark::new` (watermark.rs:203-210). -/
def new : WM := { active := [], watermark := 1, nextTs := 1 }

/-- `iter().min()` on a non-empty set (watermark.rs:327). -/
def minOf : Nat → List Nat → Nat
  | a, [] => a
  | a, b :: l => minOf (min a b) l

/-- `update_watermark` (watermark.rs:323-329). -/
def updateWatermark (w : WM) : WM :=
  match w.active with
  | [] => { w with watermark := w.nextTs }
  | a :: l => { w with watermark := minOf a l }

/-- `get_next_ts` (watermark.rs:226-228): returns the counter and increments it. -/
def getNextTs (w : WM) : WM × Nat := ({ w with nextTs := w.nextTs + 1 }, w.nextTs)

/-- `HashSet::insert`. -/
def setInsert (l : List Nat) (t : Nat) : List Nat := if t ∈ l then l else t :: l

/-- `add_txn` (watermark.rs:243-246). -/
def addTxn (w : WM) (ts : Nat) : WM :=
  updateWatermark { w with active := setInsert w.active ts }

/-- `remove_txn` (watermark.rs:260-263). -/
def removeTxn (w : WM) (ts : Nat) : WM :=
  updateWatermark { w with active := w.active.filter (· ≠ ts) }

/-- `update_commit_ts` (watermark.rs:281-298). The compare-exchange loop runs under `&mut self`,
so its effect is `next_ts := max next_ts (ts saturating+ 1)`. -/
def updateCommitTs (w : WM) (ts : Nat) : WM :=
  let desired := min (ts + 1) u64Max
  updateWatermark { w with nextTs := if w.nextTs < desired then desired else w.nextTs }

/-- `get_watermark` (watermark.rs:310-312). -/
def getWatermark (w : WM) : Nat := w.watermark

/-- `get_next_ts_and_register` (watermark.rs:348-352). -/
def getNextTsAndRegister (w : WM) : WM × Nat :=
  let (w', ts) := getNextTs w
  (addTxn w' ts, ts)

/-- `unregister_txn` (watermark.rs:367-370). -/
def unregisterTxn (w : WM) (ts : Nat) : WM × Nat :=
  let w' := removeTxn w ts
  (w', getWatermark w')

/-- `update_commit_ts_and_get_watermark` (watermark.rs:384-387). -/
def updateCommitTsAndGetWatermark (w : WM) (ts : Nat) : WM × Nat :=
  let w' := updateCommitTs w ts
  (w', getWatermark w')

/-- The public mutating calls. -/
inductive Op where
  | getNextTs
  | addTxn (ts : Nat)
  | removeTxn (ts : Nat)
  | updateCommitTs (ts : Nat)
  | register
  | unregister (ts : Nat)
  | updateCommitTsAndGet (ts : Nat)
  deriving Repr, DecidableEq

/-- One call. The output is the returned timestamp or watermark, if the call returns one. -/
def step (w : WM) : Op → WM × Option Nat
  | .getNextTs => let (w', t) := getNextTs w; (w', some t)
  | .addTxn ts => (addTxn w ts, none)
  | .removeTxn ts => (removeTxn w ts, none)
  | .updateCommitTs ts => (updateCommitTs w ts, none)
  | .register => let (w', t) := getNextTsAndRegister w; (w', some t)
  | .unregister ts => let (w', t) := unregisterTxn w ts; (w', some t)
  | .updateCommitTsAndGet ts => let (w', t) := updateCommitTsAndGetWatermark w ts; (w', some t)

/-- A run: the final state and the list of (call, output) pairs, oldest first. -/
def run (w : WM) : List Op → WM × List (Op × Option Nat)
  | [] => (w, [])
  | o :: os =>
    let r := step w o
    let rest := run r.1 os
    (rest.1, (o, r.2) :: rest.2)

end Verif.Watermark

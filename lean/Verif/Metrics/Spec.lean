import Verif.Metrics.Model

/-!
# What the metrics should say, in terms of the calls that were made
-/

namespace Verif.Metrics.Spec

open Verif.Metrics

/-- A latency is in bucket `i` of eleven: above 10 µs, 100 µs, 500 µs, 1 ms, 5 ms, 10 ms, 50 ms, 100 ms, 500 ms and 1 s begin the next ones. -/
def InBucket : Nat → Nat → Prop
  | 0, l => l ≤ 10000
  | 1, l => 10000 < l ∧ l ≤ 100000
  | 2, l => 100000 < l ∧ l ≤ 500000
  | 3, l => 500000 < l ∧ l ≤ 1000000
  | 4, l => 1000000 < l ∧ l ≤ 5000000
  | 5, l => 5000000 < l ∧ l ≤ 10000000
  | 6, l => 10000000 < l ∧ l ≤ 50000000
  | 7, l => 50000000 < l ∧ l ≤ 100000000
  | 8, l => 100000000 < l ∧ l ≤ 500000000
  | 9, l => 500000000 < l ∧ l ≤ 1000000000
  | 10, l => 1000000000 < l
  | _, _ => False

instance (i l : Nat) : Decidable (InBucket i l) := by
  unfold InBucket; split <;> infer_instance

/-- The latency a call recorded of its own. -/
def latOf : Call → Option Nat
  | .read l _ _ => some l
  | .write l _ => some l
  | _ => none

/-- What a call should add to a counter. -/
def amount : Ctr → Call → Nat
  | .readOps, .read .. => 1
  | .readOps, .batchRead n _ _ => n
  | .writeOps, .write .. => 1
  | .writeOps, .batchWrite n _ _ => n
  | .batchOps, .batch .. | .batchOps, .batchRead .. | .batchOps, .batchWrite .. => 1
  | .flushes, .flush .. => 1
  | .ioCount, .read .. | .ioCount, .write .. => 1
  | .ioCount, .batch n _ _ | .ioCount, .batchRead n _ _ | .ioCount, .batchWrite n _ _ | .ioCount, .flush _ n => n
  | .ioLat, .read l _ _ | .ioLat, .write l _ | .ioLat, .batch _ l _ | .ioLat, .batchRead _ l _ | .ioLat, .batchWrite _ l _
  | .ioLat, .flush l _ => l
  | .readLat, .read l _ _ | .readLat, .batchRead _ l _ => l
  | .writeLat, .write l _ | .writeLat, .batchWrite _ l _ => l
  | .bytes, .read _ b _ | .bytes, .write _ b | .bytes, .batch _ _ b | .bytes, .batchRead _ _ b | .bytes, .batchWrite _ _ b => b
  | .written, .write _ b | .written, .batchWrite _ _ b => b
  | .errors, .read _ _ ok => if ok then 0 else 1
  | .misses, .cache _ hit => if hit then 0 else 1
  | .hot, .cache lv hit => if hit ∧ lv = "hot" then 1 else 0
  | .warm, .cache lv hit => if hit ∧ lv = "warm" then 1 else 0
  | .cold, .cache lv hit => if hit ∧ lv = "cold" then 1 else 0
  | .hits, .cache lv hit => if hit ∧ (lv = "hot" ∨ lv = "warm" ∨ lv = "cold") then 1 else 0
  | .promotions, .migrate p => if p then 1 else 0
  | .demotions, .migrate p => if p then 0 else 1
  | .bucket i, .read l _ _ | .bucket i, .write l _ => if InBucket i l then 1 else 0
  | _, _ => 0

/-- What all the calls of all the threads should add to a counter. -/
def total (c : Ctr) (progs : List (List Call)) : Nat := (progs.flatten.map (amount c)).sum

/-- The latencies recorded by the single reads and writes. -/
def lats (progs : List (List Call)) : List Nat := progs.flatten.filterMap latOf

/-- No batches and no flushes. -/
def Single : Call → Prop
  | .batch .. | .batchRead .. | .batchWrite .. | .flush .. => False
  | _ => True

/-- The counters a reset is meant for. -/
def Resets : Ctr → Prop
  | .hits | .misses | .hot | .warm | .cold | .promotions | .demotions => False
  | _ => True

end Verif.Metrics.Spec

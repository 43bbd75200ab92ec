/-!
# The disk manager's metrics (src/storage/disk/async_disk/metrics/collector.rs, live_metrics.rs)

Every counter is an atomic 64-bit number. A call of the collector is the list of its atomic actions; a thread runs the actions of its
calls one after the other, and the threads interleave in any order. Simplification: the actions of all threads are in one order, although
they are `Relaxed`, which only keeps the order of the actions on one number. The rates per second, which are read from the counters at some
moment (collector.rs 348-385), are a function of their own, as are the numbers of a snapshot. Left out: the counters nobody moves
(queue depth, write amplification, compression, CPU, memory), the history of snapshots and the alerts.
-/

namespace Verif.Metrics

/-- `u64` has this many values. -/
def M : Nat := 2 ^ 64

/-- The counters that only grow (live_metrics.rs 19-80). -/
inductive Ctr where
  | ioLat | readLat | writeLat | ioCount | bytes | readOps | writeOps | batchOps | flushes | written | errors
  | hits | misses | hot | warm | cold | promotions | demotions
  | bucket (i : Nat)
  deriving DecidableEq, Repr

/-- `LiveMetrics` (live_metrics.rs 19-80). -/
structure Live where
  ctr : Ctr → Nat
  max : Nat
  min : Nat

/-- `LiveMetrics::default` (live_metrics.rs 82-136). -/
def Live.new : Live := ⟨fun _ => 0, 0, M - 1⟩

/-- The calls that record something (collector.rs 116-306). -/
inductive Call where
  | read (lat bytes : Nat) (ok : Bool)
  | write (lat bytes : Nat)
  | batch (n lat bytes : Nat)
  | batchRead (n lat bytes : Nat)
  | batchWrite (n lat bytes : Nat)
  | flush (lat pages : Nat)
  | cache (level : String) (hit : Bool)
  | migrate (promotion : Bool)
  deriving DecidableEq, Repr

/-- One atomic action: `fetch_add`, or half of a load and a store that depends on it. -/
inductive Act where
  | add (c : Ctr) (n : Nat)
  | loadMax
  | storeMax (lat : Nat)
  | loadMin
  | storeMin (lat : Nat)
  deriving DecidableEq, Repr

/-- The bucket of a latency (collector.rs 325-339). -/
def bucketOf (lat : Nat) : Nat :=
  if lat ≤ 10000 then 0 else if lat ≤ 100000 then 1 else if lat ≤ 500000 then 2 else if lat ≤ 1000000 then 3
  else if lat ≤ 5000000 then 4 else if lat ≤ 10000000 then 5 else if lat ≤ 50000000 then 6 else if lat ≤ 100000000 then 7
  else if lat ≤ 500000000 then 8 else if lat ≤ 1000000000 then 9 else 10

/-- `update_latency_distribution` (collector.rs 308-344). -/
def latency (lat : Nat) : List Act := [.loadMax, .storeMax lat, .loadMin, .storeMin lat, .add (.bucket (bucketOf lat)) 1]

/-- The counter of a cache level (collector.rs 265-285); an unknown level counts nothing. -/
def levelHit (level : String) : List Act :=
  if level = "hot" then [.add .hot 1, .add .hits 1]
  else if level = "warm" then [.add .warm 1, .add .hits 1]
  else if level = "cold" then [.add .cold 1, .add .hits 1]
  else []

/-- The actions of a call (collector.rs 116-306). -/
def acts : Call → List Act
  | .read l b ok => [.add .readOps 1, .add .readLat l, .add .ioLat l, .add .ioCount 1, .add .bytes b] ++ latency l
      ++ if ok then [] else [.add .errors 1]
  | .write l b => [.add .writeOps 1, .add .writeLat l, .add .ioLat l, .add .ioCount 1, .add .bytes b, .add .written b] ++ latency l
  | .batch n l b => [.add .batchOps 1, .add .ioCount n, .add .ioLat l, .add .bytes b]
  | .batchRead n l b => [.add .batchOps 1, .add .readOps n, .add .readLat l, .add .ioLat l, .add .ioCount n, .add .bytes b]
  | .batchWrite n l b =>
    [.add .batchOps 1, .add .writeOps n, .add .writeLat l, .add .ioLat l, .add .ioCount n, .add .bytes b, .add .written b]
  | .flush l p => [.add .flushes 1, .add .ioLat l, .add .ioCount p]
  | .cache level hit => if hit then levelHit level else [.add .misses 1]
  | .migrate p => if p then [.add .promotions 1] else [.add .demotions 1]

/-- `fetch_add`, which wraps around. -/
def Live.add (s : Live) (c : Ctr) (n : Nat) : Live := { s with ctr := fun x => if x = c then (s.ctr c + n) % M else s.ctr x }

/-- One action of a thread whose last load gave `reg` (collector.rs 310-323 for the largest and the least latency). -/
def exec (s : Live) (reg : Nat) : Act → Live × Nat
  | .add c n => (s.add c n, reg)
  | .loadMax => (s, s.max)
  | .storeMax l => (if l > reg then { s with max := l } else s, reg)
  | .loadMin => (s, s.min)
  | .storeMin l => (if l < reg then { s with min := l } else s, reg)

/-- A thread: what it last loaded and what it has still to do. -/
structure Thread where
  reg : Nat
  todo : List Act

/-- The metrics and the threads. -/
structure World where
  live : Live
  threads : List Thread

/-- Thread `i` does its next action, if there is one. -/
def World.step (w : World) (i : Nat) : World := match w.threads[i]? with
  | some ⟨r, a :: as⟩ => ⟨(exec w.live r a).1, w.threads.set i ⟨(exec w.live r a).2, as⟩⟩
  | _ => w

/-- The threads run in the order of the schedule. -/
def World.run (w : World) (sched : List Nat) : World := sched.foldl World.step w

/-- Threads about to make these calls. -/
def World.start (s : Live) (progs : List (List Call)) : World := ⟨s, progs.map fun cs => ⟨0, cs.flatMap acts⟩⟩

/-- Every call has returned. -/
def World.Done (w : World) : Prop := ∀ t ∈ w.threads, t.todo = []

/-- `reset_metrics` (collector.rs 388-427), in one step: the counters of the caches and `start_time` stay as they are. -/
def Live.reset (s : Live) : Live :=
  { ctr := fun c => match c with
      | .ioLat | .readLat | .writeLat | .ioCount | .bytes | .readOps | .writeOps | .batchOps | .flushes | .written | .errors | .bucket _ => 0
      | c => s.ctr c
    max := 0
    min := M - 1 }

/-- The upper ends of the buckets (collector.rs 504-516). -/
def bounds : List Nat :=
  [10000, 100000, 500000, 1000000, 5000000, 10000000, 50000000, 100000000, 500000000, 1000000000, M - 1]

/-- The loop of `get_percentile_latency` (collector.rs 518-523) over the buckets and their bounds. -/
def scan (target acc : Nat) : List (Nat × Nat) → Option Nat
  | [] => none
  | (k, b) :: rest => if target ≤ acc + k then some b else scan target (acc + k) rest

/-- `get_percentile_latency` (collector.rs 494-527). `target` is the number of samples wanted for the number there are, `(n * p).ceil()`
in floating point (501). -/
def percentile (target : Nat → Nat) (s : Live) : Nat :=
  if s.ctr .ioCount = 0 then 0
  else (scan (target (s.ctr .ioCount)) 0 (((List.range 11).map fun i => s.ctr (.bucket i)).zip bounds)).getD s.max

/-- An average of a snapshot (collector.rs 566-576). -/
def average (sum n : Nat) : Nat := if n > 0 then sum / n else 0

/-- `read_latency_avg_ns` and `write_latency_avg_ns` of a snapshot (collector.rs 562-576). -/
def readAverage (s : Live) : Nat := average (s.ctr .readLat) (s.ctr .readOps)
def writeAverage (s : Live) : Nat := average (s.ctr .writeLat) (s.ctr .writeOps)

/-- `update_performance_counters` (collector.rs 347-385), `secs` after the collector was made: bytes, pages and transactions per second. -/
def rates (s : Live) (secs : Nat) : Option (Nat × Nat × Nat) :=
  if secs > 0 then some (s.ctr .bytes / secs, s.ctr .ioCount / secs, s.ctr .writeOps / secs) else none

/-- `calculate_health_score` (collector.rs 430-484). The hit ratio is compared as a fraction, which agrees with `f64` below 2^50
operations. -/
def health (s : Live) : Nat :=
  let avg := average (s.ctr .ioLat) (s.ctr .ioCount)
  let score := 100
  let score := if avg > 50000000 then score - 20 else if avg > 10000000 then score - 10 else score
  let total := s.ctr .hits + s.ctr .misses
  let score := if total > 0 then
      (if 2 * s.ctr .hits < total then score - 20 else if 5 * s.ctr .hits < 4 * total then score - 10 else score) else score
  let score := if s.ctr .errors > 100 then score - 30 else if s.ctr .errors > 10 then score - 15
    else if s.ctr .errors > 0 then score - 5 else score
  Nat.min score 100

/-- `health_check` (manager.rs 1087-1105). -/
def healthCheck (s : Live) : Bool := health s > 50

/-- How a read of a page through the disk manager ends. -/
inductive ReadEnd where
  | cached (level : String)
  | disk
  | failed
  deriving DecidableEq, Repr

/-- What `read_page` records with the caches on (manager.rs 416-550, cache_manager.rs 1026-1103): for a page from a cache the hit and a good
read; for a page from the disk the miss and a read whose `success` is `false` (502, 541); for a failed read the miss only. The move of a page
between caches is left out. -/
def readCalls (lat len : Nat) : ReadEnd → List Call
  | .cached level => [.cache level true, .read lat len true]
  | .disk => [.cache "all" false, .read lat len false]
  | .failed => [.cache "all" false]

end Verif.Metrics

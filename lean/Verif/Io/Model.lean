import Verif.Base.AMap
import Verif.Base.Bytes

/-!
# The I/O engine (`src/storage/disk/async_disk/io/`)

Calls of the engine register an operation with the completion tracker, put it in a priority queue and wait; workers take operations from the queue, execute them on the two files and
report the result to the tracker, which wakes the caller. Everything may interleave at every lock and every `await`: each event below is one such atomic part, and a run is any sequence of events.
Time is a clock that events move on (milliseconds). Metrics, logging, event subscribers and `wait_for_operation` are left out.
-/

namespace Verif.Io

open Verif.Bytes (Byte toLE ofLE)

abbrev Data := List Byte

/-- `IOOperationType` (operations.rs:203-225). -/
inductive Kind where
  | readPage (p : Nat)
  | writePage (p : Nat) (d : Data)
  | readLog (off size : Nat)
  | writeLog (d : Data) (off : Nat)
  | appendLog (d : Data)
  | sync
  | syncLog
  deriving DecidableEq

/-- `OperationResult` (operation_status.rs:212-215), without the text of the error. -/
inductive Res where
  | ok (d : Data)
  | err
  deriving DecidableEq

/-- The two files as readers see them, and for each what a crash leaves for certain: the content at the last successful sync, and the ranges written since. -/
structure Files where
  db : Data
  log : Data
  dbSafe : Data
  logSafe : Data
  dbSince : List (Nat × Nat)
  logSince : List (Nat × Nat)

/-- Files that were there before the engine was started. -/
def Files.init (db log : Data) : Files := ⟨db, log, db, log, [], []⟩

/-- `seek` and `read_exact`: an error when the file ends before. -/
def readAt (f : Data) (off n : Nat) : Option Data :=
  if off + n ≤ f.length then some ((f.drop off).take n) else none

/-- `seek` and `write_all`: behind the end of the file the gap is filled with zeros. -/
def writeAt (f : Data) (off : Nat) (d : Data) : Data :=
  if d.isEmpty then f else f.take off ++ List.replicate (off - f.length) 0 ++ d ++ f.drop (off + d.length)

/-- `page_id * DB_PAGE_SIZE` (executor.rs:418, 461) with `DB_PAGE_SIZE = 4096`; a release build does not check for overflow (Cargo.toml:130). -/
def pageOff (p : Nat) : Nat := p * 4096 % 2 ^ 64

/-- The part of `d` a write that failed after `n` bytes (`cut = some n`) has written. -/
def cutTo (cut : Option Nat) (d : Data) : Data := match cut with | none => d | some n => d.take n

/-- A write of `d` to the database file; with `cut = some n` it failed after `n` bytes. -/
def Files.writeDb (f : Files) (off : Nat) (d : Data) (cut : Option Nat) : Files :=
  { f with db := writeAt f.db off (cutTo cut d), dbSince := (off, (cutTo cut d).length) :: f.dbSince }

/-- The same for the log file. -/
def Files.writeLog (f : Files) (off : Nat) (d : Data) (cut : Option Nat) : Files :=
  { f with log := writeAt f.log off (cutTo cut d), logSince := (off, (cutTo cut d).length) :: f.logSince }

/-- What a call gives back: `v` unless the I/O failed. -/
def resOf (cut : Option Nat) (v : Data) : Res := match cut with | none => .ok v | some _ => .err

/-- `execute_operation_type` and what it calls (executor.rs:377-602), which holds the lock of the file throughout. `cut = some n`: an I/O error is met, by a write after `n` bytes.
Direct I/O (an aligned copy of the same bytes) is left out. -/
def Files.exec (f : Files) (k : Kind) (cut : Option Nat) : Files × Res :=
  match k with
  | .readPage p =>
    match cut, readAt f.db (pageOff p) 4096 with
    | none, some d => (f, .ok d)
    | _, _ => (f, .err)
  | .writePage p d => if d.length = 4096 then (f.writeDb (pageOff p) d cut, resOf cut d) else (f, .err)
  | .readLog off n =>
    if n = 0 then (f, .ok []) else
    match cut, readAt f.log off n with
    | none, some d => (f, .ok d)
    | _, _ => (f, .err)
  | .writeLog d off => if d.isEmpty then (f, .ok d) else (f.writeLog off d cut, resOf cut d)
  | .appendLog d =>
    let off := f.log.length
    if d.isEmpty then (f, resOf cut (toLE 8 off)) else (f.writeLog off d cut, resOf cut (toLE 8 off))
  | .sync => match cut with | none => ({ f with dbSafe := f.db, dbSince := [] }, .ok []) | some _ => (f, .err)
  | .syncLog => match cut with | none => ({ f with logSafe := f.log, logSince := [] }, .ok []) | some _ => (f, .err)

/-- `IOOperation` (operations.rs:233-245). -/
structure Op where
  prio : Nat
  id : Nat
  kind : Kind
  time : Nat
  deriving DecidableEq

/-- `Ord for IOOperation` (operations.rs:247-254): `a` is greater than `b`. -/
def Op.gt (a b : Op) : Bool := b.prio < a.prio || (a.prio = b.prio && a.time < b.time)

/-- `OperationStatus` (operation_status.rs:219-235); every call of the engine uses the default timeout. -/
inductive Status where
  | pending (start : Nat)
  | done (time : Nat) (r : Res)
  | cancelled (time : Nat)
  deriving DecidableEq

/-- Where a worker task stands in `worker_loop` and `process_operation` (worker.rs:373-494). -/
inductive Worker where
  /-- at the head of the loop -/
  | idle
  /-- has taken an operation from the queue -/
  | took (o : Op)
  /-- has seen that the operation is pending and waits for a permit -/
  | waiting (o : Op)
  /-- has a permit -/
  | running (o : Op)
  /-- has executed the operation -/
  | ran (o : Op) (r : Res)
  /-- has ended -/
  | gone
  deriving DecidableEq

/-- The name of a call: an operation of the tracker, or one that bypasses queue and tracker (`append_log_direct`, `sync_log_direct`, io_impl.rs:452-479). -/
inductive Id where
  | op (n : Nat)
  | direct (n : Nat)
  deriving DecidableEq

/-- What happens at the boundary: a call begins, an operation is executed on the files, a call is answered. -/
inductive Lab where
  | call (i : Id) (k : Kind)
  | act (i : Id) (k : Kind) (r : Res)
  | ret (i : Id) (r : Res)
  deriving DecidableEq

/-- `AsyncIOEngine` (io_impl.rs:255-267): queue, workers, tracker; `calls` have registered their operation and not yet queued it. -/
structure St where
  files : Files
  ops : AMap Nat Status
  next : Nat
  calls : List Op
  queue : List Op
  workers : List Worker
  permits : Nat
  stop : Bool
  now : Nat
  directs : List (Nat × Kind)
  nextDirect : Nat

/-- A new engine on given files (io_impl.rs:281-307): ids start at 1 (completion.rs:372), 64 operations may run at a time. -/
def St.new (db log : Data) : St := ⟨Files.init db log, [], 1, [], [], [], 64, false, 0, [], 0⟩

/-- `default_timeout` (completion.rs:353). -/
def timeout : Nat := 30000

/-- `completed_operation_ttl` (completion.rs:350). -/
def ttl : Nat := 300000

/-- `max_tracked_operations` (completion.rs:352). -/
def maxTracked : Nat := 10000

/-- The operations `retain` keeps (completion.rs:759-769, 786-796). -/
def keep (now : Nat) (p : Nat × Status) : Bool :=
  match p.2 with
  | .pending _ => true
  | .done t _ => now < t + ttl
  | .cancelled t => now < t + ttl

/-- `complete_operation_with_result` (completion.rs:424-481) and `OperationStatus::complete` (operation_status.rs:250-268): the waiting caller gets `r`. -/
def St.complete (s : St) (i : Nat) (r : Res) : St × List Lab :=
  match s.ops.get i with
  | some (.pending _) => ({ s with ops := s.ops.set i (.done s.now r) }, [.ret (.op i) r])
  | _ => (s, [])

/-- `cancel_operation` (completion.rs:490-528) and `OperationStatus::cancel` (operation_status.rs:271-280): the sender is dropped, which the caller gets as an error (io_impl.rs:643-651). -/
def St.cancel (s : St) (i : Nat) : St × List Lab :=
  match s.ops.get i with
  | some (.pending _) => ({ s with ops := s.ops.set i (.cancelled s.now) }, [.ret (.op i) .err])
  | _ => (s, [])

/-- `is_operation_pending` (completion.rs:537-543). -/
def St.pending (s : St) (i : Nat) : Bool :=
  match s.ops.get i with
  | some (.pending _) => true
  | _ => false

/-- `is_timed_out` (operation_status.rs:303-312). -/
def St.timedOut (s : St) (i : Nat) : Bool :=
  match s.ops.get i with
  | some (.pending t) => t + timeout < s.now
  | _ => false

/-- One atomic part of what callers, workers and the clean-up task do. -/
inductive Ev where
  /-- the clock moves on -/
  | tick (n : Nat)
  /-- `start_workers` (worker.rs:317-347) -/
  | spawn (n : Nat)
  /-- a call registers its operation -/
  | start (k : Kind) (prio : Nat)
  /-- the `n`-th such call puts it in the queue -/
  | enqueue (n : Nat)
  /-- worker `w` takes the `n`-th operation of the queue, one that `BinaryHeap::pop` may return -/
  | take (w n : Nat)
  /-- worker `w` asks whether its operation is still pending -/
  | check (w : Nat)
  /-- worker `w` gets a permit -/
  | permit (w : Nat)
  /-- worker `w` executes its operation -/
  | exec (w : Nat) (cut : Option Nat)
  /-- worker `w` reports the result -/
  | finish (w : Nat)
  /-- a cancellation -/
  | cancel (i : Nat)
  /-- the queue is emptied (`drain_queue`, queue.rs:270-278) -/
  | drain
  /-- a timeout check, of the clean-up task or `check_timeouts`, reaches operation `i` -/
  | expire (i : Nat)
  /-- the clean-up task forgets old operations -/
  | cleanup
  /-- `signal_shutdown`, and the first part of `shutdown` (worker.rs:353-356, 502-513) -/
  | signal
  /-- worker `w` leaves its loop -/
  | exit (w : Nat)
  /-- worker `w` is aborted (`force_shutdown`, worker.rs:545-576, or `Drop`) -/
  | abort (w : Nat)
  /-- `append_log_direct` or `sync_log_direct` is called -/
  | direct (k : Kind)
  /-- the `n`-th such call is executed and returns -/
  | directExec (n : Nat) (cut : Option Nat)

/-- `start_operation` (completion.rs:385-411), the first part of `enqueue_tracked_operation` (io_impl.rs:631-641). -/
def St.start (s : St) (k : Kind) (prio : Nat) : St × List Lab :=
  let ops : AMap Nat Status := if maxTracked ≤ s.ops.length then s.ops.filter (keep s.now) else s.ops
  ({ s with next := s.next + 1, ops := ops.set s.next (.pending s.now), calls := s.calls ++ [⟨prio, s.next, k, 0⟩] }, [.call (.op s.next) k])

/-- `enqueue_operation` (queue.rs:230-242), which notes the time. -/
def St.enqueue (s : St) (n : Nat) : Option St :=
  (s.calls[n]?).map fun o => { s with calls := s.calls.eraseIdx n, queue := s.queue ++ [{ o with time := s.now }] }

/-- `dequeue_operation` (queue.rs:248-251): an operation than which none is greater. -/
def St.take (s : St) (w n : Nat) : Option St :=
  match s.workers[w]?, s.queue[n]? with
  | some .idle, some o =>
    if s.queue.all (fun p => !p.gt o) then some { s with queue := s.queue.eraseIdx n, workers := s.workers.set w (.took o) } else none
  | _, _ => none

/-- The check of `process_operation` (worker.rs:442-448). -/
def St.check (s : St) (w : Nat) : Option St :=
  match s.workers[w]? with
  | some (.took o) => some { s with workers := s.workers.set w (if s.pending o.id then .waiting o else .idle) }
  | _ => none

/-- The permit of `process_operation` (worker.rs:452-460). -/
def St.permit (s : St) (w : Nat) : Option St :=
  match s.workers[w]? with
  | some (.waiting o) => if s.permits = 0 then none else some { s with permits := s.permits - 1, workers := s.workers.set w (.running o) }
  | _ => none

/-- The execution in `process_operation` (worker.rs:463-465). -/
def St.exec (s : St) (w : Nat) (cut : Option Nat) : Option (St × List Lab) :=
  match s.workers[w]? with
  | some (.running o) =>
    some ({ s with files := (s.files.exec o.kind cut).1, workers := s.workers.set w (.ran o (s.files.exec o.kind cut).2) }, [.act (.op o.id) o.kind (s.files.exec o.kind cut).2])
  | _ => none

/-- The report in `process_operation` (worker.rs:467-493); the permit is given back. -/
def St.finish (s : St) (w : Nat) : Option (St × List Lab) :=
  match s.workers[w]? with
  | some (.ran o r) => some (({ s with permits := s.permits + 1, workers := s.workers.set w .idle }).complete o.id r)
  | _ => none

/-- The ends of `worker_loop` (worker.rs:386-396, 405-408). -/
def St.exit (s : St) (w : Nat) : Option St :=
  match s.workers[w]? with
  | some .idle => if s.stop then some { s with workers := s.workers.set w .gone } else none
  | _ => none

/-- Whether a worker holds a permit. -/
def Worker.holds : Worker → Bool
  | .running _ => true
  | .ran _ _ => true
  | _ => false

/-- `abort_all`: the task ends at its next `await`, its permit is dropped. An operation aborted half way through its I/O is `exec` with a cut before the abort. -/
def St.abort (s : St) (w : Nat) : Option St :=
  (s.workers[w]?).map fun k => { s with workers := s.workers.set w .gone, permits := if k.holds then s.permits + 1 else s.permits }

/-- The second part of `append_log_direct` and `sync_log_direct`. -/
def St.directExec (s : St) (n : Nat) (cut : Option Nat) : Option (St × List Lab) :=
  (s.directs[n]?).map fun c =>
    ({ s with files := (s.files.exec c.2 cut).1, directs := s.directs.eraseIdx n },
      [.act (.direct c.1) c.2 (s.files.exec c.2 cut).2, .ret (.direct c.1) (s.files.exec c.2 cut).2])

/-- One event; `none` when it cannot happen. -/
def St.step (s : St) : Ev → Option (St × List Lab)
  | .tick n => some ({ s with now := s.now + n }, [])
  | .spawn n => some ({ s with workers := s.workers ++ List.replicate n .idle }, [])
  | .start k p => some (s.start k p)
  | .enqueue n => (s.enqueue n).map (·, [])
  | .take w n => (s.take w n).map (·, [])
  | .check w => (s.check w).map (·, [])
  | .permit w => (s.permit w).map (·, [])
  | .exec w cut => s.exec w cut
  | .finish w => s.finish w
  | .cancel i => some (s.cancel i)
  | .drain => some ({ s with queue := [] }, [])
  | .expire i => if s.timedOut i then some (s.complete i .err) else none
  | .cleanup => some ({ s with ops := s.ops.filter (keep s.now) }, [])
  | .signal => some ({ s with stop := true }, [])
  | .exit w => (s.exit w).map (·, [])
  | .abort w => (s.abort w).map (·, [])
  | .direct k => some ({ s with directs := s.directs ++ [(s.nextDirect, k)], nextDirect := s.nextDirect + 1 }, [.call (.direct s.nextDirect) k])
  | .directExec n cut => s.directExec n cut

/-- A run, with what happened at the boundary. -/
def St.run (s : St) : List Ev → Option (St × List Lab)
  | [] => some (s, [])
  | e :: es =>
    match s.step e with
    | none => none
    | some (s', l) =>
      match s'.run es with
      | none => none
      | some (s'', l') => some (s'', l ++ l')

end Verif.Io

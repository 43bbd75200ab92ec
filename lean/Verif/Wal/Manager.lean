import Verif.Wal.Iterator

/-!
# The log manager (`src/recovery/log_manager.rs:206-503`)

Appenders and the flush task as an event system. The log manager sits behind a lock that appenders take for writing (wal_manager.rs:190-269),
so an append and its wait for durability are not interleaved with other appends; the flush task runs beside them.

Not modelled: the time-outs, the capacity of the channel (an append to a full channel waits, which is a later event here).
-/

namespace Verif.Wal

open Verif.Bytes (Byte)

/-- Where the flush task is (log_manager.rs:293-345). -/
inductive Phase where
  | live
  | drain
  | ended
  deriving Repr, DecidableEq

/-- `LogManagerState`, the channel, the batch being flushed and the log file. -/
structure St where
  /-- `next_lsn` -/
  next : Nat
  /-- `persistent_lsn`; `INVALID_LSN` is `none` -/
  persistent : Option Nat
  /-- `stop_flag` -/
  stop : Bool
  /-- the channel -/
  queue : List Rec
  /-- the records of the batch in `perform_flush` still to be written, if there is a batch -/
  batch : Option (List Rec)
  /-- `max_lsn` of that batch -/
  batchMax : Nat
  phase : Phase
  /-- the log file, as records -/
  file : List Rec
  /-- how many records of the file have been synced -/
  synced : Nat
  /-- the commit an appender waits for -/
  waiting : Option Nat
  /-- commits whose append has returned -/
  acked : List Nat

/-- `LogManager::new` (log_manager.rs:252-268) on a log file. -/
def St.init (file : List Rec) : St :=
  { next := 0, persistent := none, stop := false, queue := [], batch := none, batchMax := 0, phase := .live, file := file,
    synced := file.length, waiting := none, acked := [] }

/-- What can happen. -/
inductive Ev where
  /-- an appender calls `append_log_record` -/
  | append (r : Rec)
  /-- the flush task picks up a batch of at most `n + 1` records -/
  | take (n : Nat)
  /-- it writes the next record of its batch -/
  | write
  /-- the sync succeeds -/
  | sync
  /-- a write or the sync fails -/
  | ioError
  /-- the task sees the stop flag and goes on to the final flush -/
  | drain
  /-- the waiting commit's append returns -/
  | ret
  /-- `shut_down` -/
  | shutdown

def isCommit (r : Rec) : Bool := r.kind == .commit

/-- The rest of a batch (log_manager.rs:313-323): up to `n` records, ending with a commit. -/
def takeMore : Nat → List Rec → List Rec × List Rec
  | 0, q => ([], q)
  | _, [] => ([], [])
  | n + 1, r :: q => if isCommit r then ([r], q) else ((r :: (takeMore n q).1), (takeMore n q).2)

/-- The largest LSN of a batch (log_manager.rs:309-317, 338-342). -/
def maxLsn (l : List Rec) : Nat := (l.map (·.lsn)).foldl max 0

/-- The condition under which a commit stops waiting (log_manager.rs:485-488). -/
def reached : Option Nat → Nat → Bool
  | none, _ => false
  | some p, l => decide (l ≤ p)

/-- One event; `none` if it cannot happen now. -/
def St.step (fsync : Bool) (s : St) : Ev → Option St
  -- log_manager.rs:450-503, up to the wait
  | .append r => if s.waiting.isSome then none else
    let r := r.withLsn s.next
    some { s with
      next := s.next + 1
      queue := if s.phase = .ended then s.queue else s.queue ++ [r]
      waiting := if isCommit r then some r.lsn else none }
  -- log_manager.rs:296-324
  | .take n => match s.phase, s.batch, s.stop, s.queue with
    | .live, none, false, r :: q =>
      let m := takeMore n q
      some { s with batch := some (r :: m.1), batchMax := maxLsn (r :: m.1), queue := m.2 }
    | _, _, _, _ => none
  -- log_manager.rs:382-384
  | .write => match s.batch with
    | some (r :: l) => some { s with batch := some l, file := s.file ++ [r] }
    | _ => none
  -- log_manager.rs:386-394; without fsync `sync_log_direct` does nothing
  | .sync => match s.batch with
    | some [] => some { s with
        batch := none
        synced := if fsync then s.file.length else s.synced
        persistent := some s.batchMax
        phase := if s.phase = .drain then .ended else s.phase }
    | _ => none
  -- log_manager.rs:401-409
  | .ioError => match s.batch with
    | some _ => some { s with batch := none, stop := true, phase := if s.phase = .drain then .ended else s.phase }
    | _ => none
  -- log_manager.rs:333-344
  | .drain => if s.phase = .live ∧ s.batch.isNone ∧ s.stop then
      some (if s.queue.isEmpty then { s with phase := .ended }
            else { s with phase := .drain, batch := some s.queue, batchMax := maxLsn s.queue, queue := [] })
    else none
  -- log_manager.rs:485-497
  | .ret => match s.waiting with
    | none => none
    | some l =>
      if s.stop || reached s.persistent l then some { s with waiting := none, acked := s.acked ++ [l] } else none
  -- log_manager.rs:424-425, behind the same lock
  | .shutdown => if s.waiting.isSome then none else some { s with stop := true }

/-- A history. -/
def St.run (fsync : Bool) : St → List Ev → Option St
  | s, [] => some s
  | s, e :: es => (s.step fsync e).bind fun s => s.run fsync es

/-- `set_persistent_lsn(get_next_lsn())`, which recovery does when it is done (log_recovery.rs:352-354). -/
def St.afterRecovery (s : St) : St := { s with persistent := some s.next }

/-- What a crash can leave of the file: the bytes of the synced records and any part of what was written after them. -/
def Survives (s : St) (bytes : List Byte) : Prop :=
  ∃ n, (writeLog (s.file.take s.synced)).length ≤ n ∧ bytes = (writeLog s.file).take n

end Verif.Wal

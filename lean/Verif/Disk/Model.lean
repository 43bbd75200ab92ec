import Verif.Base.Bytes

/-!
# The disk manager (`src/storage/disk/async_disk/manager.rs` and what it calls)

Pages behind a write buffer and a cache of three levels. One call runs at a time: the flush lock, the `try_write` locks and the I/O queue are then always free.
What the manager takes from the outside (whether an I/O fails, the clock, memory pressure, the order a `HashMap` is drained in, what the caches evict) is an `Env`, asked at a time that
moves on with every question. A failed I/O leaves the file as it was. Page offsets do not overflow. Metrics, prefetch statistics and compression (the identity, write_staging_buffer.rs:391-411) are left out.
-/

namespace Verif.Disk

open Verif.Bytes (Byte)

abbrev Data := List Byte

/-- `FsyncPolicy` (config.rs:62-68). -/
inductive Fsync where
  | never | onFlush | perWrite | periodic
  deriving DecidableEq

/-- `DurabilityLevel` (config.rs:71-77). -/
inductive Level where
  | none | buffer | sync | durable
  deriving DecidableEq

/-- The part of `DiskManagerConfig` (config.rs:17-60) that matters here. `size` is `DB_PAGE_SIZE`, `maxBytes` the size of the write buffer in bytes (write_manager.rs:256-263). -/
structure Cfg where
  size : Nat
  cached : Bool
  stealing : Bool
  batch : Nat
  threshold : Nat
  maxBytes : Nat
  fsync : Fsync
  level : Level
  wal : Bool

/-- `DiskManagerConfig::default()` (config.rs:108-154), which `DBInstance::new` uses (db_instance.rs:451-455). -/
def default : Cfg :=
  { size := 4096, cached := true, stealing := true, batch := 64, threshold := 128, maxBytes := 67108864, fsync := .onFlush, level := .sync, wal := true }

/-- A file of pages; `at` is also defined behind the end, where it is what a longer file would show: zeros. -/
structure File where
  pages : Nat
  at' : Nat → Data

def File.get (f : File) (p : Nat) : Data := f.at' p

/-- A page written at its offset (executor.rs:448-508). -/
def File.put (f : File) (p : Nat) (d : Data) : File := ⟨max f.pages (p + 1), fun q => if q = p then d else f.at' q⟩

/-- The answers of the outside world at each time. -/
structure Env where
  io : Nat → Bool
  late : Nat → Bool
  due : Nat → Bool
  admit : Nat → Bool
  keep : Nat → Nat → Nat → Bool
  order : Nat → List (Nat × Data) → List (Nat × Data)

/-- The drained buffer holds the pages of the buffer, in any order. -/
def Env.Ok (e : Env) : Prop := ∀ t l, (e.order t l).Perm l

/-- The manager with its file. `unsynced p` are the contents written to page `p` of the file since the last sync. -/
structure State where
  file : File
  synced : File
  unsynced : Nat → List Data
  buf : List (Nat × Data)
  bytes : Nat
  dirty : Nat
  hot : Nat → Option Data
  warm : Nat → Option Data
  cold : Nat → Option Data
  count : Nat → Nat
  hashes : Nat → Option Nat
  time : Nat

/-- A manager just opened on a file (manager.rs:304-413, cache_manager.rs:905-964). -/
def opened (f : File) : State :=
  { file := f, synced := f, unsynced := fun _ => [], buf := [], bytes := 0, dirty := 0, hot := fun _ => none, warm := fun _ => none, cold := fun _ => none,
    count := fun _ => 0, hashes := fun _ => none, time := 0 }

def State.tick (s : State) : State := { s with time := s.time + 1 }

/-- What a call gives: a result, an error, it never comes back, or it panics. -/
inductive Out (α : Type) where
  | ok (a : α)
  | err
  | hang
  | panic
  deriving DecidableEq

/-! ## The file -/

/-- `execute_write_page` (executor.rs:448-508). -/
def writeFile (e : Env) (s : State) (p : Nat) (d : Data) : State × Bool :=
  if e.io s.time then ({ s.tick with file := s.file.put p d, unsynced := fun q => if q = p then d :: s.unsynced q else s.unsynced q }, true)
  else (s.tick, false)

/-- `execute_sync` (executor.rs:581-595). -/
def sync (e : Env) (s : State) : State × Bool :=
  if e.io s.time then ({ s.tick with synced := s.file, unsynced := fun _ => [] }, true) else (s.tick, false)

/-- `execute_sync_log` (executor.rs:598-): of the log file only its success matters. -/
def syncLog (e : Env) (s : State) : State × Bool := (s.tick, e.io s.time)

/-! ## The cache -/

/-- `record_access_pattern` (cache_manager.rs:1152-1185). -/
def access (s : State) (p : Nat) : State := { s with count := fun q => if q = p then s.count q + 1 else s.count q }

/-- The three caches evict as they like (cache_manager.rs:1578-1625 and the policies of fifo.rs, lfu.rs, lru_k.rs). -/
def evict (e : Env) (s : State) : State :=
  { s.tick with
    hot := fun q => if e.keep s.time 0 q then s.hot q else none
    warm := fun q => if e.keep s.time 1 q then s.warm q else none
    cold := fun q => if e.keep s.time 2 q then s.cold q else none }

/-- A cache after an `insert`. -/
def put (m : Nat → Option Data) (p : Nat) (d : Data) : Nat → Option Data := fun q => if q = p then some d else m q

/-- `get_page_internal` (cache_manager.rs:1015-1104). -/
def lookup (e : Env) (s : State) (p : Nat) : State × Option Data :=
  let s := access s p
  match s.hot p with
  | some d => (evict e s, some d)
  | none => match s.warm p with
    | some d => (evict e { s with hot := put s.hot p d }, some d)
    | none => match s.cold p with
      | some d => (evict e { s with warm := put s.warm p d }, some d)
      | none => (evict e s, none)

/-- `simple_hash` (cache_manager.rs:574-580). -/
def hash (d : Data) : Nat := d.foldl (fun h b => (h * 31 + b.val) % 18446744073709551616) 0

/-- `check_duplicate` (cache_manager.rs:553-572): whether another page has the hash. -/
def duplicate (s : State) (p : Nat) (d : Data) : Bool :=
  match s.hashes (hash d) with
  | some q => q ≠ p
  | none => false

/-- `store_page` (cache_manager.rs:1225-1291) with the temperature of 1178-1183, 1366-1375. -/
def store (e : Env) (s : State) (p : Nat) (d : Data) : State :=
  if ¬ e.admit s.time then s.tick
  else if duplicate s p d then s.tick
  else
    let s := { s with hashes := fun h => if h = hash d then some p else s.hashes h }
    let s := if s.count p > 10 then { s with hot := put s.hot p d }
      else if s.count p > 5 then { s with warm := put s.warm p d }
      else { s with cold := put s.cold p d }
    evict e (access s p)

/-! ## The write buffer -/

/-- `apply_durability` (durability_manager.rs:226-306) for pages that are not empty. -/
def durability (c : Cfg) (e : Env) (s : State) : State × Bool :=
  match c.level with
  | .none => (s, true)
  | .buffer => (s, true)
  | .sync => match c.fsync with
    | .never => (s, true)
    | .periodic => if e.due s.time then sync e s.tick else (s.tick, true)
    | _ => sync e s
  | .durable => if c.wal then match syncLog e s with
      | (s, true) => sync e s
      | (s, false) => (s, false)
    else sync e s

/-- The page put into the buffer, in place of an older one. -/
def putBuf : List (Nat × Data) → Nat → Data → List (Nat × Data)
  | [], p, d => [(p, d)]
  | (q, x) :: l, p, d => if q = p then (p, d) :: l else (q, x) :: putBuf l p d

/-- The bytes of the buffered page. -/
def bufLen (l : List (Nat × Data)) (p : Nat) : Nat := match l.lookup p with
  | some d => d.length
  | none => 0

/-- `WriteStagingBuffer::buffer_write` (write_staging_buffer.rs:290-326); `false` when the buffer is full. -/
def stage (c : Cfg) (s : State) (p : Nat) (d : Data) : State × Bool :=
  if s.bytes + (d.length - bufLen s.buf p) > c.maxBytes then (s, false)
  else ({ s with buf := putBuf s.buf p d, bytes := s.bytes + (d.length - bufLen s.buf p), dirty := if (s.buf.lookup p).isSome then s.dirty else s.dirty + 1 }, true)

/-- `FlushCoordinator::should_flush` (flush_coordinator.rs:217-233). -/
def shouldFlush (c : Cfg) (e : Env) (s : State) : State × Bool := (s.tick, decide (s.dirty ≥ c.threshold) || e.late s.time)

/-- `flush_internal` (write_manager.rs:468-513): the drained pages, `none` an error. -/
def drain (c : Cfg) (e : Env) (s : State) : State × Option (List (Nat × Data)) :=
  let pages := e.order s.time s.buf
  let s := { s.tick with buf := [], bytes := 0, dirty := 0 }
  if pages.isEmpty then (s, some pages)
  else match durability c e s with
    | (s, true) => (s, some pages)
    | (s, false) => (s, none)

/-- `WriteManager::buffer_write` (write_manager.rs:295-377): the pages it drained, `none` an error. A page that is not staged is not kept. -/
def bufferWrite (c : Cfg) (e : Env) (s : State) (p : Nat) (d : Data) : State × Option (List (Nat × Data)) :=
  match stage c s p d with
  | (s, false) => drain c e s
  | (s, true) => match shouldFlush c e s with
    | (s, true) => drain c e s
    | (s, false) => (s, some [])

/-- The loop of `write_pages_to_disk` (manager.rs:734-742). -/
def writeEach (e : Env) (s : State) : List (Nat × Data) → State × Bool
  | [] => (s, true)
  | (p, d) :: l => match writeFile e s p d with
    | (s, true) => writeEach e s l
    | (s, false) => (s, false)

/-- `write_pages_to_disk` (manager.rs:727-760). -/
def writeOut (c : Cfg) (e : Env) (s : State) (l : List (Nat × Data)) : State × Bool :=
  match writeEach e s l with
  | (s, false) => (s, false)
  | (s, true) => if l.isEmpty then (s, true) else durability c e s

/-- `flush_writes_with_durability` (manager.rs:650-684). -/
def flushWrites (c : Cfg) (e : Env) (s : State) : State × Bool :=
  match drain c e s with
  | (s, none) => (s, false)
  | (s, some l) => match (if l.isEmpty then (s, true) else writeOut c e s l) with
    | (s, false) => (s, false)
    | (s, true) => if c.fsync = .never then (s, true) else sync e s

/-- `should_trigger_flush` (manager.rs:630-647). -/
def trigger (c : Cfg) (e : Env) (s : State) : State × Bool :=
  match shouldFlush c e s with
  | (s, true) => (s, true)
  | (s, false) => (s, decide (s.dirty ≥ c.batch))

def flushIfDue (c : Cfg) (e : Env) (s : State) : State × Bool :=
  match trigger c e s with
  | (s, true) => flushWrites c e s
  | (s, false) => (s, true)

/-- From `Ok(())` and `?`. -/
def done (r : State × Bool) : State × Out Unit := (r.1, if r.2 then .ok () else .err)

/-! ## The calls -/

/-- `write_page` (manager.rs:567-627). -/
def write (c : Cfg) (e : Env) (s : State) (p : Nat) (d : Data) : State × Out Unit :=
  if d.length ≠ c.size then (s, .err)
  else match bufferWrite c e s p d with
    | (s, none) => (s, .err)
    | (s, some l) =>
      let s := if c.cached then store e s p d else s
      match (if l.isEmpty then (s, true) else writeOut c e s l) with
      | (s, false) => (s, .err)
      | (s, true) => done (flushIfDue c e s)

/-- `read_page` (manager.rs:416-550). With work stealing the read is handed to a scheduler that no worker serves (scheduler.rs:57-110: `get_worker_receiver` and `try_steal_work` have no caller). -/
def read (c : Cfg) (e : Env) (s : State) (p : Nat) : State × Out Data :=
  match (if c.cached then lookup e s p else (s, none)) with
  | (s, some d) => (s, .ok d)
  | (s, none) =>
    if c.stealing then (s, .hang)
    else if e.io s.time ∧ p < s.file.pages then
      let d := s.file.get p
      (if c.cached then store e s.tick p d else s.tick, .ok d)
    else (s.tick, .err)

/-- `flush` (manager.rs:964-994). -/
def flush (c : Cfg) (e : Env) (s : State) : State × Out Unit :=
  match flushWrites c e s with
  | (s, false) => (s, .err)
  | (s, true) => match c.fsync with
    | .onFlush => done (sync e s)
    | .perWrite => done (sync e s)
    | _ => (s, .ok ())

/-- `force_flush_all` (manager.rs:1046-1067), the first step of `shutdown` (1412-1452). -/
def flushAll (c : Cfg) (e : Env) (s : State) : State × Out Unit :=
  match drain c e s with
  | (s, none) => (s, .err)
  | (s, some l) =>
    if c.stealing ∧ l.length > c.batch then (s, .hang)
    else match (if l.isEmpty then (s, true) else writeOut c e s l) with
      | (s, false) => (s, .err)
      | (s, true) => done (sync e s)

/-- `slice::chunks`, for `n > 0` and enough fuel. -/
def chunks {α : Type} (n : Nat) : Nat → List α → List (List α)
  | 0, _ => []
  | _ + 1, [] => []
  | k + 1, l => l.take n :: chunks n k (l.drop n)

/-- The inner loop of `write_pages_batch` (manager.rs:896-919). -/
def writeChunk (c : Cfg) (e : Env) (s : State) : List (Nat × Data) → State × Bool
  | [] => (s, true)
  | (p, d) :: l =>
    if d.length ≠ c.size then (s, false)
    else match bufferWrite c e s p d with
      | (s, none) => (s, false)
      | (s, some out) => match (if out.isEmpty then (s, true) else writeOut c e s out) with
        | (s, false) => (s, false)
        | (s, true) => writeChunk c e (if c.cached then store e s p d else s) l

/-- The outer loop of `write_pages_batch` (manager.rs:894-920). -/
def writeChunks (c : Cfg) (e : Env) (s : State) : List (List (Nat × Data)) → State × Bool
  | [] => (s, true)
  | k :: ks => match writeChunk c e s k with
    | (s, false) => (s, false)
    | (s, true) => writeChunks c e s ks

/-- `write_pages_batch` (manager.rs:886-940). -/
def writeBatch (c : Cfg) (e : Env) (s : State) (l : List (Nat × Data)) : State × Out Unit :=
  if c.batch = 0 then (s, .panic)
  else match writeChunks c e s (chunks c.batch l.length l) with
    | (s, false) => (s, .err)
    | (s, true) => done (flushIfDue c e s)

/-- `direct_batch_read_operation` (manager.rs:866-883). -/
def readEach (c : Cfg) (e : Env) (s : State) : List Nat → State × Out (List Data)
  | [] => (s, .ok [])
  | p :: l => match read c e s p with
    | (s, .ok d) => match readEach c e s l with
      | (s, .ok ds) => (s, .ok (d :: ds))
      | (s, .err) => (s, .err)
      | (s, .hang) => (s, .hang)
      | (s, .panic) => (s, .panic)
    | (s, .err) => (s, .err)
    | (s, .hang) => (s, .hang)
    | (s, .panic) => (s, .panic)

/-- The loop of `read_pages_batch` (manager.rs:772-785). -/
def readChunks (c : Cfg) (e : Env) (s : State) : List (List Nat) → State × Out (List Data)
  | [] => (s, .ok [])
  | k :: ks =>
    if c.stealing ∧ k.length > 1 then (s, .hang)
    else match readEach c e s k with
      | (s, .ok ds) => match readChunks c e s ks with
        | (s, .ok es) => (s, .ok (ds ++ es))
        | (s, .err) => (s, .err)
        | (s, .hang) => (s, .hang)
        | (s, .panic) => (s, .panic)
      | (s, .err) => (s, .err)
      | (s, .hang) => (s, .hang)
      | (s, .panic) => (s, .panic)

/-- `read_pages_batch` (manager.rs:763-799). -/
def readBatch (c : Cfg) (e : Env) (s : State) (l : List Nat) : State × Out (List Data) :=
  if c.batch = 0 then (s, .panic) else readChunks c e s (chunks c.batch l.length l)

/-! ## Histories -/

/-- A call of the disk manager. -/
inductive Op where
  | write (p : Nat) (d : Data)
  | writeBatch (l : List (Nat × Data))
  | read (p : Nat)
  | readBatch (l : List Nat)
  | flush
  | flushAll

/-- What the calls answer: the pages read, or nothing. -/
def Out.map {α β : Type} (f : α → β) : Out α → Out β
  | .ok a => .ok (f a)
  | .err => .err
  | .hang => .hang
  | .panic => .panic

/-- One call: the new state and the pages it read. -/
def call (c : Cfg) (e : Env) (s : State) : Op → State × Out (List Data)
  | .write p d => let r := write c e s p d; (r.1, r.2.map fun _ => [])
  | .writeBatch l => let r := writeBatch c e s l; (r.1, r.2.map fun _ => [])
  | .read p => let r := read c e s p; (r.1, r.2.map fun d => [d])
  | .readBatch l => readBatch c e s l
  | .flush => let r := flush c e s; (r.1, r.2.map fun _ => [])
  | .flushAll => let r := flushAll c e s; (r.1, r.2.map fun _ => [])

/-- Calls one after another, with their answers. -/
def run (c : Cfg) (e : Env) (s : State) : List Op → State × List (Out (List Data))
  | [] => (s, [])
  | o :: os => let r := call c e s o; let q := run c e r.1 os; (q.1, r.2 :: q.2)

end Verif.Disk

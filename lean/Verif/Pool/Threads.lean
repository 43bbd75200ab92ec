import Verif.Pool.Model
import Verif.Latch.Model

/-!
# The buffer pool used by several threads (`src/buffer/buffer_pool_manager_async.rs`, `src/storage/page/page_guard.rs`)

The calls of `Verif.Pool.Model`, now with every lock the code takes and gives back, in the order in which it does. The state is only read or changed in the steps between.
Each call takes what comes after it as an argument. A panic gives back the locks held and ends the thread (`parking_lot` locks are not poisoned); the guards the thread
still has are then not dropped in this model. Disk reads and writes take no lock of the pool and are one step.
-/

namespace Verif.Pool

open Verif.Latch (Mode Prog Thread Sys)

/-- The locks of the pool (buffer_pool_manager_async.rs:240-259) and the lock of each page object (page_guard.rs:173). -/
inductive Lock where
  | table
  | pages
  | replacer
  | freeList
  | page (o : Nat)
  deriving Repr, DecidableEq

variable {B : Type}

/-- A program of a thread that uses the pool. -/
abbrev Code (B : Type) := Prog Lock (World B)

/-- Looking at the state without changing it. -/
def look (k : World B → Code B) : Code B := .act id k

/-- Giving back the locks and ending the thread. -/
def panic : List (Lock × Mode) → Code B
  | [] => .done
  | (l, m) :: rest => .unlock l m (panic rest)

/-- `write_page_to_disk_sync` and `_async` (buffer_pool_manager_async.rs:1195-1264): the bytes are copied under the page's read lock, and the flag is cleared under its
write lock after the disk call. -/
def writeOutC (e : Env) (pid o : Nat) (k : Code B) : Code B :=
  .lock (.page o) .read (look fun w => .unlock (.page o) .read (match w.objs[o]? with
    | none => k
    | some p => if e.writes then .act (·.store pid p.data) fun _ => .lock (.page o) .write (.act (·.modifyObj o fun p => { p with dirty := false }) fun _ => .unlock (.page o) .write k)
      else k))

/-- `remove_page_from_table` and `reset_frame`, one after the other (buffer_pool_manager_async.rs:939-953, 1001-1009). -/
def forget (f pid : Nat) (k : Code B) : Code B :=
  .lock .table .write (.act (fun w => { w with table := w.table.erase pid }) fun _ => .unlock .table .write
    (.lock .pages .write (.act (fun w => { w with frames := w.frames.set f none }) fun _ => .unlock .pages .write k)))

/-- `evict_old_page` (buffer_pool_manager_async.rs:978-1015). -/
def evictOldC (e : Env) (f pid : Nat) (k : Code B) : Code B :=
  .lock .pages .read (look fun w => match w.frame f with
    | none => .unlock .pages .read (forget f pid k)
    | some o => .lock (.page o) .read (look fun w => .unlock (.page o) .read (.unlock .pages .read (match w.objs[o]? with
      | none => forget f pid k
      | some p => if p.dirty then writeOutC e pid o (forget f pid k) else forget f pid k))))

/-- `evict_page_if_necessary` (buffer_pool_manager_async.rs:956-975). -/
def evictIfNecessaryC (e : Env) (f : Nat) (k : Code B) : Code B :=
  .lock .pages .read (look fun w => match w.frame f with
    | none => .unlock .pages .read k
    | some o => .lock (.page o) .read (look fun w => .unlock (.page o) .read (.unlock .pages .read (match w.objs[o]? with
      | none => k
      | some p => if p.pin = 0 then evictOldC e f p.id k else k))))

/-- The inner loop of `get_available_frame` over all frames (buffer_pool_manager_async.rs:1065-1077): the replacer and the list of pages stay locked. -/
def markUnpinnedC : List Nat → Code B → Code B
  | [], k => k
  | f :: fs, k => look fun w => match w.frame f with
    | none => markUnpinnedC fs k
    | some o => .lock (.page o) .read (look fun w => .unlock (.page o) .read (match w.objs[o]? with
      | none => markUnpinnedC fs k
      | some p => if p.pin = 0 then
          look fun w => match Replacer.setEvictable w.rep f true with
          | none => panic [(.pages, .read), (.replacer, .write)]
          | some (r, _) => .act (fun w => { w with rep := r }) fun _ => markUnpinnedC fs k
        else markUnpinnedC fs k))

/-- The eviction loop of `get_available_frame` (buffer_pool_manager_async.rs:1036-1078), under the replacer's write lock of line 1033. -/
def tryEvictC (e : Env) (k : Option Nat → Code B) : Nat → Code B
  | 0 => .unlock .replacer .write (k none)
  | n + 1 => look fun w => match Replacer.evict w.rep with
    | none => panic [(.replacer, .write)]
    | some (r, some f) => .act (fun w => { w with rep := r }) fun _ => .lock .table .read (look fun w => .unlock .table .read (match w.table.find? (fun x => x.2 == f) with
      | some x => evictOldC e f x.1 (.unlock .replacer .write (k (some f)))
      | none => .unlock .replacer .write (k (some f))))
    | some (r, none) => .act (fun w => { w with rep := r }) fun _ => .lock .pages .read (look fun w => markUnpinnedC (List.range w.frames.length) (.unlock .pages .read (tryEvictC e k n)))

/-- `get_available_frame` (buffer_pool_manager_async.rs:1021-1082). -/
def getFrameC (e : Env) (k : Option Nat → Code B) : Code B :=
  .lock .freeList .write (.act (fun w => { w with free := w.free.dropLast }) fun w => .unlock .freeList .write (match w.free.getLast? with
    | some f => k (some f)
    | none => .lock .replacer .write (tryEvictC e k w.size)))

/-- `record_access` and `set_evictable` under the replacer's write lock (buffer_pool_manager_async.rs:578-580, 766-768, 1170-1172); `held` are the other locks held. -/
def touchC (e : Env) (f : Nat) (evictable : Bool) (held : List (Lock × Mode)) (k : Code B) : Code B :=
  .lock .replacer .write (look fun w => match w.touch e f evictable with
    | none => panic ((.replacer, .write) :: held)
    | some w' => .act (fun w => { w with rep := w'.rep }) fun _ => .unlock .replacer .write k)

/-- `update_page_metadata` (buffer_pool_manager_async.rs:1148-1179). -/
def metadataC (e : Env) (f pid o : Nat) (k : Code B) : Code B :=
  .lock .pages .write (look fun w => if f < w.frames.length then
      .act (fun w => { w with frames := w.frames.set f (some o) }) fun _ => .unlock .pages .write
        (.lock .table .write (.act (fun w => { w with table := w.table.set pid f }) fun _ => .unlock .table .write (touchC e f false [] k)))
    else panic [(.pages, .write)])

/-- Handing out a guard. -/
def handOut (pid o : Nat) (k : Code B) : Code B := .act (fun w => { w with guards := w.guards ++ [some ⟨pid, o, false⟩] }) fun _ => k

/-- `new_page` and `new_page_with_options` (buffer_pool_manager_async.rs:423-488) with `new_for_new_page` (page_guard.rs:208-225). -/
def newPageC (e : Env) (c : Content B) (k : Code B) : Code B :=
  getFrameC e fun
    | none => k
    | some f => evictIfNecessaryC e f (.act (fun w => { w with next := w.next + 1, objs := w.objs ++ [⟨w.next, c, 1, false⟩] }) fun w =>
      metadataC e f w.next w.objs.length (.lock (.page w.objs.length) .read (.unlock (.page w.objs.length) .read (handOut w.next w.objs.length k))))

/-- `load_page_from_disk` and `create_page_from_data` (buffer_pool_manager_async.rs:599-638, 665-721): the new object is locked for writing and reading before anybody else can see it. -/
def loadC (e : Env) (ty pid : Nat) (k : Code B) : Code B :=
  getFrameC e fun
    | none => k
    | some f => evictIfNecessaryC e f (look fun w => match (if e.reads then w.disk pid else none) with
      | none => k
      | some c => if c.ty = ty then
          .act (fun w => { w with objs := w.objs ++ [⟨pid, c, 1, true⟩] }) fun w =>
            .lock (.page w.objs.length) .write (.unlock (.page w.objs.length) .write (.lock (.page w.objs.length) .read (.unlock (.page w.objs.length) .read
              (metadataC e f pid w.objs.length (handOut pid w.objs.length k)))))
        else k)

/-- What `fetch_page` does with a page that is in memory (buffer_pool_manager_async.rs:551-592) and `PageGuard::new` (page_guard.rs:183-205). The page table stays locked
while the replacer is told (lines 577-581: the lock is a temporary of the `if let`). -/
def fetchResidentC (e : Env) (ty pid o : Nat) (k : Code B) : Code B :=
  .lock (.page o) .read (look fun w => .unlock (.page o) .read (match w.objs[o]? with
    | none => .done
    | some p => if p.data.ty ≠ ty then k else
        let pin : Code B := .lock (.page o) .write (.act (·.modifyObj o fun p => { p with pin := p.pin + 1 }) fun _ => .unlock (.page o) .write (handOut pid o k))
        .lock .table .read (look fun w => match w.table.get pid with
          | some f => touchC e f false [(.table, .read)] (.unlock .table .read pin)
          | none => .unlock .table .read pin)))

/-- `fetch_page` (buffer_pool_manager_async.rs:539-596) with `get_page_internal` (1269-1275), which locks the list of pages while it has locked the page table. -/
def fetchPageC (e : Env) (ty pid : Nat) (k : Code B) : Code B :=
  look fun w => if pid ≥ w.next then k else
    .lock .table .read (look fun w => match w.table.get pid with
      | none => .unlock .table .read (loadC e ty pid k)
      | some f => .lock .pages .read (look fun w => if f < w.frames.length then
          .unlock .pages .read (.unlock .table .read (match w.frame f with
            | none => loadC e ty pid k
            | some o => fetchResidentC e ty pid o k))
        else panic [(.pages, .read), (.table, .read)]))

/-- `unpin_page` (buffer_pool_manager_async.rs:732-781): the list of pages and the page stay locked while the replacer is told. -/
def unpinC (e : Env) (pid : Nat) (dirty : Bool) (k : Code B) : Code B :=
  .lock .table .read (look fun w => .unlock .table .read (match w.table.get pid with
    | none => k
    | some f => .lock .pages .read (look fun w => match w.frame f with
      | none => .unlock .pages .read k
      | some o => .lock (.page o) .write (.act (fun w => if dirty then w.modifyObj o (fun p => { p with dirty := true }) else w) fun w => match w.objs[o]? with
        | none => panic [(.page o, .write), (.pages, .read)]
        | some p =>
          let leave : Code B := .unlock (.page o) .write (.unlock .pages .read k)
          if p.pin > 0 then
            .act (·.modifyObj o fun p => { p with pin := p.pin - 1 }) fun _ =>
              if p.pin = 1 then touchC e f true [(.page o, .write), (.pages, .read)] leave else leave
          else leave))))

/-- Dropping a guard (page_guard.rs:264-277). -/
def dropC (e : Env) (g : Nat) (k : Code B) : Code B :=
  .act (fun w => { w with guards := w.guards.set g none }) fun w => match (w.guards[g]?).join with
    | none => k
    | some gd => unpinC e gd.pid gd.dirty k

/-- The guard notes that its page is written (page_guard.rs:234): one atomic store. -/
def World.noteWrite (w : World B) (g : Nat) : World B := match (w.guards[g]?).join with
  | none => w
  | some gd => { w with guards := w.guards.set g (some { gd with dirty := true }) }

/-- Writing through a guard (page_guard.rs:231-238). -/
def writeC (g : Nat) (b : B) (k : Code B) : Code B :=
  .act (·.noteWrite g) fun w => match (w.guards[g]?).join with
    | none => k
    | some gd => .lock (.page gd.obj) .write (.act (·.modifyObj gd.obj fun p => { p with dirty := true, data := { p.data with body := b } }) fun _ => .unlock (.page gd.obj) .write k)

/-- Reading through a guard (page_guard.rs:227-229). -/
def readC (g : Nat) (k : Code B) : Code B :=
  look fun w => match (w.guards[g]?).join with
    | none => k
    | some gd => .lock (.page gd.obj) .read (.unlock (.page gd.obj) .read k)

/-- The search of `write_page` (buffer_pool_manager_async.rs:499-515). -/
def searchC (pid : Nat) (k : Option Nat → Code B) : List Nat → Code B
  | [] => .unlock .pages .read (k none)
  | f :: fs => look fun w => match w.frame f with
    | none => searchC pid k fs
    | some o => .lock (.page o) .read (look fun w => .unlock (.page o) .read (match w.objs[o]? with
      | none => searchC pid k fs
      | some p => if p.id = pid then .unlock .pages .read (k (some o)) else searchC pid k fs))

/-- `write_page` (buffer_pool_manager_async.rs:495-530). -/
def writePageC (pid : Nat) (b : B) (k : Code B) : Code B :=
  .lock .pages .read (look fun w => searchC pid (fun
    | none => k
    | some o => .lock (.page o) .write (.act (·.modifyObj o fun p => { p with dirty := true, data := { p.data with body := b } }) fun _ => .unlock (.page o) .write k))
    (List.range w.frames.length))

/-- `flush_page_async` (buffer_pool_manager_async.rs:784-804). -/
def flushC (e : Env) (pid : Nat) (k : Code B) : Code B :=
  .lock .table .read (look fun w => .unlock .table .read (match w.table.get pid with
    | none => k
    | some f => .lock .pages .read (look fun w => .unlock .pages .read (match w.frame f with
      | none => k
      | some o => writeOutC e pid o k))))

/-- The second half of `delete_page` (buffer_pool_manager_async.rs:884-900). -/
def deleteFrameC (f pid : Nat) (k : Code B) : Code B :=
  .lock .pages .write (look fun w => if f < w.frames.length then
      .act (fun w => { w with frames := w.frames.set f none }) fun _ => .unlock .pages .write
        (.lock .table .write (.act (fun w => { w with table := w.table.erase pid }) fun _ => .unlock .table .write
          (.lock .freeList .write (.act (fun w => { w with free := w.free ++ [f] }) fun _ => .unlock .freeList .write
            (.lock .replacer .write (.act (fun w => { w with rep := Replacer.remove w.rep f }) fun _ => .unlock .replacer .write k))))))
    else .unlock .pages .write k)

/-- `delete_page` (buffer_pool_manager_async.rs:869-904). -/
def deleteC (pid : Nat) (k : Code B) : Code B :=
  .lock .table .read (look fun w => .unlock .table .read (match w.table.get pid with
    | none => k
    | some f => .lock .pages .read (look fun w => match w.frame f with
      | none => .unlock .pages .read (deleteFrameC f pid k)
      | some o => .lock (.page o) .read (look fun w => .unlock (.page o) .read (.unlock .pages .read (match w.objs[o]? with
        | none => deleteFrameC f pid k
        | some p => if p.pin > 0 then k else deleteFrameC f pid k))))))

/-- The loop of `flush_dirty_pages_batch_async` that collects the dirty pages (buffer_pool_manager_async.rs:1413-1433): `most` are still wanted. -/
def collectC (k : List (Nat × Content B) → Code B) : Nat → List Nat → List (Nat × Content B) → Code B
  | 0, _, found => k found
  | _, [], found => k found
  | n + 1, f :: fs, found => look fun w => match w.frame f with
    | none => collectC k (n + 1) fs found
    | some o => .lock (.page o) .read (look fun w => .unlock (.page o) .read (match w.objs[o]? with
      | none => collectC k (n + 1) fs found
      | some p => if p.dirty then collectC k n fs (found ++ [(p.id, p.data)]) else collectC k (n + 1) fs found))

/-- Its loop that clears the flags (buffer_pool_manager_async.rs:1448-1455): the page table is locked while the list of pages is. -/
def clearC (k : Code B) : List (Nat × Content B) → Code B
  | [] => k
  | (pid, _) :: rest => .lock .table .read (look fun w => match (w.table.get pid).bind w.frame with
    | none => .unlock .table .read (clearC k rest)
    | some o => .lock (.page o) .write (.act (·.modifyObj o fun p => { p with dirty := false }) fun _ => .unlock (.page o) .write (.unlock .table .read (clearC k rest))))

/-- `flush_dirty_pages_batch_async` (buffer_pool_manager_async.rs:1406-1467). -/
def flushBatchC (e : Env) (most : Nat) (k : Code B) : Code B :=
  .lock .pages .read (look fun w => collectC (fun found => .unlock .pages .read (if found.isEmpty then k else if e.writes then
      .act (fun w => found.foldl (fun w x => w.store x.1 x.2) w) fun _ => .lock .pages .read (clearC (.unlock .pages .read k) found)
    else k)) most (List.range w.frames.length) [])

/-- One call. -/
def opC (e : Env) (op : Op B) (k : Code B) : Code B := match op with
  | .new c => newPageC e c k
  | .fetch ty pid => fetchPageC e ty pid k
  | .drop g => dropC e g k
  | .write g b => writeC g b k
  | .read g => readC g k
  | .writePage pid b => writePageC pid b k
  | .flush pid => flushC e pid k
  | .delete pid => deleteC pid k

/-- What a thread does: a call, the batch flush, or taking and giving back the lock of a guard's page, to keep it locked for some time (`let p = guard.write();`). -/
inductive Doing (B : Type) where
  | call (e : Env) (op : Op B)
  | flushBatch (e : Env) (most : Nat)
  | latch (g : Nat) (m : Mode)
  | unlatch (g : Nat) (m : Mode)

/-- One thing a thread does. -/
def doC (d : Doing B) (k : Code B) : Code B := match d with
  | .call e op => opC e op k
  | .flushBatch e most => flushBatchC e most k
  | .latch g m => look fun w => match (w.guards[g]?).join with
    | none => k
    | some gd => .lock (.page gd.obj) m k
  | .unlatch g m => look fun w => match (w.guards[g]?).join with
    | none => k
    | some gd => .unlock (.page gd.obj) m k

/-- The program of a thread that does these things one after the other. -/
def script : List (Doing B) → Code B
  | [] => .done
  | d :: ds => doC d (script ds)

/-- Threads that start together on a pool. -/
def start (w : World B) (scripts : List (List (Doing B))) : Sys Lock (World B) := { world := w, threads := scripts.map fun ds => { prog := script ds } }

end Verif.Pool

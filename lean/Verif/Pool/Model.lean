import Verif.Replacer.Lemmas

/-!
# Model of the buffer pool (`src/buffer/buffer_pool_manager_async.rs`, `src/storage/page/page_guard.rs`)

Each call is one atomic step (the code takes its locks one after the other; `C62_overlapping_fetches_fails` looks at what can happen between them).
Page objects are shared through `Arc`s, so they live in a heap `objs` and frames and guards hold object numbers. A page is its type
byte and the rest of its bytes (`B`); writes through a guard keep the type byte (page_impl.rs:291-305 does so for whole-page
writes). What the outside decides, the clock reading and whether disk calls succeed, is a parameter of each call (`Env`).
Not modelled: pin counts above `i32::MAX`, page ids above `u64::MAX`, the metrics and `deallocate_page`.
-/

namespace Verif.Pool

open Verif.Replacer (Rep)

/-- The 4096 bytes of a page: the type byte at offset 0 (page_impl.rs:154) and the rest. -/
structure Content (B : Type) where
  ty : Nat
  body : B
  deriving Repr, DecidableEq

/-- A page object (`struct BasicPage`, page_impl.rs:219-224, and its siblings). -/
structure Page (B : Type) where
  id : Nat
  data : Content B
  pin : Nat
  dirty : Bool
  deriving Repr, DecidableEq

/-- `struct PageGuard` (page_guard.rs:172-179). -/
structure Guard where
  pid : Nat
  obj : Nat
  dirty : Bool
  deriving Repr, DecidableEq

/-- `struct BufferPoolManager` (buffer_pool_manager_async.rs:240-259), the page objects, what the disk manager would return for
each page (`none`: never written, so a read fails or yields zero bytes, which are no valid page), and the guards handed out so far
(`none`: dropped). -/
structure World (B : Type) where
  size : Nat
  next : Nat
  frames : List (Option Nat)
  table : AMap Nat Nat
  rep : Rep
  free : List Nat
  objs : List (Page B)
  disk : Nat → Option (Content B)
  guards : List (Option Guard)

/-- What the outside decides for one call: the clock, and whether a disk write and a disk read succeed. -/
structure Env where
  now : Nat
  writes : Bool
  reads : Bool
  deriving Repr, DecidableEq

variable {B : Type}

/-- `new_with_cache_config` (buffer_pool_manager_async.rs:314-341), with a fresh LRU-K replacer, on a disk holding `disk`. -/
def init (size k : Nat) (disk : Nat → Option (Content B)) : World B :=
  { size, next := 0, frames := List.replicate size none, table := [], rep := Replacer.new size k, free := List.range size,
    objs := [], disk, guards := [] }

/-- `pages[frame]` (a frame number out of range has no page). -/
def World.frame (w : World B) (f : Nat) : Option Nat := (w.frames[f]?).join

/-- The page object in frame `f`. -/
def World.pageAt (w : World B) (f : Nat) : Option (Page B) := (w.frame f).bind (w.objs[·]?)

/-- Storing bytes on the disk. -/
def World.store (w : World B) (pid : Nat) (c : Content B) : World B :=
  { w with disk := fun p => if p = pid then some c else w.disk p }

/-- Changing a page object. -/
def World.modifyObj (w : World B) (o : Nat) (g : Page B → Page B) : World B := { w with objs := w.objs.modify o g }

/-- `write_page_to_disk_sync` and `_async` (buffer_pool_manager_async.rs:1195-1264): on success the dirty flag is cleared. -/
def World.writeOut (w : World B) (e : Env) (pid o : Nat) : World B :=
  match w.objs[o]? with
  | none => w
  | some p => if e.writes then (w.store pid p.data).modifyObj o (fun p => { p with dirty := false }) else w

/-- `evict_old_page` (buffer_pool_manager_async.rs:978-1015): a dirty page is written first; if that fails the page is dropped
all the same. -/
def World.evictOld (w : World B) (e : Env) (f pid : Nat) : World B :=
  let w := match w.frame f, w.pageAt f with
    | some o, some p => if p.dirty then w.writeOut e pid o else w
    | _, _ => w
  { w with table := w.table.erase pid, frames := w.frames.set f none }

/-- `evict_page_if_necessary` (buffer_pool_manager_async.rs:956-975). -/
def World.evictIfNecessary (w : World B) (e : Env) (f : Nat) : World B :=
  match w.pageAt f with
  | none => w
  | some p => if p.pin = 0 then w.evictOld e f p.id else w

/-- The inner loop of `get_available_frame` over all frames (buffer_pool_manager_async.rs:1065-1077): `none` is a panic. -/
def markUnpinned (w : World B) : List Nat → Rep → Option Rep
  | [], r => some r
  | f :: fs, r =>
    match w.pageAt f with
    | none => markUnpinned w fs r
    | some p =>
      if p.pin = 0 then
        match Replacer.setEvictable r f true with
        | none => none
        | some (r, _) => markUnpinned w fs r
      else markUnpinned w fs r

/-- The eviction loop of `get_available_frame` (buffer_pool_manager_async.rs:1036-1078). The victim's page is looked up in the page
table, in iteration order; there is at most one (`Inv`). -/
def tryEvict (e : Env) : Nat → World B → Option (World B × Option Nat)
  | 0, w => some (w, none)
  | n + 1, w =>
    match Replacer.evict w.rep with
    | none => none
    | some (r, some f) =>
      let w := { w with rep := r }
      match w.table.find? (fun x => x.2 == f) with
      | some x => some (w.evictOld e f x.1, some f)
      | none => some (w, some f)
    | some (r, none) =>
      match markUnpinned w (List.range w.frames.length) r with
      | none => none
      | some r => tryEvict e n { w with rep := r }

/-- `get_available_frame` (buffer_pool_manager_async.rs:1021-1082): the free list is a stack. -/
def World.getFrame (w : World B) (e : Env) : Option (World B × Option Nat) :=
  match w.free.getLast? with
  | some f => some ({ w with free := w.free.dropLast }, some f)
  | none => tryEvict e w.size w

/-- `record_access` and `set_evictable` (buffer_pool_manager_async.rs:578-580, 766-768, 1170-1172). -/
def World.touch (w : World B) (e : Env) (f : Nat) (evictable : Bool) : Option (World B) :=
  match Replacer.setEvictable (Replacer.recordAccess w.rep f e.now) f evictable with
  | none => none
  | some (r, _) => some { w with rep := r }

/-- `update_page_metadata` (buffer_pool_manager_async.rs:1148-1179) for a new object, and the guard made for it by
`new_for_new_page` (page_guard.rs:208-225); the answer is the guard's number. `pages[frame] = ..` panics out of range. -/
def World.install (w : World B) (e : Env) (f : Nat) (p : Page B) : Option (World B × Option Nat) :=
  if f < w.frames.length then
    let o := w.objs.length
    let w := { w with objs := w.objs ++ [p], frames := w.frames.set f (some o), table := w.table.set p.id f }
    match w.touch e f false with
    | none => none
    | some w => some ({ w with guards := w.guards ++ [some ⟨p.id, o, false⟩] }, some w.guards.length)
  else none

/-- `new_page` and `new_page_with_options` (buffer_pool_manager_async.rs:423-488): `c` is the content made by the page type's
constructor. The page starts clean. -/
def World.newPage (w : World B) (e : Env) (c : Content B) : Option (World B × Option Nat) :=
  match w.getFrame e with
  | none => none
  | some (w, none) => some (w, none)
  | some (w, some f) =>
    let w := w.evictIfNecessary e f
    let pid := w.next
    { w with next := w.next + 1 }.install e f ⟨pid, c, 1, false⟩

/-- `load_page_from_disk` and `create_page_from_data` (buffer_pool_manager_async.rs:599-638, 665-721). `set_data` marks the new
object dirty (page_impl.rs:307). When the read fails or the type is another one, the frame is in use by nobody. -/
def World.load (w : World B) (e : Env) (ty pid : Nat) : Option (World B × Option Nat) :=
  match w.getFrame e with
  | none => none
  | some (w, none) => some (w, none)
  | some (w, some f) =>
    let w := w.evictIfNecessary e f
    match (if e.reads then w.disk pid else none) with
    | none => some (w, none)
    | some c => if c.ty = ty then w.install e f ⟨pid, c, 1, true⟩ else some (w, none)

/-- `get_page_internal` (buffer_pool_manager_async.rs:1269-1275) with the frame number; the indexing panic is `none` of the outer
option. -/
def World.resident (w : World B) (pid : Nat) : Option (Option (Nat × Nat × Page B)) :=
  match w.table.get pid with
  | none => some none
  | some f =>
    if f < w.frames.length then
      match w.frame f with
      | none => some none
      | some o =>
        match w.objs[o]? with
        | none => none
        | some p => some (some (f, o, p))
    else none

/-- `fetch_page` (buffer_pool_manager_async.rs:539-596) for page type `ty`; `PageGuard::new` pins the page (page_guard.rs:183-205). -/
def World.fetchPage (w : World B) (e : Env) (ty pid : Nat) : Option (World B × Option Nat) :=
  if pid ≥ w.next then some (w, none)
  else
    match w.resident pid with
    | none => none
    | some (some (f, o, p)) =>
      if p.data.ty ≠ ty then some (w, none)
      else
        match w.touch e f false with
        | none => none
        | some w =>
          let w := w.modifyObj o (fun p => { p with pin := p.pin + 1 })
          some ({ w with guards := w.guards ++ [some ⟨pid, o, false⟩] }, some w.guards.length)
    | some none => w.load e ty pid

/-- `unpin_page` (buffer_pool_manager_async.rs:732-781). -/
def World.unpin (w : World B) (e : Env) (pid : Nat) (dirty : Bool) : Option (World B × Bool) :=
  match w.table.get pid with
  | none => some (w, false)
  | some f =>
    match w.frame f with
    | none => some (w, false)
    | some o =>
      match w.objs[o]? with
      | none => none
      | some p =>
        let w := if dirty then w.modifyObj o (fun p => { p with dirty := true }) else w
        if p.pin > 0 then
          let w := w.modifyObj o (fun p => { p with pin := p.pin - 1 })
          if p.pin = 1 then
            match w.touch e f true with
            | none => none
            | some w => some (w, true)
          else some (w, true)
        else some (w, false)

/-- Dropping a guard (page_guard.rs:264-277). -/
def World.dropGuard (w : World B) (e : Env) (g : Nat) : Option (World B) :=
  match (w.guards[g]?).join with
  | none => some w
  | some gd =>
    match { w with guards := w.guards.set g none }.unpin e gd.pid gd.dirty with
    | none => none
    | some (w, _) => some w

/-- Writing through a guard (`PageGuard::write`, page_guard.rs:231-238). -/
def World.write (w : World B) (g : Nat) (b : B) : World B :=
  match (w.guards[g]?).join with
  | none => w
  | some gd =>
    { w with guards := w.guards.set g (some { gd with dirty := true }) }.modifyObj gd.obj
      (fun p => { p with dirty := true, data := { p.data with body := b } })

/-- Reading through a guard (`PageGuard::read`, page_guard.rs:227-229). -/
def World.read (w : World B) (g : Nat) : Option (Content B) :=
  ((w.guards[g]?).join).bind fun gd => (w.objs[gd.obj]?).map (·.data)

/-- The frame `write_page` finds by its page id (buffer_pool_manager_async.rs:502-512). -/
def World.findFrame (w : World B) (pid : Nat) : Option Nat :=
  (List.range w.frames.length).find? fun f => match w.pageAt f with
    | some p => p.id == pid
    | none => false

/-- `write_page` (buffer_pool_manager_async.rs:495-530). -/
def World.writePage (w : World B) (pid : Nat) (b : B) : World B :=
  match w.findFrame pid with
  | none => w
  | some f =>
    match w.frame f with
    | none => w
    | some o => w.modifyObj o (fun p => { p with dirty := true, data := { p.data with body := b } })

/-- `flush_page_async` (buffer_pool_manager_async.rs:784-804). -/
def World.flushPage (w : World B) (e : Env) (pid : Nat) : World B × Bool :=
  match w.table.get pid with
  | none => (w, false)
  | some f =>
    match w.frame f with
    | none => (w, false)
    | some o => (w.writeOut e pid o, e.writes)

/-- `flush_all_pages_async` (buffer_pool_manager_async.rs:807-821): one flush for each key of the page table; `es` are the
outcomes. -/
def World.flushAll (w : World B) (es : Nat → Env) : World B :=
  w.table.keys.foldl (fun w pid => (w.flushPage (es pid) pid).1) w

/-- `delete_page` (buffer_pool_manager_async.rs:869-904). -/
def World.deletePage (w : World B) (pid : Nat) : World B × Bool :=
  match w.table.get pid with
  | none => (w, false)
  | some f =>
    match w.pageAt f with
    | some p =>
      if p.pin > 0 then (w, false)
      else if f < w.frames.length then
        ({ w with frames := w.frames.set f none, table := w.table.erase pid, free := w.free ++ [f],
                  rep := Replacer.remove w.rep f }, true)
      else (w, false)
    | none =>
      if f < w.frames.length then
        ({ w with frames := w.frames.set f none, table := w.table.erase pid, free := w.free ++ [f],
                  rep := Replacer.remove w.rep f }, true)
      else (w, false)

/-- The public calls, and dropping, reading and writing through guards. -/
inductive Op (B : Type) where
  | new (c : Content B)
  | fetch (ty pid : Nat)
  | drop (g : Nat)
  | write (g : Nat) (b : B)
  | read (g : Nat)
  | writePage (pid : Nat) (b : B)
  | flush (pid : Nat)
  | delete (pid : Nat)
  deriving Repr, DecidableEq

/-- What a call returns: `guard` is a new guard (its number and page), or none. -/
inductive Out (B : Type) where
  | unit
  | bool (b : Bool)
  | guard (g : Option (Nat × Nat))
  | content (c : Option (Content B))
  deriving Repr, DecidableEq

/-- The answer of a call that may hand out a guard. -/
def guardOut (w : World B) (g : Option Nat) : Out B :=
  .guard (g.bind fun i => ((w.guards[i]?).join).map fun gd => (i, gd.pid))

/-- One call; `none` is a panic. -/
def step (w : World B) (e : Env) : Op B → Option (World B × Out B)
  | .new c => (w.newPage e c).map fun r => (r.1, guardOut r.1 r.2)
  | .fetch ty pid => (w.fetchPage e ty pid).map fun r => (r.1, guardOut r.1 r.2)
  | .drop g => (w.dropGuard e g).map fun w => (w, .unit)
  | .write g b => some (w.write g b, .unit)
  | .read g => some (w, .content (w.read g))
  | .writePage pid b => some (w.writePage pid b, .unit)
  | .flush pid => some ((w.flushPage e pid).1, .bool (w.flushPage e pid).2)
  | .delete pid => some ((w.deletePage pid).1, .bool (w.deletePage pid).2)

/-- A run of calls with their results; `none` if some call panics. -/
def run (w : World B) : List (Env × Op B) → Option (World B × List (Out B))
  | [] => some (w, [])
  | (e, o) :: os =>
    match step w e o with
    | none => none
    | some (w', out) =>
      match run w' os with
      | none => none
      | some (w'', outs) => some (w'', out :: outs)

end Verif.Pool

import Verif.Dml.Heap

/-!
# A table used by several threads (`src/storage/table/table_heap.rs`, `transactional_table_heap.rs`, `table_iterator.rs`)

Threads insert, change and scan the same table. Every access to a page or to a field of the table is a step of its own; any thread may make the next step. The lock of the table
(`TableHeap::latch`) is part of the state; the lock of a page is what makes an access to the page one step. The pages and what the layers below decide are those of `Verif.Dml.Heap`.
-/

namespace Verif.HeapConc

open Verif.Wire Verif.Bytes Verif.Sql Verif.Exec Verif.Dml

/-- How `TransactionalTableHeap` changes a row: `update_tuple` with new values (transactional_table_heap.rs:479-582), with the metadata of transaction `as` given by the caller
(the UPDATE executor gives 0, update_executor.rs:159-164), or `delete_tuple` (737-827). -/
inductive How where
  | update (as : Nat) (row : Row)
  | delete

/-- What a thread asks of a table. `commit` is what `TransactionManager::commit` does to one row of the write set (transaction_manager.rs:530-560), `restore` what `abort` does to
one row (685-702, 775-790): a slot is overwritten, with whatever the undo log says. -/
inductive Op where
  | insert (s : Slot)
  | change (txn : Nat) (r : Rid) (how : How)
  | commit (txn : Nat) (r : Rid)
  | restore (r : Rid) (s : Slot)
  | scan

/-- What it is told. A scan has returned rows with their record ids. -/
inductive Answer where
  | placed (r : Rid)
  | changed
  | failed
  | rows (out : List (Rid × Slot))

/-- Where a thread is. -/
inductive Pc where
  | idle
  | done (a : Answer)
  /-- `insert_tuple_from_values` (table_heap.rs:1174-1226): about to take the latch, has it, has found no space in the last page `l`. -/
  | insWait (s : Slot)
  | insHave (s : Slot)
  | insNew (s : Slot) (l : Nat)
  /-- `create_new_page_and_insert_from_values` (1315-1408): page `p` is initialised; the last page `l` leads to it; the table names it as its last page. -/
  | insLink (s : Slot) (l p : Nat)
  | insLast (s : Slot) (p : Nat)
  | insPut (s : Slot) (p : Nat)
  /-- `create_first_page_and_insert` (1021-1073): page `p` is initialised; the table names it as its first page. -/
  | insFirst (s : Slot) (p : Nat)
  | insOnly (s : Slot) (p : Nat)
  /-- `update_tuple`, `delete_tuple`: about to read the row, about to take the latch, has it. -/
  | chgRead (txn : Nat) (r : Rid) (how : How)
  | chgWait (r : Rid) (s : Slot)
  | chgHave (r : Rid) (s : Slot)
  | commit (txn : Nat) (r : Rid)
  | restore (r : Rid) (s : Slot)
  /-- `TableScanIterator::new` (table_iterator.rs:345-370): `get_first_page_id` (table_heap.rs:778-801) about to load the first page id, at a page, at the link of an empty page. -/
  | scanFirst
  | scanWalk (p : Option Nat)
  | scanLink (p : Nat)
  /-- `TableIterator::initialize` (table_iterator.rs:263-310): started with the page found above, about to take the latch; then `get_first_page_id` again. -/
  | initWait (g : Option Nat)
  | initFirst (g : Option Nat)
  | initWalk (g p : Option Nat)
  | initLink (g : Option Nat) (p : Nat)
  /-- `TableIterator::next` (table_iterator.rs:443-472): about to read the row at `cur`, about to advance. -/
  | scanGet (out : List (Rid × Slot)) (cur : Rid)
  | scanNext (out : List (Rid × Slot)) (cur : Rid)

/-- The table, its latch (`RwLock<()>`, table_heap.rs:266) and the threads. -/
structure Sys where
  heap : Heap
  writer : Option Nat
  readers : List Nat
  pc : Nat → Pc

/-- What happens: a thread asks, works on, is answered. -/
inductive Label where
  | call (t : Nat) (op : Op)
  | work (t : Nat)
  | answer (t : Nat) (a : Answer)

def Sys.goto (σ : Sys) (t : Nat) (p : Pc) : Sys := { σ with pc := fun u => if u = t then p else σ.pc u }

/-- A step that only moves on. -/
def Sys.move (σ : Sys) (t : Nat) (p : Pc) : Option (Label × Sys) := some (.work t, σ.goto t p)

/-- The last step of a call. -/
def Sys.finish (σ : Sys) (t : Nat) (a : Answer) : Option (Label × Sys) := some (.answer t a, σ.goto t (.done a))

/-- The last step of a call that holds the latch for writing. Its guard is dropped after the last page access; nothing happens between, so this is one step with the access. -/
def Sys.finishW (σ : Sys) (t : Nat) (a : Answer) : Option (Label × Sys) := ({ σ with writer := none } : Sys).finish t a

/-- `latch.write()` (table_heap.rs:1182, 1142): waits while anyone holds the latch. -/
def Sys.lockW (σ : Sys) (t : Nat) (p : Pc) : Option (Label × Sys) :=
  if σ.writer = none ∧ σ.readers = [] then ({ σ with writer := some t } : Sys).move t p else none

/-- `latch.read()` (table_iterator.rs:281): waits while a writer holds the latch. -/
def Sys.lockR (σ : Sys) (t : Nat) (p : Pc) : Option (Label × Sys) :=
  if σ.writer = none then ({ σ with readers := t :: σ.readers } : Sys).move t p else none

def Sys.unlockR (σ : Sys) (t : Nat) : Sys := { σ with readers := σ.readers.erase t }

/-- The first program point of a call. -/
def Op.entry : Op → Pc
  | .insert s => .insWait s
  | .change txn r how => .chgRead txn r how
  | .commit txn r => .commit txn r
  | .restore r s => .restore r s
  | .scan => .scanFirst

/-- `insert_tuple_from_values` under the latch (table_heap.rs:1184-1226): the first page if there is none, else the last page if it has space. -/
def Sys.tryLast (d : Disk) (σ : Sys) (t : Nat) (s : Slot) : Option (Label × Sys) := match σ.heap.last with
  | none => if d.tooLarge s.row then σ.finishW t .failed
      else match d.fresh σ.heap with
        | none => σ.finishW t .failed
        | some p => ({ σ with heap := σ.heap.set p ⟨none, []⟩ } : Sys).move t (.insFirst s p)
  | some l => match σ.heap.getPage d l with
    | none => σ.finishW t .failed
    | some pg => if d.space pg.slots s && d.put pg.slots s then
          ({ σ with heap := σ.heap.set l { pg with slots := pg.slots ++ [s] } } : Sys).finishW t (.placed ⟨l, pg.slots.length⟩)
        else σ.move t (.insNew s l)

/-- `create_new_page_and_insert_from_values` up to the initialised page (table_heap.rs:1321-1349). The link to the previous page is left out: no scan uses it. -/
def Sys.newPage (d : Disk) (σ : Sys) (t : Nat) (s : Slot) (l : Nat) : Option (Label × Sys) :=
  if d.tooLarge s.row then σ.finishW t .failed
  else match d.fresh σ.heap with
    | none => σ.finishW t .failed
    | some p => ({ σ with heap := σ.heap.set p ⟨none, []⟩ } : Sys).move t (.insLink s l p)

/-- The last page is made to lead to the new one (table_heap.rs:1351-1359). -/
def Sys.linkPage (d : Disk) (σ : Sys) (t : Nat) (s : Slot) (l p : Nat) : Option (Label × Sys) := match σ.heap.getPage d l with
  | none => σ.finishW t .failed
  | some pg => ({ σ with heap := σ.heap.set l { pg with next := some p } } : Sys).move t (.insLast s p)

/-- The row is put on the new page (table_heap.rs:1372-1407, 1050-1072). The guard of the new page is still held: it needs no fetch. -/
def Sys.putNew (d : Disk) (σ : Sys) (t : Nat) (s : Slot) (p : Nat) : Option (Label × Sys) := match σ.heap.page p with
  | none => σ.finishW t .failed
  | some pg => if d.space pg.slots s && d.put pg.slots s then
      ({ σ with heap := σ.heap.set p { pg with slots := pg.slots ++ [s] } } : Sys).finishW t (.placed ⟨p, pg.slots.length⟩)
    else σ.finishW t .failed

/-- `update_tuple` and `delete_tuple` up to the write (transactional_table_heap.rs:479-573, 737-821): the row is read under the lock of its page alone, and checked. The undo log is
modelled in `Verif.Mvcc`. -/
def Sys.readRow (d : Disk) (σ : Sys) (t txn : Nat) (r : Rid) (how : How) : Option (Label × Sys) := match σ.heap.get d r with
  | none => σ.finish t .failed
  | some s => match how with
    | .update as row => if s.info.creator ≠ as ∧ s.info.committed = false then σ.finish t .failed else σ.move t (.chgWait r ⟨⟨txn, false, false⟩, row⟩)
    | .delete => if s.info.creator ≠ txn ∧ s.info.committed = false then σ.finish t .failed else σ.move t (.chgWait r ⟨⟨txn, false, true⟩, s.row⟩)

/-- `update_tuple_internal` under the latch (table_heap.rs:1144-1150). -/
def Sys.writeRow (d : Disk) (σ : Sys) (t : Nat) (r : Rid) (s : Slot) : Option (Label × Sys) := match σ.heap.write d r s with
  | none => σ.finishW t .failed
  | some h => ({ σ with heap := h } : Sys).finishW t .changed

/-- What `commit` does to one row (transaction_manager.rs:533-560): under the lock of the page, without the latch. `update_tuple_meta` overwrites only the metadata. -/
def Sys.commitRow (d : Disk) (σ : Sys) (t txn : Nat) (r : Rid) : Option (Label × Sys) := match σ.heap.getPage d r.page with
  | none => σ.finish t .failed
  | some pg => match pg.slots[r.slot]? with
    | none => σ.finish t .failed
    | some s => if s.info.creator = txn then
          ({ σ with heap := σ.heap.set r.page { pg with slots := pg.slots.set r.slot { s with info := { s.info with committed := true } } } } : Sys).finish t .changed
        else σ.finish t .failed

/-- What `abort` does to one row: the slot is overwritten under the lock of the page, without the latch. -/
def Sys.restoreRow (d : Disk) (σ : Sys) (t : Nat) (r : Rid) (s : Slot) : Option (Label × Sys) := match σ.heap.write d r s with
  | none => σ.finish t .failed
  | some h => ({ σ with heap := h } : Sys).finish t .changed

/-- `get_first_page_id` at a page (table_heap.rs:789-799): `found`, or on to the link. -/
def Sys.walkAt (d : Disk) (σ : Sys) (t : Nat) (p : Option Nat) (found : Option Nat → Pc) (link : Nat → Pc) : Option (Label × Sys) := match p with
  | none => σ.move t (found none)
  | some p => match σ.heap.getPage d p with
    | none => σ.move t (link p)
    | some pg => if 0 < pg.slots.length then σ.move t (found (some p)) else σ.move t (link p)

/-- `get_next_page_id` (table_heap.rs:763-770). -/
def Sys.linkOf (d : Disk) (σ : Sys) (p : Nat) : Option Nat := match σ.heap.getPage d p with
  | none => none
  | some pg => pg.next

/-- The end of `initialize` (table_iterator.rs:284-310), given the page `g` the iterator started with and the first page found now. The slot number is 0 and stays 0. -/
def Sys.initEnd (d : Disk) (σ : Sys) (t : Nat) (g p : Option Nat) : Option (Label × Sys) := match p with
  | none => (σ.unlockR t).finish t (.rows [])
  | some p => match g with
    | none => (σ.unlockR t).move t (.scanGet [] ⟨p, 0⟩)
    | some q => match σ.heap.getPage d q with
      | none => (σ.unlockR t).move t (.scanGet [] ⟨p, 0⟩)
      | some _ => (σ.unlockR t).move t (.scanGet [] ⟨q, 0⟩)

/-- `TableIterator::advance` (table_iterator.rs:313-340): one page access while no writer holds the latch. -/
def Sys.advance (d : Disk) (σ : Sys) (t : Nat) (out : List (Rid × Slot)) (cur : Rid) : Option (Label × Sys) :=
  if σ.writer = none then match σ.heap.advance d cur with
    | some r => σ.move t (.scanGet out r)
    | none => σ.finish t (.rows out)
  else none

/-- The next step of a thread; `none` if it has nothing to do or has to wait. -/
def Sys.step (d : Disk) (σ : Sys) (t : Nat) : Option (Label × Sys) := match σ.pc t with
  | .idle => none
  | .done _ => none
  | .insWait s => σ.lockW t (.insHave s)
  | .insHave s => σ.tryLast d t s
  | .insNew s l => σ.newPage d t s l
  | .insLink s l p => σ.linkPage d t s l p
  | .insLast s p => ({ σ with heap := { σ.heap with last := some p } } : Sys).move t (.insPut s p)
  | .insPut s p => σ.putNew d t s p
  | .insFirst s p => ({ σ with heap := { σ.heap with first := some p } } : Sys).move t (.insOnly s p)
  | .insOnly s p => ({ σ with heap := { σ.heap with last := some p } } : Sys).move t (.insPut s p)
  | .chgRead txn r how => σ.readRow d t txn r how
  | .chgWait r s => σ.lockW t (.chgHave r s)
  | .chgHave r s => σ.writeRow d t r s
  | .commit txn r => σ.commitRow d t txn r
  | .restore r s => σ.restoreRow d t r s
  | .scanFirst => σ.move t (.scanWalk σ.heap.first)
  | .scanWalk p => σ.walkAt d t p .initWait .scanLink
  | .scanLink p => σ.move t (.scanWalk (σ.linkOf d p))
  | .initWait g => σ.lockR t (.initFirst g)
  | .initFirst g => σ.move t (.initWalk g σ.heap.first)
  | .initWalk g none => σ.initEnd d t g none
  | .initWalk g (some p) => (match σ.heap.getPage d p with
    | none => σ.move t (.initLink g p)
    | some pg => if 0 < pg.slots.length then σ.initEnd d t g (some p) else σ.move t (.initLink g p))
  | .initLink g p => σ.move t (.initWalk g (σ.linkOf d p))
  | .scanGet out cur => (match σ.heap.get d cur with
    | some s => σ.move t (.scanNext (out ++ [(cur, s)]) cur)
    | none => σ.move t (.scanNext out cur))
  | .scanNext out cur => σ.advance d t out cur

/-- A thread that is not in a call may make one. -/
def Pc.free : Pc → Bool
  | .idle => true
  | .done _ => true
  | _ => false

/-- One thing happens. -/
inductive Step (d : Disk) : Sys → Label → Sys → Prop where
  | call {σ : Sys} {t : Nat} (op : Op) : (σ.pc t).free = true → Step d σ (.call t op) (σ.goto t op.entry)
  | step {σ σ' : Sys} {t : Nat} {l : Label} : σ.step d t = some (l, σ') → Step d σ l σ'

end Verif.HeapConc

import Verif.Exec.Model

/-!
# The rows of a table (`src/storage/table/table_heap.rs`, `transactional_table_heap.rs`, `table_iterator.rs`)

A table is a chain of pages with slots. The bytes of a page are modelled in `Verif.TablePage`, the versions of a row and who sees which in `Verif.Mvcc`: here a slot holds the
newest version of its row, and whether a page can be read, has space or can take a longer row is left open (`Disk`).
-/

namespace Verif.Dml

open Verif.Wire Verif.Bytes Verif.Sql Verif.Exec

/-- What `TupleMeta` (tuple.rs:221-236) says of the newest version: the transaction that wrote it, whether it is committed, whether it is a deletion. The commit timestamp and the
link to the undo log are left out. -/
structure Info where
  creator : Nat
  committed : Bool
  deleted : Bool
  deriving DecidableEq

/-- A slot of a page. -/
structure Slot where
  info : Info
  row : Row

/-- A record id: page and slot. -/
structure Rid where
  page : Nat
  slot : Nat
  deriving DecidableEq

/-- A page: the next page of the table (`none` for `INVALID_PAGE_ID`) and the slots. -/
structure Page where
  next : Option Nat
  slots : List Slot

/-- `TableHeap` (table_heap.rs:259-268) with the pages it can reach. -/
structure Heap where
  page : Nat → Option Page
  first : Option Nat
  last : Option Nat

/-- What the layers below decide: which pages can be fetched, which rows never fit, whether a page has space for a slot and then takes it (table_page.rs `has_space_for`,
`insert_tuple_with_rid`), whether a slot can be overwritten in place (table_page.rs:299-379), and the page id a new page gets. -/
structure Disk where
  readable : Nat → Bool
  tooLarge : Row → Bool
  space : List Slot → Slot → Bool
  put : List Slot → Slot → Bool
  rewrite : List Slot → Nat → Slot → Bool
  fresh : Heap → Option Nat

/-- `TableHeap::get_page` (table_heap.rs:1075-1079). -/
def Heap.getPage (d : Disk) (h : Heap) (p : Nat) : Option Page := if d.readable p then h.page p else none

/-- Writing a page. -/
def Heap.set (h : Heap) (p : Nat) (pg : Page) : Heap := { h with page := fun q => if q = p then some pg else h.page q }

/-- `TableHeap::get_tuple_internal` with `allow_deleted = false` (table_heap.rs:1152-1161, table_page.rs:459-509), which is also what `get_tuple` (553-567) gives. -/
def Heap.get (d : Disk) (h : Heap) (r : Rid) : Option Slot := match h.getPage d r.page with
  | none => none
  | some pg => match pg.slots[r.slot]? with
    | some s => if s.info.deleted then none else some s
    | none => none

/-- An insertion: the table afterwards, and the record id of the row or an error. -/
inductive Put where
  | ok (h : Heap) (r : Rid)
  | err (h : Heap)

/-- `create_first_page_and_insert` (table_heap.rs:1021-1073). -/
def Heap.insertFirst (d : Disk) (h : Heap) (s : Slot) : Put :=
  if d.tooLarge s.row then .err h
  else match d.fresh h with
    | none => .err h
    | some p =>
      let h := { h.set p ⟨none, []⟩ with first := some p, last := some p }
      if d.space [] s && d.put [] s then .ok (h.set p ⟨none, [s]⟩) ⟨p, 0⟩ else .err h

/-- `create_new_page_and_insert_from_values` (table_heap.rs:1315-1408): a new page is linked behind the last one. -/
def Heap.insertNew (d : Disk) (h : Heap) (l : Nat) (pg : Page) (s : Slot) : Put :=
  if d.tooLarge s.row then .err h
  else match d.fresh h with
    | none => .err h
    | some p =>
      let h := { (h.set p ⟨none, []⟩).set l { pg with next := some p } with last := some p }
      if d.space [] s && d.put [] s then .ok (h.set p ⟨none, [s]⟩) ⟨p, 0⟩ else .err h

/-- `TableHeap::insert_tuple_from_values` (table_heap.rs:1174-1226), after the values were expanded. -/
def Heap.insert (d : Disk) (h : Heap) (s : Slot) : Put := match h.last with
  | none => h.insertFirst d s
  | some l => match h.getPage d l with
    | none => .err h
    | some pg =>
      if d.space pg.slots s && d.put pg.slots s then .ok (h.set l { pg with slots := pg.slots ++ [s] }) ⟨l, pg.slots.length⟩
      else h.insertNew d l pg s

/-- `update_tuple_internal` (table_heap.rs:1136-1150): a slot is overwritten in place, or nothing happens. -/
def Heap.write (d : Disk) (h : Heap) (r : Rid) (s : Slot) : Option Heap := match h.getPage d r.page with
  | none => none
  | some pg => if r.slot < pg.slots.length ∧ d.rewrite pg.slots r.slot s = true then some (h.set r.page { pg with slots := pg.slots.set r.slot s }) else none

/-- `TransactionalTableHeap::delete_tuple` (transactional_table_heap.rs:737-827) of a running transaction. The undo log is modelled in `Verif.Mvcc`. -/
def Heap.delete (d : Disk) (txn : Nat) (h : Heap) (r : Rid) : Option Heap := match h.get d r with
  | none => none
  | some s => if s.info.creator ≠ txn ∧ s.info.committed = false then none else h.write d r ⟨⟨txn, false, true⟩, s.row⟩

/-- `TransactionalTableHeap::update_tuple` (transactional_table_heap.rs:479-582) as the UPDATE executor calls it, with the metadata of transaction 0 (update_executor.rs:159-164). -/
def Heap.update (d : Disk) (txn : Nat) (h : Heap) (r : Rid) (row : Row) : Option Heap := match h.get d r with
  | none => none
  | some s => if s.info.creator ≠ 0 ∧ s.info.committed = false then none else h.write d r ⟨⟨txn, false, false⟩, row⟩

/-- `TableIterator::advance` (table_iterator.rs:313-340). -/
def Heap.advance (d : Disk) (h : Heap) (r : Rid) : Option Rid := match h.getPage d r.page with
  | none => none
  | some pg => if r.slot + 1 < pg.slots.length then some ⟨r.page, r.slot + 1⟩ else pg.next.map (⟨·, 0⟩)

/-- Where a scan is: looking for the first page with rows (`get_first_page_id`, table_heap.rs:778-801), or at a record id. `saved` is the record id at which the call of `next`
began, which the iterator reports as the record id of the row it returns (table_iterator.rs:440-472, 417-438). -/
inductive Pos where
  | walk (p : Option Nat)
  | here (saved cur : Rid)
  | stop

/-- A new scan. -/
def Heap.start (h : Heap) : Pos := .walk h.first

def Pos.next : Option Rid → Pos
  | some r => .here r r
  | none => .stop

def Pos.skip (saved : Rid) : Option Rid → Pos
  | some r => .here saved r
  | none => .stop

/-- One round of the loops: the scan moved, it found a row, or it ended. -/
inductive Look (α : Type) where
  | moved (s : Pos)
  | found (saved cur : Rid) (a : α) (s : Pos)
  | ended

/-- `TableIterator::new` and `next` (table_iterator.rs:219-310, 440-472) over `get`, which reads a record id as the transaction sees it. -/
def Heap.look {α : Type} (d : Disk) (h : Heap) (get : Rid → Option α) : Pos → Look α
  | .stop => .ended
  | .walk none => .ended
  | .walk (some p) => (match h.getPage d p with
    | none => .ended
    | some pg => if pg.slots = [] then .moved (.walk pg.next) else .moved (.here ⟨p, 0⟩ ⟨p, 0⟩))
  | .here saved r => (match get r with
    | some a => .found saved r a (.next (h.advance d r))
    | none => .moved (.skip saved (h.advance d r)))

/-- The scan as an executor: what it reports as the record id, the record id in the tuple, and what was read. -/
def Heap.scan {α : Type} (d : Disk) (h : Heap) (get : Rid → Option α) : Machine Pos (Rid × Rid × α) := fun s => match h.look d get s with
  | .moved s' => .cont s'
  | .found c r a s' => .emit (c, r, a) s'
  | .ended => .stop .done

/-- The pages of a chain: `Chain page start ids` says that following the links from `start` visits `ids` and ends. -/
inductive Chain (page : Nat → Option Page) : Option Nat → List Nat → Prop where
  | nil : Chain page none []
  | cons {p : Nat} {pg : Page} {ids : List Nat} : page p = some pg → Chain page pg.next ids → Chain page (some p) (p :: ids)

/-- The slots of a page with their record ids. -/
def slotsAt (p : Nat) (slots : List Slot) : List (Rid × Slot) := (List.range slots.length).zip slots |>.map fun x => (⟨p, x.1⟩, x.2)

/-- The slots of the pages in order. -/
def slotsOf (page : Nat → Option Page) (ids : List Nat) : List (Rid × Slot) := ids.flatMap fun p => match page p with
  | some pg => slotsAt p pg.slots
  | none => []

/-- `Table h l`: the table is sound, and its slots with their record ids are `l`, in the order of the chain. -/
structure Table (h : Heap) (l : List (Rid × Slot)) : Prop where
  chain : ∃ ids, Chain h.page h.first ids ∧ ids.Nodup ∧ h.last = ids.getLast? ∧ l = slotsOf h.page ids

end Verif.Dml

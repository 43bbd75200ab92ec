import Verif.Wal.Record
import Verif.Base.AMap

/-!
# Crash recovery (`src/recovery/log_recovery.rs:338-891`)

Recovery reads the log through the iterator of `Verif.Wal.Iterator`; here the log is the list of records it yields. Table pages are lists
of slots. `fetch_page` succeeds or not according to `avail`.

Simplified: an update of an existing slot succeeds (the page's space is not modelled here), an insert appends a slot.
-/

namespace Verif.Wal

open Verif.Wire

/-- A slot: the row's header and the row. -/
abbrev Slot := Meta × List Value

/-- The table pages, as the buffer pool gives them. -/
abbrev Store := Nat → List Slot

/-- `TupleMeta::new` (tuple.rs:238-245). -/
def Meta.new (txn : Nat) : Meta := ⟨txn, none, false, none⟩

/-- `TablePage::update_tuple` (table_page.rs:293-379) on the row `rid`; an error (no such slot) is ignored by recovery. -/
def Store.update (st : Store) (rid : Rid) (m : Meta) (t : List Value) : Store := fun p =>
  if p = rid.page then (st p).set rid.slot (m, t) else st p

/-- `TablePage::insert_tuple_with_rid` (table_page.rs:1052-1134), which appends and does not look at the slot number. -/
def Store.insert (st : Store) (rid : Rid) (m : Meta) (t : List Value) : Store := fun p =>
  if p = rid.page then st p ++ [(m, t)] else st p

/-- `get_tuple(rid, true)` (table_page.rs:459-509). -/
def Store.get (st : Store) (rid : Rid) : Option Slot := (st rid.page)[rid.slot]?

/-- `meta.set_deleted(true)` on the row's header (log_recovery.rs:680-683). -/
def Store.markDeleted (st : Store) (rid : Rid) : Store := match st.get rid with
  | some (m, t) => st.update rid { m with deleted := true } t
  | none => st

/-! ## Analysis -/

/-- `TxnTable`, `DirtyPageTable` and `start_redo_lsn` (log_recovery.rs:370-372). -/
structure Tables where
  txns : AMap Nat Nat
  dirty : AMap Nat Nat
  start : Option Nat

/-- `DirtyPageTable::add_page` (log_recovery.rs:867-869): keeps the first LSN. -/
def addPage (d : AMap Nat Nat) (p lsn : Nat) : AMap Nat Nat := if d.has p then d else d.set p lsn

/-- `get_page_id_from_record` (log_recovery.rs:617-635). -/
def pageOf (r : Rec) : Option Nat := match r.kind with
  | .insert | .update => (r.insertRid.or r.updateRid).map (·.page)
  | .markDelete | .applyDelete | .rollbackDelete => r.deleteRid.map (·.page)
  | .newPage => r.page
  | _ => none

/-- The records that change pages. -/
def Kind.isData : Kind → Bool
  | .insert | .update | .markDelete | .applyDelete | .rollbackDelete | .newPage => true
  | _ => false

/-- One record of the analysis (log_recovery.rs:378-424). -/
def analyze1 (t : Tables) (r : Rec) : Tables :=
  let t := { t with start := some (t.start.getD r.lsn) }
  match r.kind with
  | .begin => { t with txns := t.txns.set r.txn r.lsn }
  | .commit | .abort => { t with txns := t.txns.erase r.txn }
  | .invalid => t
  | _ => { t with txns := t.txns.set r.txn r.lsn, dirty := match pageOf r with
      | some p => addPage t.dirty p r.lsn
      | none => t.dirty }

/-- `analyze_log` (log_recovery.rs:367-435). -/
def analyze (log : List Rec) : Tables := log.foldl analyze1 ⟨[], [], none⟩

/-! ## Redo -/

/-- `redo_record` (log_recovery.rs:641-712). A new page record makes or fetches a page, which changes no row. -/
def redoRec (avail : Nat → Bool) (st : Store) (r : Rec) : Store := match r.kind with
  | .insert => match r.insertRid, r.insertTuple with
    | some rid, some t => if avail rid.page then st.insert rid (Meta.new r.txn) t else st
    | _, _ => st
  | .update => match r.updateRid, r.newTuple, r.oldTuple with
    | some rid, some t, some _ => if avail rid.page then st.update rid (Meta.new r.txn) t else st
    | _, _, _ => st
  | .markDelete | .applyDelete => match r.deleteRid with
    | some rid => if avail rid.page then st.markDeleted rid else st
    | none => st
  | _ => st

/-- `should_redo` (log_recovery.rs:462-488). -/
def shouldRedo (t : Tables) (r : Rec) : Bool :=
  decide (t.start.getD (2 ^ 64 - 1) ≤ r.lsn) && r.kind.isData && (match pageOf r with
    | some p => (match t.dirty.get p with
      | some l => decide (l ≤ r.lsn)
      | none => false)
    | none => false)

/-- `redo_log` (log_recovery.rs:443-498). -/
def redo (avail : Nat → Bool) (t : Tables) (log : List Rec) (st : Store) : Store :=
  log.foldl (fun st r => if shouldRedo t r then redoRec avail st r else st) st

/-! ## Undo -/

/-- `undo_insert`, `undo_update`, `undo_delete` (log_recovery.rs:718-772). -/
def undoRec (avail : Nat → Bool) (st : Store) (r : Rec) : Store := match r.kind with
  | .insert => match r.insertRid with
    | some rid => if avail rid.page then st.markDeleted rid else st
    | none => st
  | .update => match r.updateRid, r.oldTuple with
    | some rid, some t => if avail rid.page then st.update rid (Meta.new r.txn) t else st
    | _, _ => st
  | .markDelete => match r.deleteRid, r.deleteTuple with
    | some rid, some t => if avail rid.page then st.update rid (Meta.new r.txn) t else st
    | _, _ => st
  | _ => st

/-- `build_lsn_offset_map` and the read at the offset (log_recovery.rs:529-534, 590-608): the last record with the LSN. -/
def lookupLsn (log : List Rec) (lsn : Nat) : Option Rec := log.reverse.find? (·.lsn == lsn)

/-- The loop for one transaction (log_recovery.rs:527-575). `none`: it never ends. -/
def undoTxn (avail : Nat → Bool) (log : List Rec) (txn : Nat) : Nat → Nat → Store → Option Store
  | 0, _, _ => none
  | k + 1, lsn, st =>
    if lsn = 2 ^ 64 - 1 then some st
    else match lookupLsn log lsn with
      | none => some st
      | some r =>
        if r.txn = txn then
          if r.kind = .begin then some st else undoTxn avail log txn k r.prevLsn (undoRec avail st r)
        else some st

/-- `undo_log` (log_recovery.rs:504-584) for the active transactions in the given order. A chain longer than the log repeats an LSN, and
so never ends. -/
def undo (avail : Nat → Bool) (t : Tables) (log : List Rec) : List Nat → Store → Option Store
  | [], st => some st
  | txn :: order, st => (undoTxn avail log txn (log.length + 1) ((t.txns.get txn).getD (2 ^ 64 - 1)) st).bind fun st =>
    undo avail t log order st

/-- `start_recovery` (log_recovery.rs:338-358); `order` is the order in which the hash map lists the active transactions. -/
def recover (avail : Nat → Bool) (log : List Rec) (order : List Nat) (st : Store) : Option Store :=
  let t := analyze log
  undo avail t log order (redo avail t log st)

/-- The orders in which the active transactions can be listed. -/
def OrderOf (log : List Rec) (order : List Nat) : Prop := order.Perm (analyze log).txns.keys

end Verif.Wal

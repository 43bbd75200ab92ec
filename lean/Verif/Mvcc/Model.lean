import Verif.Base.AMap
import Verif.Watermark.Model
import Verif.Mvcc.Visibility

/-!
# Transactions and row versions

`TransactionManager` (`src/concurrency/transaction_manager.rs`), `Transaction` (`transaction.rs`) and
`TransactionalTableHeap` (`src/storage/table/transactional_table_heap.rs`).

Simplifications: one table; the table heap is a map from row ids to metadata and contents (page layout is the subject of
`Verif/TablePage`), and writing a row that exists always succeeds; the intention locks taken on insert are
left out (writes take only intention locks on tables, which do not exclude each other); a transaction's state is only changed by commit and abort.
Every call is one atomic step here; `Verif/Mvcc/Commit` splits commit into its steps.
-/

namespace Verif.Mvcc

open Verif.Locks (Iso TState)
open Verif.Watermark (WM)

/-- Row ids: page and slot. -/
abbrev Rid := Nat × Nat

/-- `UndoLink` as stored in an undo log (transaction.rs:232-238): the transaction that wrote the version, and the
index of its undo log; `usize::MAX` is `none`, which makes the link not valid (`is_valid`). -/
structure Prev where
  txn : Nat
  idx : Option Nat
  deriving DecidableEq, Repr

/-- `UndoLog` (transaction.rs:245-261) without `modified_fields`, which nothing reads. `ts = INVALID_TS` is
`none`. -/
structure Undo (V : Type) where
  isDeleted : Bool
  val : V
  ts : Option Nat
  prev : Prev
  orig : Option Rid
  deriving DecidableEq, Repr

/-- `Transaction` (transaction.rs:433-454); the write set is duplicate free. -/
structure Txn (V : Type) where
  iso : Iso
  state : TState
  rts : Nat
  cts : Nat
  undo : List (Undo V)
  writes : List Rid
  deriving Repr

/-- The transaction manager and the table heap. `txns` has every `Transaction` object ever made, `map` the ids
present in `txn_map`; `links` is `version_info` (transaction_manager.rs:240-350). -/
structure Db (V : Type) where
  wm : WM
  nextId : Nat
  txns : AMap Nat (Txn V)
  map : List Nat
  links : AMap Rid (Nat × Nat)
  rows : AMap Rid (Meta × V)

variable {V : Type}

/-- `TransactionManager::new` with an empty table (transaction_manager.rs:358-375). -/
def Db.new : Db V :=
  { wm := Watermark.new, nextId := 0, txns := [], map := [], links := [], rows := [] }

/-- Results of calls. -/
inductive Res where
  | begun (t : Nat)
  | ok
  | err
  | committed (b : Bool)
  deriving DecidableEq, Repr

/-- `HashSet`/`HashMap::insert` of a key. -/
def ins {α : Type} [DecidableEq α] (x : α) (l : List α) : List α := if x ∈ l then l else x :: l

/-- `TransactionManager::begin` (transaction_manager.rs:444-469); the shutdown flag is left out. -/
def begin (d : Db V) (iso : Iso) : Db V × Res :=
  let (wm, rts) := Watermark.getNextTsAndRegister d.wm
  ({ d with
      wm, nextId := d.nextId + 1, map := ins d.nextId d.map,
      txns := d.txns.set d.nextId { iso, state := .running, rts, cts := 0, undo := [], writes := [] } },
   .begun d.nextId)

/-- `append_write_set` (transaction.rs:628-631). -/
def addWrite (d : Db V) (t : Nat) (tx : Txn V) (rid : Rid) : Db V :=
  { d with txns := d.txns.set t { tx with writes := ins rid tx.writes } }

/-- `TransactionalTableHeap::insert_tuple` (transactional_table_heap.rs:388-439); `rid` is the place the heap picks,
which is not in use. -/
def insert (d : Db V) (t : Nat) (v : V) (rid : Rid) : Db V × Res :=
  match d.txns.get t with
  | none => (d, .err)
  | some tx =>
    if tx.state ≠ .running then (d, .err)
    else (addWrite { d with rows := d.rows.set rid ({ creator := t, cts := none, deleted := false, undo := none }, v) }
            t tx rid, .ok)

/-- The common part of `update_tuple` (transactional_table_heap.rs:504-579) and `delete_tuple` (761-824): append an undo
log holding the current version, point the row's link to it, write the new version. -/
def writeVersion (d : Db V) (t : Nat) (tx : Txn V) (rid : Rid) (m : Meta) (cur new : V) (del : Bool) : Db V :=
  let u : Undo V := { isDeleted := del, val := cur, ts := m.cts, prev := { txn := m.creator, idx := m.undo }, orig := some rid }
  let tx' := { tx with undo := tx.undo ++ [u] }
  addWrite { d with
    links := d.links.set rid (t, tx.undo.length),
    rows := d.rows.set rid ({ creator := t, cts := none, deleted := del, undo := some tx.undo.length }, new) } t tx' rid

/-- `TransactionalTableHeap::update_tuple` (transactional_table_heap.rs:479-582). `who` is the creator in the metadata the
caller passes: the check on line 497 compares it, not the transaction, with the row's creator. -/
def update (d : Db V) (t who : Nat) (v : V) (rid : Rid) : Db V × Res :=
  match d.txns.get t with
  | none => (d, .err)
  | some tx =>
    if tx.state ≠ .running then (d, .err)
    else match d.rows.get rid with
      | none => (d, .err)
      | some (m, cur) =>
        if m.deleted then (d, .err)
        else if m.creator ≠ who ∧ m.cts = none then (d, .err)
        else (writeVersion d t tx rid m cur v false, .ok)

/-- `TransactionalTableHeap::delete_tuple` (transactional_table_heap.rs:737-827). -/
def delete (d : Db V) (t : Nat) (rid : Rid) : Db V × Res :=
  match d.txns.get t with
  | none => (d, .err)
  | some tx =>
    if tx.state ≠ .running then (d, .err)
    else match d.rows.get rid with
      | none => (d, .err)
      | some (m, cur) =>
        if m.deleted then (d, .err)
        else if m.creator ≠ t ∧ m.cts = none then (d, .err)
        else (writeVersion d t tx rid m cur cur true, .ok)

/-- Which transactions `prune_completed_transactions` keeps (transaction_manager.rs:1118-1126). -/
def keeps (watermark : Nat) (tx : Txn V) : Bool :=
  match tx.state with
  | .committed => tx.cts == 0 || decide (tx.cts ≥ watermark)
  | .aborted => decide (tx.rts ≥ watermark)
  | _ => true

/-- `prune_completed_transactions` (transaction_manager.rs:1114-1127). -/
def prune (d : Db V) : Db V :=
  { d with map := d.map.filter fun t =>
      match d.txns.get t with
      | some tx => keeps (Watermark.getWatermark d.wm) tx
      | none => true }

/-- One iteration of the stamping loop of `commit` (transaction_manager.rs:529-574). -/
def stamp (t cts : Nat) (d : Db V) (rid : Rid) : Db V :=
  match d.rows.get rid with
  | none => d
  | some (m, v) => if m.creator = t then { d with rows := d.rows.set rid ({ m with cts := some cts }, v) } else d

/-- The first part of `commit` (transaction_manager.rs:516-525) with `Transaction::commit` (transaction.rs:707-737). -/
def commitStart (d : Db V) (t : Nat) (tx : Txn V) : Db V × Nat :=
  let (wm, cts) := Watermark.getNextTs d.wm
  let wm := Watermark.removeTxn (Watermark.updateCommitTs wm cts) tx.rts
  ({ d with wm, map := ins t d.map, txns := d.txns.set t { tx with state := .committed, cts } }, cts)

/-- `TransactionManager::commit` (transaction_manager.rs:481-580). `order` is the order in which the hash sets yield the
write set. -/
def commit (d : Db V) (t : Nat) (order : List Rid) : Db V × Res :=
  match d.txns.get t with
  | none => (d, .err)
  | some tx =>
    match tx.state with
    | .aborted => (d, .committed false)
    | .committed => (d, .committed true)
    | _ =>
      let (d, cts) := commitStart d t tx
      (prune (order.foldl (stamp t cts) d), .committed true)

/-- `get_undo_log_optional` (transaction_manager.rs:990-1025). -/
def getLog (d : Db V) (l : Nat × Nat) : Option (Undo V) :=
  if l.1 ∈ d.map then (d.txns.get l.1).bind fun tx => tx.undo[l.2]? else none

/-- The link to the version before the one in an undo log, if valid (transaction.rs `is_valid`). -/
def nextLink (u : Undo V) : Option (Nat × Nat) := u.prev.idx.map fun i => (u.prev.txn, i)

/-- `update_undo_link` without check (transaction_manager.rs:854-884). -/
def setLink (d : Db V) (rid : Rid) : Option (Nat × Nat) → Db V
  | some l => { d with links := d.links.set rid l }
  | none => { d with links := d.links.erase rid }

/-- One iteration of the rollback loop of `abort` (transaction_manager.rs:633-793), with `rollback_tuple`
(transactional_table_heap.rs:294-303) and `TableHeap::update_tuple` (table_heap.rs:419-504). -/
def abortRow (t : Nat) (d : Db V) (rid : Rid) : Db V :=
  match d.links.get rid with
  | some l =>
    match getLog d l with
    | none => d
    | some u =>
      match u.orig with
      | some orid =>
        if (d.rows.get orid).isSome then
          let m : Meta := { creator := l.1, cts := u.ts, deleted := false, undo := some l.2 }
          setLink { d with rows := d.rows.set orid (m, u.val) } rid (nextLink u)
        else d
      | none =>
        let m : Meta := { creator := l.1, cts := u.ts, deleted := u.isDeleted, undo := some l.2 }
        let d' := match d.rows.get rid with
          | none => d
          | some (cur, _) =>
            if cur.deleted then d
            else if cur.creator ≠ l.1 ∧ cur.cts = none then d
            else { d with rows := d.rows.set rid (m, u.val) }
        setLink d' rid (nextLink u)
  | none =>
    match d.rows.get rid with
    | none => d
    | some (_, v) =>
      { d with rows := d.rows.set rid ({ creator := t, cts := none, deleted := true, undo := none }, v) }

/-- `TransactionManager::abort` (transaction_manager.rs:586-807). -/
def abort (d : Db V) (t : Nat) (order : List Rid) : Db V × Res :=
  match d.txns.get t with
  | none => (d, .err)
  | some tx =>
    match tx.state with
    | .committed | .aborted => (d, .ok)
    | _ =>
      let d := order.foldl (abortRow t) d
      (prune { d with
        wm := Watermark.removeTxn d.wm tx.rts, map := ins t d.map,
        txns := d.txns.set t { tx with state := .aborted } }, .ok)

/-- What a read finds. `diverges` is not a result of the code: it is a walk of the version chain that has not
ended within the given number of steps. -/
inductive Found (V : Type) where
  | val (v : V)
  | deleted
  | noVersion
  | missing
  | diverges
  deriving DecidableEq, Repr

/-- The metadata of an older version (transactional_table_heap.rs:655-674). -/
def prevMeta (u : Undo V) : Meta :=
  { creator := u.prev.txn, cts := u.ts, deleted := if u.orig.isSome then false else u.isDeleted, undo := u.prev.idx }

/-- The loop over the version chain of `get_visible_version` (transactional_table_heap.rs:626-713). -/
def walk (d : Db V) (t rts : Nat) : Nat → Option (Nat × Nat) → Found V
  | _, none => .noVersion
  | 0, some _ => .diverges
  | n + 1, some l =>
    match getLog d l with
    | none => .noVersion
    | some u =>
      match visibilityStatus (prevMeta u) t rts with
      | .visible => .val u.val
      | .deleted => .deleted
      | .invisible => walk d t rts n (nextLink u)

/-- `get_visible_version` (transactional_table_heap.rs:585-714). -/
def getVisibleVersion (n : Nat) (d : Db V) (t rts : Nat) (rid : Rid) (m : Meta) (v : V) : Found V :=
  match visibilityStatus m t rts with
  | .visible => .val v
  | .deleted => .deleted
  | .invisible => walk d t rts n (d.links.get rid)

/-- `TransactionalTableHeap::get_tuple` (transactional_table_heap.rs:441-477), following at most `n` links. -/
def getTuple (n : Nat) (d : Db V) (t : Nat) (tx : Txn V) (rid : Rid) : Found V :=
  match d.rows.get rid with
  | none => .missing
  | some (m, v) =>
    match tx.iso with
    | .readUncommitted => if m.deleted then .deleted else .val v
    | .readCommitted =>
      if m.creator = t ∨ m.cts.isSome then (if m.deleted then .deleted else .val v)
      else getVisibleVersion n d t tx.rts rid m v
    | _ => getVisibleVersion n d t tx.rts rid m v

/-- Calls that change something. -/
inductive Op (V : Type) where
  | begin (iso : Iso)
  | insert (t : Nat) (v : V) (rid : Rid)
  | update (t who : Nat) (v : V) (rid : Rid)
  | delete (t : Nat) (rid : Rid)
  | commit (t : Nat) (order : List Rid)
  | abort (t : Nat) (order : List Rid)
  deriving DecidableEq, Repr

/-- One call. -/
def step (d : Db V) : Op V → Db V × Res
  | .begin iso => begin d iso
  | .insert t v rid => insert d t v rid
  | .update t who v rid => update d t who v rid
  | .delete t rid => delete d t rid
  | .commit t order => commit d t order
  | .abort t order => abort d t order

/-- A sequence of calls, with the results paired to them. -/
def run (d : Db V) : List (Op V) → Db V × List (Op V × Res)
  | [] => (d, [])
  | o :: os =>
    let r := step d o
    let rest := run r.1 os
    (rest.1, (o, r.2) :: rest.2)

end Verif.Mvcc

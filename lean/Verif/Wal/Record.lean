import Verif.Wire.Value

/-!
# Log records (`src/recovery/log_record.rs`)

The derived serialization of `LogRecord` (231-269), its framing (`to_bytes` 603-610, `from_bytes` 622-628) and the constructors.
-/

namespace Verif.Wal

open Verif.Bytes (Byte)
open Verif.Wire

/-- `enum LogRecordType` (log_record.rs), in the order of its variants. -/
inductive Kind where
  | invalid
  | insert
  | markDelete
  | applyDelete
  | rollbackDelete
  | update
  | begin
  | commit
  | abort
  | newPage
  deriving Repr, DecidableEq

def Kind.idx : Kind → Nat
  | .invalid => 0 | .insert => 1 | .markDelete => 2 | .applyDelete => 3 | .rollbackDelete => 4 | .update => 5 | .begin => 6 | .commit => 7
  | .abort => 8 | .newPage => 9

def Kind.ofIdx : Nat → Option Kind
  | 0 => some .invalid | 1 => some .insert | 2 => some .markDelete | 3 => some .applyDelete | 4 => some .rollbackDelete | 5 => some .update
  | 6 => some .begin | 7 => some .commit | 8 => some .abort | 9 => some .newPage | _ => none

/-- `struct RID` (common/rid.rs): page and slot. -/
structure Rid where
  page : Nat
  slot : Nat
  deriving Repr, DecidableEq

def encRid (r : Rid) : List Byte := encU64 r.page ++ encU32 r.slot

def decRid : Dec Rid := fun bs => (decU64 bs).bind fun p => (decU32 p.2).map fun s => (⟨p.1, s.1⟩, s.2)

def Rid.ok (r : Rid) : Prop := r.page < 2 ^ 64 ∧ r.slot < 2 ^ 32

theorem decRid_encRid {r : Rid} (rest : List Byte) (h : r.ok) : decRid (encRid r ++ rest) = some (r, rest) := by
  simp [decRid, encRid, decU64_encU64 h.1, decU32_encU32 h.2]

/-- `struct LogRecord` (log_record.rs:232-269). -/
structure Rec where
  size : Int
  lsn : Nat
  txn : Nat
  prevLsn : Nat
  kind : Kind
  deleteRid : Option Rid
  deleteTuple : Option (List Value)
  insertRid : Option Rid
  insertTuple : Option (List Value)
  updateRid : Option Rid
  oldTuple : Option (List Value)
  newTuple : Option (List Value)
  prevPage : Option Nat
  page : Option Nat

/-- The derived `Serialize`. -/
def encRec (r : Rec) : List Byte :=
  encI32 r.size ++ (encU64 r.lsn ++ (encU64 r.txn ++ (encU64 r.prevLsn ++ (encU32 r.kind.idx ++ (encOpt encRid r.deleteRid ++
    (encOpt encTuple r.deleteTuple ++ (encOpt encRid r.insertRid ++ (encOpt encTuple r.insertTuple ++ (encOpt encRid r.updateRid ++
      (encOpt encTuple r.oldTuple ++ (encOpt encTuple r.newTuple ++ (encOpt encU64 r.prevPage ++ encOpt encU64 r.page))))))))))))

/-- `LogRecordType`, by its variant index. -/
def decKind : Dec Kind := fun bs => (decU32 bs).bind fun r => (Kind.ofIdx r.1).map fun k => (k, r.2)

/-- The derived `Deserialize`. -/
def decRec : Dec Rec := fun bs =>
  (decI32 bs).bind fun size => (decU64 size.2).bind fun lsn => (decU64 lsn.2).bind fun txn => (decU64 txn.2).bind fun prev =>
  (decKind prev.2).bind fun kind => (decOpt decRid kind.2).bind fun dr => (decOpt decTuple dr.2).bind fun dt =>
  (decOpt decRid dt.2).bind fun ir => (decOpt decTuple ir.2).bind fun it => (decOpt decRid it.2).bind fun ur =>
  (decOpt decTuple ur.2).bind fun ot => (decOpt decTuple ot.2).bind fun nt => (decOpt decU64 nt.2).bind fun pp =>
  (decOpt decU64 pp.2).map fun p =>
    (⟨size.1, lsn.1, txn.1, prev.1, kind.1, dr.1, dt.1, ir.1, it.1, ur.1, ot.1, nt.1, pp.1, p.1⟩, p.2)

/-- The numbers fit their Rust types. -/
structure Rec.Ok (r : Rec) : Prop where
  size : InRange 32 r.size
  lsn : r.lsn < 2 ^ 64
  txn : r.txn < 2 ^ 64
  prev : r.prevLsn < 2 ^ 64
  dr : ∀ x, r.deleteRid = some x → x.ok
  dt : ∀ x, r.deleteTuple = some x → TupleOk x
  ir : ∀ x, r.insertRid = some x → x.ok
  it : ∀ x, r.insertTuple = some x → TupleOk x
  ur : ∀ x, r.updateRid = some x → x.ok
  ot : ∀ x, r.oldTuple = some x → TupleOk x
  nt : ∀ x, r.newTuple = some x → TupleOk x
  pp : ∀ x, r.prevPage = some x → x < 2 ^ 64
  pg : ∀ x, r.page = some x → x < 2 ^ 64

theorem decKind_enc (k : Kind) (rest : List Byte) : decKind (encU32 k.idx ++ rest) = some (k, rest) := by
  have : k.idx < 2 ^ 32 := by cases k <;> decide
  simp only [decKind, decU32_encU32 this]
  cases k <;> rfl

theorem decRec_encRec {r : Rec} (h : r.Ok) (rest : List Byte) : decRec (encRec r ++ rest) = some (r, rest) := by
  have hr : ∀ (a : Rid) (rest : List Byte), a.ok → decRid (encRid a ++ rest) = some (a, rest) := fun a rest h => decRid_encRid rest h
  have ht : ∀ (a : List Value) (rest : List Byte), TupleOk a → decTuple (encTuple a ++ rest) = some (a, rest) :=
    fun a rest h => decTuple_encTuple h rest
  have hu : ∀ (a : Nat) (rest : List Byte), a < 2 ^ 64 → decU64 (encU64 a ++ rest) = some (a, rest) := fun a rest h => decU64_encU64 h rest
  have hpg := decOpt_encOpt hu h.pg
  simp only [decRec, encRec, List.append_assoc, decI32_encI32 h.size, decU64_encU64 h.lsn, decU64_encU64 h.txn, decU64_encU64 h.prev,
    decKind_enc, Option.bind_some, decOpt_encOpt hr h.dr, decOpt_encOpt ht h.dt, decOpt_encOpt hr h.ir, decOpt_encOpt ht h.it,
    decOpt_encOpt hr h.ur, decOpt_encOpt ht h.ot, decOpt_encOpt ht h.nt, decOpt_encOpt hu h.pp]
  rw [hpg]
  rfl

/-- `to_bytes` (log_record.rs:603-610): four bytes of total length, then the payload. The length is truncated to 32 bits. -/
def toBytes (r : Rec) : List Byte :=
  let p := encRec r
  Bytes.toLE 4 ((4 + p.length) % 2 ^ 32) ++ p

/-- `from_bytes` (log_record.rs:622-628): skips four bytes and decodes; trailing bytes are ignored. -/
def fromBytes (bs : List Byte) : Option Rec := if bs.length < 4 then none else (decRec (bs.drop 4)).map (·.1)

theorem length_toBytes (r : Rec) : (toBytes r).length = 4 + (encRec r).length := by simp [toBytes]

theorem fromBytes_toBytes {r : Rec} (h : r.Ok) : fromBytes (toBytes r) = some r := by
  have := decRec_encRec h []
  rw [List.append_nil] at this
  rw [fromBytes, if_neg (by rw [length_toBytes]; omega)]
  rw [toBytes, List.drop_left' (by simp), this]
  rfl

/-- `refresh_size_from_encoding` (log_record.rs:296-315): re-encodes until the recorded size is the encoded length, at most five times. -/
def refreshSize : Nat → Rec → Rec
  | 0, r => r
  | n + 1, r =>
    let s : Int := (4 + (encRec r).length : Nat)
    if s = r.size then r else refreshSize n { r with size := s }

/-- Fields common to all records made by the constructors. -/
def blank (txn prev : Nat) (k : Kind) : Rec :=
  { size := 0, lsn := 2 ^ 64 - 1, txn := txn, prevLsn := prev, kind := k, deleteRid := none, deleteTuple := none, insertRid := none,
    insertTuple := none, updateRid := none, oldTuple := none, newTuple := none, prevPage := none, page := none }

/-- `new_transaction_record` (log_record.rs:326-350). -/
def newTxnRec (txn prev : Nat) (k : Kind) : Rec := refreshSize 5 (blank txn prev k)

/-- `new_update_record` (log_record.rs:441-471). -/
def newUpdateRec (txn prev : Nat) (rid : Rid) (old new : List Value) : Rec :=
  refreshSize 5 { blank txn prev .update with updateRid := some rid, oldTuple := some old, newTuple := some new }

/-- `new_insert_delete_record` (log_record.rs:363-427). -/
def newInsertDeleteRec (txn prev : Nat) (k : Kind) (rid : Rid) (t : List Value) : Rec :=
  refreshSize 5 (match k with
  | .insert => { blank txn prev .insert with insertRid := some rid, insertTuple := some t }
  | .markDelete | .applyDelete | .rollbackDelete => { blank txn prev k with deleteRid := some rid, deleteTuple := some t }
  | _ => blank txn prev .invalid)

/-- `set_lsn` (log_record.rs:568-570). -/
def Rec.withLsn (r : Rec) (lsn : Nat) : Rec := { r with lsn := lsn }

end Verif.Wal

import Verif.Wire.Value
import Verif.Wal.Record

/-!
# The slotted table page

`TablePage` of `src/storage/page/page_types/table_page.rs`: the in-memory slot directory, the 4096 bytes, and the two conversions
between them. `none` as the outer result of an operation is a Rust panic. The dirty flag and the pin count are left out (the buffer
pool model has them); so is logging. `u16` casts are kept where a value can exceed them.
-/

namespace Verif.TablePage

open Verif.Bytes Verif.Wire
open Verif.Wal (Rid)

/-- `DB_PAGE_SIZE` (common/config.rs:31). -/
abbrev PS : Nat := 4096
/-- `TUPLE_MAX_SERIALIZED_SIZE` (common/config.rs). -/
abbrev maxRow : Nat := 3500
/-- `INVALID_PAGE_ID`. -/
abbrev noPage : Nat := 2 ^ 64 - 1

/-- One entry of `tuple_info` (table_page.rs:104): offset, size and the row's metadata. -/
structure Info where
  off : Nat
  size : Nat
  md : Meta
  deriving DecidableEq, Repr

/-- `TablePage` with its `TablePageHeader` (table_page.rs:101-117). -/
structure Page where
  id : Nat
  next : Nat
  prev : Nat
  num : Nat
  ndel : Nat
  info : List Info
  data : List Byte
  deriving DecidableEq, Repr

/-- `data[off..off + bs.len()].copy_from_slice(bs)`, for a range inside `data`. -/
def splice (d : List Byte) (off : Nat) (bs : List Byte) : List Byte := d.take off ++ (bs ++ d.drop (off + bs.length))

/-- `data[off..off + n]`, for a range inside `data`. -/
def slice (d : List Byte) (off n : Nat) : List Byte := (d.drop off).take n

/-- `n` zero bytes (`fill(0)`). -/
def zeros (n : Nat) : List Byte := List.replicate n 0

/-- `TablePage::new` (220-232): a zeroed page with the type byte and the page id. -/
def new (id : Nat) : Page :=
  { id, next := noPage, prev := noPage, num := 0, ndel := 0, info := []
    data := splice (splice (zeros PS) 0 [2]) 1 (toLE 8 id) }

/-- `encoded_tuple_info_bytes` (870-880): four bytes and the metadata for every slot. -/
def infoBytes : List Info → Nat
  | [] => 0
  | i :: is => 4 + (encMeta i.md).length + infoBytes is

/-- `metadata_footprint_bytes` (882-888). -/
def footprint (p : Page) : Nat := 1 + 28 + 4 + infoBytes p.info + 4

/-- `metadata_footprint_with_new` (890-901). -/
def footprintNew (p : Page) (m : Meta) : Nat := 1 + 28 + 4 + infoBytes p.info + 4 + (encMeta m).length + 4

/-- `is_tuple_too_large` (937-955), with `TupleMeta::new(0)` as the stand-in metadata. -/
def tooLarge (p : Page) (bs : List Byte) : Bool :=
  decide (maxRow < bs.length) || decide (PS < bs.length + footprintNew p ⟨0, none, false, none⟩)

/-- Where the slot the next row is placed under ends: the offset of the last slot (271-275). -/
def slotEnd (p : Page) : Option Nat := if 0 < p.num then (p.info[p.num - 1]?).map (·.off) else some PS

/-- `get_next_tuple_offset` (248-291). The outer `none` is the index panic of line 272. -/
def nextOffset (p : Page) (m : Meta) (bs : List Byte) : Option (Option Nat) :=
  if tooLarge p bs then some none
  else if maxRow < bs.length % 65536 then some none
  else (slotEnd p).map fun e =>
    if e - bs.length % 65536 < footprintNew p m % 65536 then none else some (e - bs.length % 65536)

/-- The header bytes (`TablePageHeader::serialize`, 133-155). -/
def encHeader (p : Page) : List Byte := toLE 8 p.id ++ (toLE 8 p.next ++ (toLE 8 p.prev ++ (toLE 2 p.num ++ toLE 2 p.ndel)))

/-- The start marker 0xDEADBEEF, big-endian. -/
def magic : List Byte := [0xDE, 0xAD, 0xBE, 0xEF]
/-- The end marker 0xCAFEBABE, big-endian. -/
def endMagic : List Byte := [0xCA, 0xFE, 0xBA, 0xBE]

/-- The slot directory loop of `serialize` (606-639): stops when an entry does not fit. Returns the offset it stopped at. -/
def writeInfos : List Info → Nat → List Byte → Nat × List Byte
  | [], o, b => (o, b)
  | i :: is, o, b =>
    if PS < o + 4 + 4 then (o, b)
    else if PS < o + 4 + (encMeta i.md).length + 4 then (o, splice b o (toLE 2 i.off ++ toLE 2 i.size))
    else writeInfos is (o + 4 + (encMeta i.md).length)
      (splice (splice b o (toLE 2 i.off ++ toLE 2 i.size)) (o + 4) (encMeta i.md))

/-- The end marker (642-654). -/
def writeEnd (o : Nat) (b : List Byte) : List Byte := if o + 4 ≤ PS then splice b o endMagic else splice b (PS - 4) endMagic

/-- The row bodies, copied last (657-662); slicing out of the page panics. -/
def copyRows (d : List Byte) : List Info → List Byte → Option (List Byte)
  | [], b => some b
  | i :: is, b => if i.off + i.size ≤ PS then copyRows d is (splice b i.off (slice d i.off i.size)) else none

/-- What `serialize` writes before the directory: type byte, header, start marker (560-580). -/
def serHead (p : Page) : List Byte := splice (splice (splice (zeros PS) 0 [2]) 1 (encHeader p)) 29 magic

/-- `serialize` (558-674). -/
def serialize (p : Page) : Option (List Byte) :=
  copyRows p.data p.info (writeEnd (writeInfos p.info 33 (serHead p)).1 (writeInfos p.info 33 (serHead p)).2)

/-- The row's new directory entry and bytes in place, before the page is serialized again (1014-1026). -/
def placed (p : Page) (o : Nat) (m : Meta) (bs : List Byte) : Page :=
  { p with
    info := p.info ++ [⟨o, bs.length % 65536, m⟩]
    num := p.num + 1
    data := splice p.data o bs }

/-- The end of both inserts (1014-1047): place the row, and refresh the bytes of the whole page. -/
def finishInsert (p : Page) (o : Nat) (m : Meta) (bs : List Byte) (r : Rid) : Option (Page × Option Rid) :=
  if o + bs.length ≤ PS then (serialize (placed p o m bs)).map fun d => ({ placed p o m bs with data := d }, some r)
  else some (p, none)

/-- `insert_tuple` (964-1048): the row carries the place it expects, which must be the next slot. -/
def insert (p : Page) (m : Meta) (row : List Value) (rid : Rid) : Option (Page × Option Rid) :=
  (nextOffset p m (encTuple row)).bind fun
    | none => some (p, none)
    | some o => if rid = ⟨p.id, p.num⟩ then finishInsert p o m (encTuple row) ⟨p.id, p.num⟩ else some (p, none)

/-- `insert_tuple_with_rid` (1052-1134): the given place is not checked, and is handed back. -/
def insertWithRid (p : Page) (m : Meta) (row : List Value) (rid : Rid) : Option (Page × Option Rid) :=
  (nextOffset p m (encTuple row)).bind fun
    | none => some (p, none)
    | some o => finishInsert p o m (encTuple row) rid

/-- The smallest offset among the other rows (342-349). -/
def minOther (is : List Info) (i : Nat) : Nat := (is.eraseIdx i).foldl (fun a x => min a x.off) PS

/-- The in-place branch of `update_tuple` (312-338): the new bytes over the old ones, the rest zeroed. -/
def updateInPlace (p : Page) (i : Nat) (e : Info) (m : Meta) (bs : List Byte) : Page :=
  { p with
    info := p.info.set i ⟨e.off, bs.length, m⟩
    data := splice (splice p.data e.off bs) (e.off + bs.length) (zeros (e.size - bs.length)) }

/-- The relocating branch of `update_tuple` (358-378): the old bytes zeroed, the row rewritten below all the others. -/
def updateMoved (p : Page) (i : Nat) (e : Info) (m : Meta) (bs : List Byte) : Page :=
  { p with
    info := p.info.set i ⟨minOther p.info i - bs.length, bs.length, m⟩
    data := splice (splice p.data e.off (zeros e.size)) (minOther p.info i - bs.length) bs }

/-- `update_tuple` (293-379). Rows of 65536 bytes and more wrap the `u16` size: the copy of a wrapped size panics, and so the outer
`none` covers them when the wrapped size would be accepted. A directory entry never points outside the page, so the checks of lines
322, 329, 361 and 371 are taken as passed only when they hold; otherwise this is `none`, which C32 shows does not happen. -/
def update (p : Page) (m : Meta) (row : List Value) (i : Nat) : Option (Page × Bool) :=
  if p.num ≤ i then some (p, false)
  else (p.info[i]?).bind fun e =>
    if (encTuple row).length % 65536 ≤ e.size then
      if (encTuple row).length < 65536 ∧ e.off + e.size ≤ PS then some (updateInPlace p i e m (encTuple row), true) else none
    else if minOther p.info i - (encTuple row).length % 65536 < footprint p % 65536 then some (p, false)
    else if (encTuple row).length < 65536 ∧ e.off + e.size ≤ PS ∧ minOther p.info i ≤ PS then
      some (updateMoved p i e m (encTuple row), true)
    else none

/-- The number of deleted rows after a metadata change (423-435). -/
def newDeleted (old new : Meta) (n : Nat) : Nat :=
  if !old.deleted && new.deleted then n + 1 else if old.deleted && !new.deleted then n - 1 else n

/-- `update_tuple_meta` (382-447): the directory entry in memory only. -/
def updateMeta (p : Page) (m : Meta) (i : Nat) : Option (Page × Bool) :=
  if p.num ≤ i then some (p, false)
  else (p.info[i]?).map fun e => ({ p with info := p.info.set i { e with md := m }, ndel := newDeleted e.md m p.ndel }, true)

/-- `set_next_page_id` (547-550): the header in memory only. -/
def setNext (p : Page) (id : Nat) : Page := { p with next := id }
/-- `set_prev_page_id` (552-555): the header in memory only. -/
def setPrev (p : Page) (id : Nat) : Page := { p with prev := id }

/-- `get_tuple` (459-509); `none` is every error. The copy of the metadata (496-504) is the identity on a 64-bit machine. A slice out
of the page (a panic) counts as an error here; C32 shows it does not happen. -/
def get (p : Page) (r : Rid) (allowDeleted : Bool) : Option (Meta × List Value) :=
  if r.page ≠ p.id then none
  else (p.info[r.slot]?).bind fun e =>
    if e.md.deleted && !allowDeleted then none
    else if e.off + e.size ≤ PS then (decTuple (slice p.data e.off e.size)).map fun v => (e.md, v.1) else none

/-- `get_tuple_meta` (512-533). -/
def getMeta (p : Page) (i : Nat) : Option Meta := if p.num ≤ i then none else (p.info[i]?).map (·.md)

/-- The directory loop of `deserialize` (720-742): the metadata's length is recomputed by encoding it again. `none`: an error, or a
slice out of the page. -/
def readInfos (bytes : List Byte) : Nat → Nat → Option (List Info × Nat)
  | 0, o => some ([], o)
  | n + 1, o => (readLE 2 (bytes.drop o)).bind fun a => (readLE 2 (bytes.drop (o + 2))).bind fun s =>
    (decMeta (bytes.drop (o + 4))).bind fun m =>
      (readInfos bytes n (o + 4 + (encMeta m.1).length)).map fun r => (⟨a.1, s.1, m.1⟩ :: r.1, r.2)

/-- `TablePageHeader::deserialize` (157-210), at offset 1; the directory and the bytes are filled in later. -/
def readHeader (bytes : List Byte) : Option Page :=
  (readLE 8 (bytes.drop 1)).bind fun a => (readLE 8 (bytes.drop 9)).bind fun b => (readLE 8 (bytes.drop 17)).bind fun c =>
    (readLE 2 (bytes.drop 25)).bind fun d => (readLE 2 (bytes.drop 27)).map fun e =>
      { id := a.1, next := b.1, prev := c.1, num := d.1, ndel := e.1, info := [], data := bytes }

/-- `deserialize` (677-804); `none` is every error and panic. The end marker is accepted at 41, where the directory ends, or in the last
four bytes. -/
def deserialize (bytes : List Byte) : Option Page :=
  if bytes.head? ≠ some 2 then none
  else (readHeader bytes).bind fun h =>
    if slice bytes 29 4 ≠ magic then none
    else (readInfos bytes h.num 33).bind fun r =>
      if slice bytes 41 4 = endMagic ∨ (r.2 + 4 ≤ bytes.length ∧ slice bytes r.2 4 = endMagic)
          ∨ slice bytes (bytes.length - 4) 4 = endMagic
      then some { h with info := r.1 } else none

/-- `set_data` at offset 0 (1200-1210): the bytes only; neither the header nor the directory is read from them. -/
def setData (p : Page) (bytes : List Byte) : Page := { p with data := splice p.data 0 bytes }

/-- How the buffer pool brings a page back from disk (buffer_pool_manager_async.rs, `create_page_from_data`, 665-718): a new page of
the type, then `set_data`. -/
def reload (id : Nat) (bytes : List Byte) : Page := setData (new id) bytes

/-! ### Histories -/

/-- An operation on a page. -/
inductive Op where
  | insert (m : Meta) (row : List Value) (rid : Rid)
  | insertWithRid (m : Meta) (row : List Value) (rid : Rid)
  | update (m : Meta) (row : List Value) (slot : Nat)
  | updateMeta (m : Meta) (slot : Nat)
  | setNext (id : Nat)
  | setPrev (id : Nat)

/-- Run one; the result says whether it was accepted. -/
def step (p : Page) : Op → Option (Page × Bool)
  | .insert m row rid => (insert p m row rid).map fun r => (r.1, r.2.isSome)
  | .insertWithRid m row rid => (insertWithRid p m row rid).map fun r => (r.1, r.2.isSome)
  | .update m row i => update p m row i
  | .updateMeta m i => updateMeta p m i
  | .setNext id => some (setNext p id, true)
  | .setPrev id => some (setPrev p id, true)

/-- Run a history; the results say which operations were accepted. -/
def run (p : Page) : List Op → Option (Page × List Bool)
  | [] => some (p, [])
  | o :: os => (step p o).bind fun r => (run r.1 os).map fun q => (q.1, r.2 :: q.2)

end Verif.TablePage

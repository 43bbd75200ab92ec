import Verif.TablePage.Model

/-!
# What a user expects of a table page: a list of rows

A page is a list of rows with their metadata, addressed by slot number. An accepted insert appends, an accepted update replaces, and a
refused operation changes nothing.
-/

namespace Verif.TablePage.Spec

open Verif.Wire Verif.TablePage
open Verif.Wal (Rid)

/-- A row and its metadata. -/
abbrev Row := Meta × List Value

/-- The rows after one operation. -/
def apply (rows : List Row) (o : Op) (accepted : Bool) : List Row :=
  if accepted = false then rows else
  match o with
  | .insert m row _ => rows ++ [(m, row)]
  | .insertWithRid m row _ => rows ++ [(m, row)]
  | .update m row i => rows.set i (m, row)
  | .updateMeta m i => match rows[i]? with
    | some r => rows.set i (m, r.2)
    | none => rows
  | .setNext _ => rows
  | .setPrev _ => rows

/-- The rows after a history, given which operations were accepted. -/
def rowsAfter (rows : List Row) : List Op → List Bool → List Row
  | o :: os, b :: bs => rowsAfter (apply rows o b) os bs
  | _, _ => rows

/-- What reading a slot should give. -/
def read (id : Nat) (rows : List Row) (r : Rid) (allowDeleted : Bool) : Option Row :=
  if r.page ≠ id then none
  else (rows[r.slot]?).bind fun x => if x.1.deleted && !allowDeleted then none else some x

/-- The serialized size of a row. -/
def rowSize (row : List Value) : Nat := (encTuple row).length

/-- Whether, after an accepted update, the newest row may no longer be the lowest one on the page: an update that needs more room moves
the row below all the others. -/
def stretch (rows : List Row) (s : Bool) (o : Op) (accepted : Bool) : Bool :=
  match o with
  | .update _ row i =>
    if accepted = true ∧ (rows[i]?).any (fun r => decide (rowSize r.2 < rowSize row)) = true then decide (i + 1 ≠ rows.length) else s
  | _ => s

/-- An insert. -/
def isInsert : Op → Bool
  | .insert .. => true
  | .insertWithRid .. => true
  | _ => false

/-- No row is inserted after an older row has grown (until the newest row itself grows again). -/
def Tame (rows : List Row) (s : Bool) : List Op → List Bool → Prop
  | o :: os, b :: bs => (isInsert o = true → b = true → s = false) ∧ Tame (apply rows o b) (stretch rows s o b) os bs
  | _, _ => True

/-- The numbers in the operation fit their types. -/
def OpOk : Op → Prop
  | .insert m row _ => m.ok ∧ TupleOk row
  | .insertWithRid m row _ => m.ok ∧ TupleOk row
  | .update m row _ => m.ok ∧ TupleOk row
  | .updateMeta m _ => m.ok
  | .setNext id => id < 2 ^ 64
  | .setPrev id => id < 2 ^ 64

/-- The row written by an operation, if any, is under 64 KiB. -/
def OpSmall : Op → Prop
  | .update _ row _ => rowSize row < 65536
  | _ => True

end Verif.TablePage.Spec

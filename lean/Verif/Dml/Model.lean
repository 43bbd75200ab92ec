import Verif.Dml.Heap
import Verif.Sql.Cast
import Verif.Sql.Strings

/-!
# INSERT, UPDATE and DELETE (`src/sql/execution/executors/{insert,update,delete}_executor.rs`, `src/sql/planner/{plan_builder,schema_manager}.rs`)

One statement of a running transaction on one table. Table locks, the undo log and the write set are modelled in `Verif.Locks` and `Verif.Mvcc`. Expressions are already parsed.
-/

namespace Verif.Dml

open Verif.Wire Verif.Bytes Verif.Sql Verif.Exec

/-- Running a loop to its end: the last state and how it ended. -/
inductive Ran {σ : Type} (f : σ → σ ⊕ End) : σ → σ → End → Prop where
  | stop {s e} : f s = .inr e → Ran f s s e
  | step {s s' t e} : f s = .inl s' → Ran f s' t e → Ran f s t e

/-- The state of a DELETE or UPDATE: the table, the position of the scan, the rows changed. -/
structure Run where
  heap : Heap
  pos : Pos
  count : Nat

/-- The filter over the table scan (plan_builder.rs:2616-2632, 3202-3218); without WHERE there is no filter. `none` is a panic. -/
def keep (p : Option Expr) (row : Row) : Option Bool := match p with
  | none => some true
  | some p => whereKeeps p row

/-- One round of a statement which changes the rows of a filtered scan (delete_executor.rs:301-319, update_executor.rs:119-177). The scan reads the newest version of each row,
whoever wrote it (`TableScanExecutor` makes its iterator without a transaction). -/
def changeStep (d : Disk) (p : Option Expr) (change : Heap → Rid → Row → Except End Heap) (s : Run) : Run ⊕ End := match s.heap.look d (s.heap.get d) s.pos with
  | .ended => .inr .done
  | .moved q => .inl { s with pos := q }
  | .found _ r slot q => match keep p slot.row with
    | none => .inr .panic
    | some false => .inl { s with pos := q }
    | some true => match change s.heap r slot.row with
      | .ok h => .inl ⟨h, q, s.count + 1⟩
      | .error e => .inr e

/-- `DeleteExecutor::next` (delete_executor.rs:266-344). -/
def deleteStep (d : Disk) (txn : Nat) (p : Option Expr) : Run → Run ⊕ End := changeStep d p fun h r _ => match h.delete d txn r with
  | some h' => .ok h'
  | none => .error .err

/-- The assignments of an UPDATE, each evaluated on the old row (update_executor.rs:124-153, assignment_expression.rs). The value is stored as it comes, without a cast. -/
def assign (old : Row) : List (Nat × Expr) → Row → Except End Row
  | [], row => .ok row
  | (i, e) :: rest, row => match eval false (rowEnv old) e with
    | .ok v => assign old rest (row.set i v)
    | .overflow => .error .panic
    | _ => .error .err

/-- `UpdateExecutor::next` (update_executor.rs:81-199). -/
def updateStep (d : Disk) (txn : Nat) (as : List (Nat × Expr)) (p : Option Expr) : Run → Run ⊕ End := changeStep d p fun h r row => match assign row as row with
  | .error e => .error e
  | .ok row' => match h.update d txn r row' with
    | some h' => .ok h'
    | none => .error .err

/-- A column of a table (column.rs). `DEFAULT CURRENT_TIMESTAMP` is left out. -/
structure Column where
  name : String
  ty : Nat
  len : Option Nat := none
  pk : Bool := false
  notNull : Bool := false
  unique : Bool := false
  check : Option Expr := none
  default : Option Value := none
  fk : Option (String × String) := none

/-- `cast_to` where the conversions `castTo` leaves out are given by `ext`. -/
def cast (ext : Value → Nat → Option Value) (v : Value) (t : Nat) : Option Value := match castTo v t with
  | .ok w => some w
  | .err => none
  | .out => ext v t

/-- `ValueRow::evaluate` (values_plan.rs:111-163): the expressions see a row of NULLs. A value is cast when its type is another. -/
def valuesRow (ext : Value → Nat → Option Value) (ρ : Env) : List Column → List Expr → Except End Row
  | _, [] => .ok []
  | [], _ :: _ => .error .err
  | c :: cs, e :: es => match eval false ρ e with
    | .ok v => (match (if ty v = c.ty then some v else cast ext v c.ty) with
      | some w => (valuesRow ext ρ cs es).map (w :: ·)
      | none => .error .err)
    | .overflow => .error .panic
    | _ => .error .err

/-- The row of NULLs. -/
def nulls (cols : List Column) : Row := cols.map fun c => newTyped .null c.ty

/-- The rows of VALUES, or the first error. -/
def valuesRows (ext : Value → Nat → Option Value) (cols : List Column) : List (List Expr) → Except End (List Row)
  | [] => .ok []
  | es :: rest => match valuesRow ext (rowEnv (nulls cols)) cols es with
    | .error e => .error e
    | .ok r => (valuesRows ext cols rest).map (r :: ·)

/-- `cast_value_to_type` (schema_manager.rs:1431-1439): a value that cannot be cast becomes NULL. -/
def castOrNull (ext : Value → Nat → Option Value) (v : Value) (t : Nat) : Value := (cast ext v t).getD (newTyped .null t)

/-- `detect_name_based_mapping` (schema_manager.rs:1348-1380). -/
def byName (names : List String) (cols : List Column) : Bool := !names.isEmpty && names.all fun n => cols.any fun c => n == c.name

/-- `map_values_to_schema` (schema_manager.rs:1280-1332, 1397-1416). A row shorter than the names of its columns, on which the code panics, gives NULL here. -/
def mapRow (ext : Value → Nat → Option Value) (names : List String) (cols : List Column) (row : Row) : Row :=
  let value (c : Column) : Option Value → Value := fun
    | some v => castOrNull ext v c.ty
    | none => newTyped .null c.ty
  if byName names cols then cols.map fun c => value c ((names.findIdx? (· == c.name)).bind fun i => row[i]?)
  else ((List.range cols.length).zip cols).map fun x => value x.2 row[x.1]?

/-- What a foreign key check reads: the columns of a table and the rows the transaction sees there, given the table the statement inserts into. -/
abbrev Seen := Heap → String → Option (List Column × List Row)

/-- `validate_foreign_key_reference_with_context` (insert_executor.rs:360-407): an unknown table or column is an error, so the row is refused. -/
def refers (seen : String → Option (List Column × List Row)) (v : Value) (fk : String × String) : Bool := match seen fk.1 with
  | none => false
  | some (cols, rows) => match cols.findIdx? (·.name == fk.2) with
    | none => false
    | some i => rows.any fun r => match r[i]? with
      | some w => valueEq w v
      | none => false

/-- `validate_foreign_key_constraints_with_context` (insert_executor.rs:289-329). -/
def fkOk (seen : String → Option (List Column × List Row)) : List Column → Row → Bool
  | [], _ => true
  | c :: cs, row => match c.fk with
    | none => fkOk seen cs row.tail
    | some k => match row with
      | [] => false
      | v :: vs => (isNull v || refers seen v k) && fkOk seen cs vs

/-- `expand_values_for_schema` (table_heap.rs:1229-1301) with the counter of `get_next_auto_increment_value` (1306-1312), one for all tables, wrapping at 2^31. -/
def expand : List Column → Row → Int → Option (Row × Int)
  | [], [], n => some ([], n)
  | [], _ :: _, _ => none
  | c :: cs, v :: vs, n =>
    if isNull v && c.pk then (expand cs vs (wrapI32 (n + 1))).map fun x => (new (.integer n) :: x.1, x.2)
    else (expand cs vs n).map fun x => (v :: x.1, x.2)
  | c :: cs, [], n =>
    if c.pk then (expand cs [] (wrapI32 (n + 1))).map fun x => (new (.integer n) :: x.1, x.2)
    else match c.default with
      | some v => (expand cs [] n).map fun x => (v :: x.1, x.2)
      | none => if c.notNull then none else (expand cs [] n).map fun x => (newTyped .null c.ty :: x.1, x.2)

/-- The state of an INSERT: the table, the counter, the rows inserted. -/
structure Ins where
  heap : Heap
  next : Int
  count : Nat

/-- The loop of `InsertExecutor::next` over the rows of its child (insert_executor.rs:614-656) with `insert_tuple_from_values_with_catalog` (transactional_table_heap.rs:337-386),
whose checks of NOT NULL, CHECK, PRIMARY KEY and UNIQUE are commented out (360-372). -/
def insertRows (d : Disk) (ext : Value → Nat → Option Value) (seen : Seen) (txn : Nat) (names : List String) (cols : List Column) : List Row → Ins → Ins × End
  | [], s => (s, .done)
  | row :: rows, s =>
    let row := mapRow ext names cols row
    if fkOk (seen s.heap) cols row then match expand cols row s.next with
      | none => (s, .err)
      | some (row, n) => match s.heap.insert d ⟨⟨txn, false, false⟩, row⟩ with
        | .ok h _ => insertRows d ext seen txn names cols rows ⟨h, n, s.count + 1⟩
        | .err h => ({ s with heap := h, next := n }, .err)
    else (s, .err)

/-- What an INSERT inserts: rows of expressions, or what a query gives. Of the query only its SELECT is looked at (plan_builder.rs:3124-3138), so its LIMIT, which
stands outside, does nothing (nor do ORDER BY and OFFSET, which are left out): `rows` and `fin` are the rows and the end of the SELECT. -/
inductive Source where
  | values (rows : List (List Expr))
  | select (names : List String) (types : List Nat) (rows : List Row) (fin : End) (limit : Option Nat)

/-- The columns an INSERT names; all of them when it names none (plan_builder.rs:3101-3121). -/
def listed (cols : List Column) : List String → Option (List Column)
  | [] => some cols
  | ns => ns.mapM fun n => cols.find? (·.name == n)

/-- `build_insert_plan` and the first part of `InsertExecutor::next` (plan_builder.rs:3079-3148, 3291-3316, schema_manager.rs:815-853, insert_executor.rs:602-611): the names of the
columns of the source and all its rows. -/
def sourceRows (ext : Value → Nat → Option Value) (cols : List Column) (into : List String) (src : Source) : Except End (List String × List Row) := match listed cols into with
  | none => .error .err
  | some target => match src with
    | .values rows => if rows.all (·.length == target.length) then (valuesRows ext target rows).map fun rs => (target.map (·.name), rs) else .error .err
    | .select names types rows fin _ => if types = target.map (·.ty) then (match fin with
      | .done => .ok (names, rows)
      | e => .error e) else .error .err

/-- An INSERT statement. -/
def insertStmt (d : Disk) (ext : Value → Nat → Option Value) (seen : Seen) (txn : Nat) (cols : List Column) (into : List String) (src : Source) (s : Ins) : Ins × End :=
  match sourceRows ext cols into src with
  | .error e => (s, e)
  | .ok (names, rows) => insertRows d ext seen txn names cols rows s

end Verif.Dml

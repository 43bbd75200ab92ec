import Verif.Whole.Typed
import Verif.Sql.ParseSpec

/-!
# What a session means, in the values of SQL

A database is a list of rows of NULLs, integers, truth values and texts for each table. What an expression means is written down in `Verif.Sql.ParseSpec`: `den` is its value on a row;
`Accepted` and `Safe` say which expressions Ferrite accepts, and on which rows it can compute them. A row on which a WHERE clause cannot be computed is left out.
-/

namespace Verif.Whole

open Verif.Wire Verif.Bytes Verif.Sql Verif.Exec Verif.Dml
open Verif.Catalog (Cat Tab Col ColDef FkDef ObjName)

/-- A row of a table. -/
abbrev TRow := List SV

/-- What a client reads in a value. -/
def sv (v : Value) : SV := match val v with
  | .tinyInt i => .int i
  | .smallInt i => .int i
  | .integer i => .int i
  | .bigInt i => .int i
  | .boolean b => .bool b
  | .varLen s => .str s
  | _ => .null

/-- What a client reads in a row. -/
def reads (row : Row) : TRow := row.map sv

/-- The columns of the tables, and their rows. In a transaction the rows it has written are marked, `before` are the rows at its begin, and `again` says that it has deleted a row it had
written. -/
structure TDb where
  tab : Catalog.Name → Option (List (Catalog.Name × Nat))
  now : Catalog.Name → List (TRow × Bool)
  before : Option (Catalog.Name → List TRow)
  again : Prop

/-- Nothing has been created. -/
def TDb.new : TDb := ⟨fun _ => none, fun _ => [], none, False⟩

/-- The rows a client sees. -/
def TDb.rows (T : TDb) (n : Catalog.Name) : List TRow := (T.now n).map (·.1)

/-- The types of columns. -/
def types (cols : List (Catalog.Name × Nat)) : List Nat := cols.map (·.2)

open Classical in
/-- The WHERE clause can be computed on the row and is TRUE, or there is none. -/
noncomputable def holds (ts : List Nat) (p : Option Ast) (row : TRow) : Bool := match p with
  | none => true
  | some a => decide (Safe ts row a ∧ den row a = some (.bool true))

/-- The value can be kept in a column of the type: an integer must be in its range. -/
def Keeps (t : Nat) (s : SV) : Prop := ∀ i, s = .int i → Fits t i

/-- The row an INSERT makes of the expressions `es`. -/
def Made (ts : List Nat) (es : List Ast) (row : TRow) : Prop := es.length = ts.length ∧ row.length = ts.length ∧
  ∀ (k : Nat) a t, es[k]? = some a → ts[k]? = some t → ∃ s, den [] a = some s ∧ row[k]? = some s ∧ Keeps t s

/-- `k` is the first place of `j` in the list. -/
def FirstAt (into : List Nat) (j k : Nat) : Prop := into[k]? = some j ∧ ∀ i, i < k → into[i]? ≠ some j

/-- The row an INSERT with a list of columns makes of the expressions `es`: a column that is listed has the value of the expression at its place in the list, the first one if it is listed
more than once, and the others are NULL. -/
def MadeInto (ts into : List Nat) (es : List Ast) (row : TRow) : Prop := es.length = into.length ∧ row.length = ts.length ∧ ∀ (j : Nat) t, ts[j]? = some t →
  (∀ (k : Nat) a, FirstAt into j k → es[k]? = some a → ∃ s, den [] a = some s ∧ row[j]? = some s ∧ Keeps t s) ∧ (j ∉ into → row[j]? = some .null)

/-- The types of the columns that are listed. -/
def typesAt (ts into : List Nat) : List Nat := into.filterMap (ts[·]?)

/-- The row after the assignments: each column has the value of the last assignment to it, computed on the old row, or its old value. -/
def after (as : List (Nat × Ast)) (row : TRow) : TRow := row.mapIdx fun i s => match (as.filter (·.1 == i)).getLast? with
  | some x => (den row x.2).getD .null
  | none => s

/-- The assignments that count can be computed on the row. -/
def Computes (ts : List Nat) (as : List (Nat × Ast)) (row : TRow) : Prop := ∀ (i : Nat) x, i < ts.length → (as.filter (·.1 == i)).getLast? = some x → Safe ts row x.2

/-- A value that cannot be computed or kept. -/
def BadValue (ts : List Nat) (vals : List (List Ast)) : Prop := ∃ es ∈ vals, ∃ (k : Nat) (a : Ast) (t : Nat), es[k]? = some a ∧ ts[k]? = some t ∧
  (¬Safe [] [] a ∨ ∃ s, den [] a = some s ∧ ¬Keeps t s)

/-- The table cannot take a row. -/
def NoRoom (d : Disk) : Prop := ∃ h slot h', Heap.insert d h slot = .err h'

/-- An assignment cannot be computed on the row, or the new row does not fit in the place of the old one. -/
def NoChange (d : Disk) (ts : List Nat) (as : List (Nat × Ast)) (row : TRow) : Prop :=
  (∃ x ∈ as, ¬Safe ts row x.2) ∨ ∃ row' slots i info, reads row' = after as row ∧ d.rewrite slots i ⟨info, row'⟩ = false

/-- The rows after an UPDATE; the changed ones are marked. -/
noncomputable def updated (ts : List Nat) (as : List (Nat × Ast)) (p : Option Ast) (rows : List (TRow × Bool)) : List (TRow × Bool) := rows.map fun x => if holds ts p x.1 then (after as x.1, true) else x

/-- What a statement does that is answered with a number. An UPDATE finds no row the transaction has written. -/
inductive Done (ts : List Nat) : TStmt → List (TRow × Bool) → Nat → List (TRow × Bool) → Prop where
  | insert {vals rows} {new : List TRow} : new.length = vals.length → (∀ (i : Nat) es row, vals[i]? = some es → new[i]? = some row → Made ts es row) →
    Done ts (.insert vals) rows vals.length (rows ++ new.map (·, true))
  | insertInto {into vals rows} {new : List TRow} : new.length = vals.length → (∀ (i : Nat) es row, vals[i]? = some es → new[i]? = some row → MadeInto ts into es row) →
    Done ts (.insertInto into vals) rows vals.length (rows ++ new.map (·, true))
  | delete {p rows} : Done ts (.delete p) rows (rows.filter fun x => holds ts p x.1).length (rows.filter fun x => !holds ts p x.1)
  | update {as p rows} : (∀ x ∈ rows, holds ts p x.1 = true → x.2 = false ∧ Computes ts as x.1) →
    Done ts (.update as p) rows (rows.filter fun x => holds ts p x.1).length (updated ts as p rows)

/-- When a statement outside a transaction may fail; a DELETE never does. -/
inductive MayFailT (d : Disk) (ts : List Nat) : TStmt → List (TRow × Bool) → Prop where
  | insert {vals rows} : BadValue ts vals ∨ NoRoom d → MayFailT d ts (.insert vals) rows
  | insertInto {into vals rows} : BadValue (typesAt ts into) vals ∨ NoRoom d → MayFailT d ts (.insertInto into vals) rows
  | update {as p rows x} : x ∈ rows → holds ts p x.1 = true → NoChange d ts as x.1 → MayFailT d ts (.update as p) rows

/-- What a statement in a transaction does that is answered with an error: its work up to the row on which it failed. -/
inductive FailedT (d : Disk) (ts : List Nat) : TStmt → List (TRow × Bool) → List (TRow × Bool) → Prop where
  | insert {vals rows} {new : List TRow} : (new = [] ∨ new.length < vals.length) → (∀ (i : Nat) es row, vals[i]? = some es → new[i]? = some row → Made ts es row) →
    BadValue ts vals ∨ NoRoom d → FailedT d ts (.insert vals) rows (rows ++ new.map (·, true))
  | insertInto {into vals rows} {new : List TRow} : (new = [] ∨ new.length < vals.length) →
    (∀ (i : Nat) es row, vals[i]? = some es → new[i]? = some row → MadeInto ts into es row) →
    BadValue (typesAt ts into) vals ∨ NoRoom d → FailedT d ts (.insertInto into vals) rows (rows ++ new.map (·, true))
  | update {as p a x b} : (∀ y ∈ a, holds ts p y.1 = true → y.2 = false ∧ Computes ts as y.1) → holds ts p x.1 = true → (x.2 = true ∨ NoChange d ts as x.1) →
    FailedT d ts (.update as p) (a ++ x :: b) (updated ts as p a ++ x :: b)

/-- The expressions Ferrite accepts, and as many values as columns, and columns that exist. -/
def TStmt.Fits (ts : List Nat) : TStmt → Prop
  | .insert vals => ∀ es ∈ vals, es.length = ts.length ∧ ∀ a ∈ es, Accepted [] a
  | .insertInto into vals => (∀ i ∈ into, i < ts.length) ∧ ∀ es ∈ vals, es.length = into.length ∧ ∀ a ∈ es, Accepted [] a
  | .delete p => ∀ a, p = some a → Accepted ts a
  | .update as p => (∀ a, p = some a → Accepted ts a) ∧ ∀ x ∈ as, x.1 < ts.length ∧ Accepted ts x.2

/-- The statement is a DELETE of a row the transaction has written. -/
def TStmt.OnOwn (ts : List Nat) (s : TStmt) (rows : List (TRow × Bool)) : Prop := ∃ p, s = .delete p ∧ ∃ x ∈ rows, x.2 = true ∧ holds ts p x.1 = true

/-- The database after a statement has changed the rows of a table. Outside a transaction nothing is marked. -/
def TDb.put (T : TDb) (n : Catalog.Name) (s : TStmt) (rows : List (TRow × Bool)) : TDb where
  tab := T.tab
  now m := if m = n then (match T.before with
    | none => rows.map fun x => (x.1, false)
    | some _ => rows) else T.now m
  before := T.before
  again := T.again ∨ (T.before.isSome = true ∧ s.OnOwn (types ((T.tab n).getD [])) (T.now n))

/-- The order of values: NULL is first, FALSE comes before TRUE. -/
def Less : SV → SV → Prop
  | .null, .null => False
  | .null, _ => True
  | .int i, .int j => i < j
  | .bool a, .bool b => a = false ∧ b = true
  | .str s, .str t => before s t = true
  | _, _ => False

/-- Row `a` may stand before row `b`. -/
def InOrder : List (Nat × Dir) → TRow → TRow → Prop
  | [], _, _ => True
  | (i, d) :: rest, a, b => ∃ x y, a[i]? = some x ∧ b[i]? = some y ∧ ((d = .asc ∧ Less x y) ∨ (d = .desc ∧ Less y x) ∨ (x = y ∧ InOrder rest a b))

/-- The part of the list OFFSET and LIMIT ask for. -/
def pageOf (limit offset : Option Nat) (rows : List TRow) : List TRow :=
  let rest := match offset with | some n => rows.drop n | none => rows
  match limit with | some n => rest.take n | none => rest

/-- The values of the columns `gs`. -/
def keyT (gs : List Nat) (row : TRow) : TRow := gs.filterMap (row[·]?)

/-- An integer if the value is one. -/
def intOf : SV → Option Int
  | .int z => some z
  | _ => none

/-- The integers in a column. -/
def intsAt (i : Nat) (rows : List TRow) : List Int := rows.filterMap fun row => (row[i]?).bind intOf

/-- `v` is the aggregate of the rows. NULLs count for nothing, except in `COUNT(*)`. -/
def AggOf (rows : List TRow) (v : SV) : TAgg → Prop
  | .countStar => v = .int rows.length
  | .count i => v = .int (rows.countP fun row => row[i]? != some .null)
  | .sum i => if intsAt i rows = [] then v = .null else v = .int (intsAt i rows).sum
  | .min i => if intsAt i rows = [] then v = .null else ∃ m ∈ intsAt i rows, v = .int m ∧ ∀ z ∈ intsAt i rows, m ≤ z
  | .max i => if intsAt i rows = [] then v = .null else ∃ m ∈ intsAt i rows, v = .int m ∧ ∀ z ∈ intsAt i rows, z ≤ m

/-- When Ferrite can compute the aggregate of the rows, in a table with columns of these types: a sum is computed in the type of the column, and `COUNT(x)` is right only without NULLs. -/
def AggFits (ts : List Nat) (rows : List TRow) : TAgg → Prop
  | .countStar => rows.length < 2 ^ 63
  | .count i => rows.length < 2 ^ 63 ∧ ∀ row ∈ rows, row[i]? ≠ some .null
  | .sum i => ∀ t, ts[i]? = some t → ∀ p, p <+: intsAt i rows → lo t ≤ p.sum ∧ p.sum ≤ hi t
  | .min _ | .max _ => True

/-- The rows with these values of the columns `gs`. -/
def groupAt (gs : List Nat) (rows : List TRow) (k : TRow) : List TRow := rows.filter fun row => decide (keyT gs row = k)

/-- `l` is the groups of the rows: a row for each different value of the columns `gs`, which are followed by the aggregates of the rows that have it. Without such columns there is one
row, even if there are no rows. -/
structure GroupsOf (gs : List Nat) (fs : List TAgg) (rows l : List TRow) : Prop where
  once : (l.map (·.take gs.length)).Nodup
  all : ∀ k, k ∈ l.map (·.take gs.length) ↔ k ∈ rows.map (keyT gs) ∨ gs = [] ∧ k = []
  aggs : ∀ g ∈ l, g.length = gs.length + fs.length ∧ ∀ (i : Nat) a, fs[i]? = some a → ∃ v, g[gs.length + i]? = some v ∧ AggOf (groupAt gs rows (g.take gs.length)) v a

/-- Ferrite tells the values of the expression on the rows apart: all are NULL, or none is (it takes the bytes of `(NULL, -1)` and `(-1, NULL)` for the same), and texts are shorter
than 4 GiB. -/
def ToldApart (rows : List TRow) (a : Ast) : Prop := (∀ row ∈ rows, den row a = some .null) ∨
  ∀ row ∈ rows, den row a ≠ some .null ∧ ∀ s, den row a = some (.str s) → s.length < 2 ^ 32

/-- The rows have the same value at each of these pairs of places, and it is not NULL. -/
def Equals (on : List (Nat × Nat)) (a b : TRow) : Prop := ∀ p ∈ on, ∃ x, x ≠ .null ∧ a[p.1]? = some x ∧ b[p.2]? = some x

open Classical in
/-- The rows of a join: for each row on the left its pairs with the rows on the right that are equal to it at these places. A LEFT JOIN has the rows on the left that have no such pair where
their pairs would be, with NULLs for the `m` columns on the right; a RIGHT or FULL JOIN has the rows without a pair after all others, with NULLs for the `n` columns on the left or the
`m` on the right. -/
noncomputable def joined (kind : TJoin) (on : List (Nat × Nat)) (n m : Nat) (ls rs : List TRow) : List TRow :=
  let pairs := fun a => (rs.filter fun b => decide (Equals on a b)).map (a ++ ·)
  let alone := (rs.filter fun b => decide (∀ a ∈ ls, ¬Equals on a b)).map (List.replicate n .null ++ ·)
  match kind with
  | .inner => ls.flatMap pairs
  | .left => ls.flatMap fun a => if ∀ b ∈ rs, ¬Equals on a b then [a ++ List.replicate m .null] else pairs a
  | .right => ls.flatMap pairs ++ alone
  | .full => ls.flatMap pairs ++ (alone ++ (ls.filter fun a => decide (∀ b ∈ rs, ¬Equals on a b)).map (· ++ List.replicate m .null))

/-- The columns of a FROM, if the tables and columns named in it are there. -/
def TDb.cols (T : TDb) : TFrom → Option (List (Catalog.Name × Nat))
  | .table n => T.tab n
  | .join _ l n on more => match T.cols l, T.tab n with
    | some a, some b => if ∀ p ∈ on :: more, p.1 < a.length ∧ p.2 < b.length then some (a ++ b) else none
    | _, _ => none

/-- The rows of a FROM. -/
noncomputable def TDb.sees (T : TDb) : TFrom → List TRow
  | .table n => T.rows n
  | .join kind l n on more => joined kind (on :: more) ((T.cols l).getD []).length ((T.tab n).getD []).length (T.sees l) (T.rows n)

/-- The rows can be joined: Ferrite loses the rows on the right of a RIGHT or FULL JOIN when there are none on the left, and takes equal ones for one. -/
def TDb.Joins (T : TDb) : TFrom → Prop
  | .table _ => True
  | .join kind l n _ _ => T.Joins l ∧ ((kind = .right ∨ kind = .full) → T.sees l ≠ [] ∧ (T.rows n).Nodup)

/-- What a request does. -/
inductive NextT (d : Disk) : TDb → TReq → Reply → TDb → Prop where
  | created {T n cols ine} : T.tab n = none → T.now n = [] → NextT d T (.create n cols ine) .ok { T with tab := fun m => if m = n then some cols else T.tab m }
  | exists_ {T n cols} : (T.tab n).isSome = true → NextT d T (.create n cols false) .error T
  /-- With IF NOT EXISTS; the columns of the table stay as they are. -/
  | known {T n cols} : (T.tab n).isSome = true → NextT d T (.create n cols true) .ok T
  | done {T n s cols k rows} : T.tab n = some cols → s.Fits (types cols) → Done (types cols) s (T.now n) k rows → NextT d T (.query n s) (.count k) (T.put n s rows)
  | failed {T n s cols} : T.tab n = some cols → T.before = none → MayFailT d (types cols) s (T.now n) → NextT d T (.query n s) .error T
  | failedWithin {T n s cols rows} : T.tab n = some cols → T.before.isSome = true → FailedT d (types cols) s (T.now n) rows → NextT d T (.query n s) .error (T.put n s rows)
  | refused {T n s cols} : T.tab n = some cols → ¬s.Fits (types cols) → NextT d T (.query n s) .error T
  | noTable {T n s} : T.tab n = none → NextT d T (.query n s) .error T
  /-- If the rows can be joined, no minus overflows in the WHERE clause, and the items can be computed on the rows on which it is TRUE, the answer is made of these rows, in the order
  asked for or, if none is, in their own. -/
  | select {T f items p order limit offset cols r} : T.cols f = some cols → (∀ a, p = some a → Accepted (types cols) a) → (∀ x ∈ items, Accepted (types cols) x.1) → (∀ k ∈ order, k.1 < cols.length) →
    (T.Joins f → (∀ row ∈ T.sees f, (∀ a, p = some a → Calm (types cols) row a) ∧ (holds (types cols) p row = true → ∀ x ∈ items, Safe (types cols) row x.1)) →
      ∃ out l, r = .rows out ∧ l.Perm ((T.sees f).filter fun row => holds (types cols) p row) ∧ l.Pairwise (InOrder order) ∧
        (order = [] → l = (T.sees f).filter fun row => holds (types cols) p row) ∧ (out.map reads).map (·.map some) = (pageOf limit offset l).map fun row => items.map fun x => den row x.1) →
    NextT d T (.select f items p order limit offset) r T
  | selectRefused {T f items p order limit offset cols} : T.cols f = some cols →
    ¬((∀ a, p = some a → Accepted (types cols) a) ∧ (∀ x ∈ items, Accepted (types cols) x.1) ∧ ∀ k ∈ order, k.1 < cols.length) → NextT d T (.select f items p order limit offset) .error T
  | selectNoTable {T f items p order limit offset} : T.cols f = none → NextT d T (.select f items p order limit offset) .error T
  /-- If the rows can be joined, no minus overflows in the WHERE clause, and the aggregates can be computed (the SUM of no rows, without GROUP BY, is wrong), the answer is made of the groups of the rows on which it is TRUE, in the
  order asked for. -/
  | group {T f gs fs p order limit offset cols r} : T.cols f = some cols → (∀ a, p = some a → Accepted (types cols) a) → (∀ i ∈ gs, i < cols.length) → (∀ a ∈ fs, a.arg < cols.length) →
    (T.Joins f → (∀ row ∈ T.sees f, ∀ a, p = some a → Calm (types cols) row a) →
      (∀ a ∈ fs, ∀ k, AggFits (types cols) (groupAt gs ((T.sees f).filter fun row => holds (types cols) p row) k) a) →
      (gs = [] → ((T.sees f).filter fun row => holds (types cols) p row) = [] → ∀ a ∈ fs, ∀ i, a ≠ .sum i) →
      ∃ out l, r = .rows out ∧ GroupsOf gs fs ((T.sees f).filter fun row => holds (types cols) p row) l ∧ l.Pairwise (InOrder order) ∧ out.map reads = pageOf limit offset l) →
    NextT d T (.group f gs fs p order limit offset) r T
  | groupRefused {T f gs fs p order limit offset cols} : T.cols f = some cols →
    ¬((∀ a, p = some a → Accepted (types cols) a) ∧ (∀ i ∈ gs, i < cols.length) ∧ ∀ a ∈ fs, a.arg < cols.length) → NextT d T (.group f gs fs p order limit offset) .error T
  | groupNoTable {T f gs fs p order limit offset} : T.cols f = none → NextT d T (.group f gs fs p order limit offset) .error T
  /-- If the rows can be joined, no minus overflows in the WHERE clause, the items can be computed on the rows on which it is TRUE, and their values are told apart, the answer is made of the rows of these
  values, each different one once, in the order asked for or, if none is, where it is first. -/
  | distinct {T f items p order limit offset cols r} : T.cols f = some cols → (∀ a, p = some a → Accepted (types cols) a) → (∀ x ∈ items, Accepted (types cols) x.1) →
    (T.Joins f → (∀ row ∈ T.sees f, (∀ a, p = some a → Calm (types cols) row a) ∧ (holds (types cols) p row = true → ∀ x ∈ items, Safe (types cols) row x.1)) →
      (∀ x ∈ items, ToldApart ((T.sees f).filter fun row => holds (types cols) p row) x.1) →
      ∃ (out : List Row) (l l' : List TRow), r = .rows out ∧ l.map (·.map some) = ((T.sees f).filter fun row => holds (types cols) p row).map (fun row => items.map fun x => den row x.1) ∧
        l'.Perm l.eraseDups ∧ l'.Pairwise (InOrder order) ∧ (order = [] → l' = l.eraseDups) ∧ out.map reads = pageOf limit offset l') →
    NextT d T (.distinct f items p order limit offset) r T
  | distinctRefused {T f items p order limit offset cols} : T.cols f = some cols →
    ¬((∀ a, p = some a → Accepted (types cols) a) ∧ ∀ x ∈ items, Accepted (types cols) x.1) → NextT d T (.distinct f items p order limit offset) .error T
  | distinctNoTable {T f items p order limit offset} : T.cols f = none → NextT d T (.distinct f items p order limit offset) .error T
  | begin {T} : T.before = none → NextT d T .begin .ok { T with before := some T.rows }
  | begun {T} : T.before.isSome = true → NextT d T .begin .error T
  | commit {T} : T.before.isSome = true → NextT d T .commit .ok ⟨T.tab, fun m => (T.now m).map fun x => (x.1, false), none, False⟩
  | noCommit {T} : T.before = none → NextT d T .commit .error T
  | rollback {T b} : T.before = some b → NextT d T .rollback .ok ⟨T.tab, fun m => (b m).map (·, false), none, False⟩
  | noRollback {T} : T.before = none → NextT d T .rollback .error T

/-- Requests one after another. -/
inductive NextsT (d : Disk) : TDb → List TCall → TDb → Prop where
  | nil {T} : NextsT d T [] T
  | cons {T x T' xs T''} : NextT d T x.req x.reply T' → NextsT d T' xs T'' → NextsT d T (x :: xs) T''

/-! ## What is asked of a session -/

/-- A WHERE clause: a well-typed truth value. -/
def WellTyped (ts : List Nat) (p : Option Ast) : Prop := ∀ a, p = some a → WT ts a .bool ∧ LitItems a

/-- The statement is well typed: an INSERT has values of the families of the columns, without columns in them; an UPDATE assigns values of the types of the columns, or NULL. -/
def TStmt.Typed (ts : List Nat) : TStmt → Prop
  | .insert vals => ∀ es ∈ vals, (∀ a ∈ es, (∃ f, WT [] a f) ∧ LitItems a) ∧ ∀ (k : Nat) a t, es[k]? = some a → ts[k]? = some t → ∃ f, famOf t = some f ∧ WT [] a f
  | .insertInto into vals => into ≠ [] ∧
    ∀ es ∈ vals, (∀ a ∈ es, (∃ f, WT [] a f) ∧ LitItems a) ∧ ∀ (k : Nat) a t, es[k]? = some a → (typesAt ts into)[k]? = some t → ∃ f, famOf t = some f ∧ WT [] a f
  | .delete p => WellTyped ts p
  | .update as p => WellTyped ts p ∧ ∀ x ∈ as, LitItems x.2 ∧ (∃ f, WT ts x.2 f) ∧ ∀ t, ts[x.1]? = some t → ∃ f, famOf t = some f ∧ WT ts x.2 f ∧ (exprTy ts x.2 = t ∨ exprTy ts x.2 = 20)

/-- The WHERE clause of a statement. -/
def TStmt.filter : TStmt → Option Ast
  | .insert _ => none
  | .insertInto _ _ => none
  | .delete p => p
  | .update _ p => p

/-- A column of ORDER BY can be found in the answer at most once: it is not selected twice, and no item that is computed has its name for its text. -/
def OneItem (cols : List (Catalog.Name × Nat)) (items : List (Ast × String)) (i : Nat) : Prop :=
  (∀ (j j' : Nat) s s', items[j]? = some (.col i, s) → items[j']? = some (.col i, s') → j = j') ∧
  ∀ c, cols[i]? = some c → ∀ x ∈ items, (∀ k, x.1 ≠ .col k) → x.2 ≠ String.ofList c.1

/-- SUM, MIN and MAX are asked of columns of integers. -/
def TAgg.Typed (ts : List Nat) : TAgg → Prop
  | .sum i | .min i | .max i => ∀ t, ts[i]? = some t → 1 ≤ t ∧ t ≤ 4
  | _ => True

/-- The name does not begin like the one of an aggregate. -/
def NoAgg (n : Catalog.Name) : Prop := ∀ f ∈ ["COUNT", "SUM", "MIN", "MAX", "AVG"], ¬f.toList <+: n

/-- Tables have names; the columns of joined tables have different ones, and those that are compared are of the same family. -/
def TDb.FromFine (T : TDb) : TFrom → Prop
  | .table n => n ≠ []
  | .join _ l n on more => T.FromFine l ∧ n ≠ [] ∧ ∀ a b, T.cols l = some a → T.tab n = some b → ((a ++ b).map (·.1)).Nodup ∧
    ∀ p ∈ on :: more, ∀ s t, (types a)[p.1]? = some s → (types b)[p.2]? = some t → ∃ m, famOf s = some m ∧ famOf t = some m

/-- Tables have columns of different names; statements are well typed, and in the WHERE clause of an UPDATE or DELETE no minus overflows;
a transaction that is rolled back has not deleted a row it had written. GROUP BY columns are different, and so are the functions of the aggregates.
The items of a SELECT DISTINCT are not of the types TINYINT and SMALLINT: their values are told apart by how the code prints them. It is ordered by items that are columns. -/
def FineT : TReq → TDb → Prop
  | .create n cols _, _ => n ≠ [] ∧ cols ≠ [] ∧ (cols.map (·.1)).Nodup
  | .query n s, T => n ≠ [] ∧ ∀ cols, T.tab n = some cols → s.Typed (types cols) ∧ ∀ row ∈ T.rows n, ∀ a, s.filter = some a → Calm (types cols) row a
  | .select f items p order _ _, T => T.FromFine f ∧ items ≠ [] ∧ ∀ cols, T.cols f = some cols →
    WellTyped (types cols) p ∧ (∀ x ∈ items, (∃ f, WT (types cols) x.1 f) ∧ LitItems x.1) ∧ ∀ k ∈ order, OneItem cols items k.1
  | .group f gs fs p order _ _, T => T.FromFine f ∧ (gs ≠ [] ∨ fs ≠ []) ∧ gs.Nodup ∧ (fs.map fun a => a.fn.name).Nodup ∧ (∀ k ∈ order, k.1 < gs.length) ∧ ∀ cols, T.cols f = some cols →
    WellTyped (types cols) p ∧ (∀ a ∈ fs, a.Typed (types cols)) ∧ ∀ i ∈ gs, ∀ c, cols[i]? = some c → NoAgg c.1
  | .distinct f items p order _ _, T => T.FromFine f ∧ items ≠ [] ∧ ∀ cols, T.cols f = some cols →
    WellTyped (types cols) p ∧ (∀ x ∈ items, (∃ f, WT (types cols) x.1 f) ∧ LitItems x.1 ∧ exprTy (types cols) x.1 ≠ 1 ∧ exprTy (types cols) x.1 ≠ 2) ∧
    ∀ k ∈ order, ∃ i s, items[k.1]? = some (.col i, s) ∧ OneItem cols items i
  | .rollback, T => ¬T.again
  | _, _ => True

/-- This holds for each request of a history, whatever the rows are that the requests before may leave. -/
def AllFineT (d : Disk) (xs : List TCall) : Prop := ∀ pre x post, xs = pre ++ x :: post → ∀ T, NextsT d .new pre T → FineT x.req T

end Verif.Whole

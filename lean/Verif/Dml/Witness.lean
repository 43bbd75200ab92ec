import Verif.Dml.Props
import Verif.Dml.InsertProps

/-!
# Cases of the theorems, and where the properties fail
-/

namespace Verif.Dml

open Verif.Wire Verif.Bytes Verif.Sql Verif.Exec

/-- Pages of two slots. -/
def exDisk : Disk where
  readable _ := true
  tooLarge _ := false
  space slots _ := slots.length < 2
  put _ _ := true
  rewrite _ _ _ := true
  fresh h :=
    let p := match h.last with
      | none => 0
      | some l => l + 1
    if (h.page p).isNone then some p else none

theorem exDisk_fresh : Fresh exDisk := by
  intro h p hp
  simp only [exDisk] at hp
  generalize (match h.last with | none => 0 | some l => l + 1) = q at hp
  split at hp
  · rename_i hn
    cases hp
    simpa using hn
  · cases hp

def i32 (i : Int) : Value := new (.integer i)

/-- Of transaction 1, committed. -/
def old (row : Row) : Slot := ⟨⟨1, true, false⟩, row⟩

/-- Deleted. -/
def gone (row : Row) : Slot := ⟨⟨1, true, true⟩, row⟩

/-- Two pages: a row, a deleted row; a row. -/
def exHeap : Heap := ⟨fun
  | 0 => some ⟨some 1, [gone [i32 4, i32 0], old [i32 1, i32 10]]⟩
  | 1 => some ⟨none, [old [i32 2, i32 20]]⟩
  | _ => none, some 0, some 1⟩

def exSlots : List (Rid × Slot) := [(⟨0, 0⟩, gone [i32 4, i32 0]), (⟨0, 1⟩, old [i32 1, i32 10]), (⟨1, 0⟩, old [i32 2, i32 20])]

theorem exTable : Table exHeap exSlots := ⟨[0, 1], .cons rfl (.cons rfl .nil), by decide, rfl, rfl⟩

/-- `a = 1`. -/
def isOne : Expr := .cmp .eq (.col 0 0) (.lit (i32 1))

theorem isOne_clear : ∀ x ∈ live exSlots, Clear (some isOne) x.2 := by
  intro x hx
  have : live exSlots = [(⟨0, 1⟩, [i32 1, i32 10]), (⟨1, 0⟩, [i32 2, i32 20])] := rfl
  simp only [this, List.mem_cons, List.not_mem_nil, or_false] at hx
  rcases hx with rfl | rfl
  · exact .inl ⟨.t, _, rfl, rfl⟩
  · exact .inl ⟨.f, _, rfl, rfl⟩

theorem exDisk_readable : Readable exDisk := fun _ => rfl
theorem exDisk_sane : Sane exDisk := fun _ _ _ _ _ _ => rfl

example := C75_delete_partial (txn := 5) exTable exDisk_readable exDisk_sane isOne_clear (by
  intro x hx _ _
  simp only [exSlots, List.mem_cons, List.not_mem_nil, or_false] at hx
  rcases hx with rfl | rfl | rfl <;> exact .inr rfl)

theorem exLive : live exSlots = [(⟨0, 1⟩, [i32 1, i32 10]), (⟨1, 0⟩, [i32 2, i32 20])] := rfl

/-- `SET b = b + a, a = 7`. -/
def exSet : List (Nat × Expr) := [(1, .arith .add (.col 0 1) (.col 0 0)), (0, .lit (i32 7))]

example := C76_update_partial (txn := 5) (as := exSet) exTable exDisk_readable isOne_clear (by
  intro x hx _ _
  simp only [exSlots, List.mem_cons, List.not_mem_nil, or_false] at hx
  rcases hx with rfl | rfl | rfl <;> rfl) (by
  intro x hx _ a ha
  simp only [exLive, List.mem_cons, List.not_mem_nil, or_false] at hx
  simp only [exSet, List.mem_cons, List.not_mem_nil, or_false] at ha
  rcases hx with rfl | rfl <;> rcases ha with rfl | rfl <;> exact ⟨_, rfl⟩) (fun _ _ _ _ _ _ _ _ => rfl)

example := C77_scan_partial exTable exDisk_readable

/-- A deleted row, a row, a row which transaction 9 inserted and has not committed. -/
def dirtyHeap : Heap := ⟨fun
  | 0 => some ⟨none, [gone [i32 1], old [i32 1], ⟨⟨9, false, false⟩, [i32 1]⟩]⟩
  | _ => none, some 0, some 0⟩

theorem dirtyTable : Table dirtyHeap [(⟨0, 0⟩, gone [i32 1]), (⟨0, 1⟩, old [i32 1]), (⟨0, 2⟩, ⟨⟨9, false, false⟩, [i32 1]⟩)] :=
  ⟨[0], .cons rfl .nil, by decide, rfl, rfl⟩

/-- The row another transaction has just inserted makes the DELETE of transaction 5 fail, after it deleted a row. -/
theorem C75_dirty_fails : ∃ u, Ran (deleteStep exDisk 5 (some isOne)) ⟨dirtyHeap, dirtyHeap.start, 0⟩ u .err ∧ u.count = 1 :=
  ⟨_, .step rfl (.step rfl (.step rfl (.stop rfl))), rfl⟩

/-- Likewise for UPDATE. -/
theorem C76_dirty_fails : ∃ u, Ran (updateStep exDisk 5 [(0, .lit (i32 2))] (some isOne)) ⟨dirtyHeap, dirtyHeap.start, 0⟩ u .err ∧ u.count = 1 :=
  ⟨_, .step rfl (.step rfl (.step rfl (.stop rfl))), rfl⟩

theorem dirty_clear : ∀ x ∈ live [(⟨0, 0⟩, gone [i32 1]), (⟨0, 1⟩, old [i32 1]), (⟨0, 2⟩, ⟨⟨9, false, false⟩, [i32 1]⟩)], Clear (some isOne) x.2 := by
  intro x hx
  have : live [(⟨0, 0⟩, gone [i32 1]), (⟨0, 1⟩, old [i32 1]), (⟨0, 2⟩, ⟨⟨9, false, false⟩, [i32 1]⟩)] = [(⟨0, 1⟩, [i32 1]), (⟨0, 2⟩, [i32 1])] := rfl
  simp only [this, List.mem_cons, List.not_mem_nil, or_false] at hx
  rcases hx with rfl | rfl <;> exact .inl ⟨.t, _, rfl, rfl⟩

/-- What the two have done until then. -/
example : True := by
  obtain ⟨u, R, _⟩ := C75_dirty_fails
  obtain ⟨v, R', _⟩ := C76_dirty_fails
  have := C75_delete_touches_only_selected dirtyTable exDisk_readable dirty_clear R
  have := C76_update_touches_only_selected dirtyTable exDisk_readable dirty_clear R'
  trivial

/-- A transaction cannot update a row it has inserted itself. -/
theorem C76_own_row_fails : ∃ u, Ran (updateStep exDisk 9 [(0, .lit (i32 2))] (some isOne))
    ⟨⟨fun | 0 => some ⟨none, [⟨⟨9, false, false⟩, [i32 1]⟩]⟩ | _ => none, some 0, some 0⟩, .walk (some 0), 0⟩ u .err :=
  ⟨_, .step rfl (.stop rfl)⟩

/-- When the first page of the table cannot be read, a scan ends as if the table were empty. -/
theorem C77_unreadable_fails : ∃ d : Disk, Yields (exHeap.scan d (exHeap.get d)) exHeap.start [] .done ∧ Table exHeap exSlots ∧ live exSlots ≠ [] :=
  ⟨{ exDisk with readable := fun _ => false }, .stop rfl, exTable, by rw [exLive]; exact nofun⟩

/-- The record id a scan reports beside the row is not that of the row when a deleted row stands before it. CREATE INDEX puts the reported record id into the index. -/
theorem C77_reported_rid_fails : ∃ c r s xs, Yields (exHeap.scan exDisk (exHeap.get exDisk)) exHeap.start ((c, r, s) :: xs) .done ∧ c ≠ r ∧ exHeap.get exDisk c = none :=
  ⟨⟨0, 0⟩, ⟨0, 1⟩, _, _, .cont (s' := .here ⟨0, 0⟩ ⟨0, 0⟩) rfl (.cont (s' := .here ⟨0, 0⟩ ⟨0, 1⟩) rfl (.emit (s' := .here ⟨1, 0⟩ ⟨1, 0⟩) rfl (.emit (s' := .stop) rfl (.stop rfl)))), by decide, rfl⟩

/-! ## INSERT -/

/-- No conversions but the modelled ones, no other tables. -/
def noExt : Value → Nat → Option Value := fun _ _ => none
def noSeen : Seen := fun _ _ => none
theorem noExt_typed : TypedExt noExt := nofun

/-- `a INTEGER PRIMARY KEY, b VARCHAR NOT NULL, c INTEGER DEFAULT 7`. -/
def exCols : List Column := [{ name := "a", ty := 3, pk := true }, { name := "b", ty := 11, notNull := true }, { name := "c", ty := 3, default := some (i32 7) }]

def text (s : List Byte) : Value := new (.varLen s)

/-- An empty table, and the counter at its start. -/
def exIns : Ins := ⟨⟨fun _ => none, none, none⟩, 1, 0⟩

theorem exIns_table : Table exIns.heap [] := ⟨[], .nil, .nil, rfl, rfl⟩

/-- `INSERT INTO t (b, a) VALUES ('x', 5), ('y', NULL)`. -/
def exValues : List (List Expr) := [[.lit (text [120]), .lit (i32 5)], [.lit (text [121]), .lit (new .null)]]

theorem exCols_distinct : Distinct exCols := by unfold Distinct; decide

example := C78_insert_values_partial (d := exDisk) (txn := 5) (seen := noSeen) (into := ["b", "a"]) (rows := exValues) exIns_table exDisk_fresh noExt_typed exCols_distinct
  (by
    intro es hes e he
    simp only [exValues, List.mem_cons, List.not_mem_nil, or_false] at hes
    rcases hes with rfl | rfl <;> simp only [List.mem_cons, List.not_mem_nil, or_false] at he <;> rcases he with rfl | rfl <;> exact fun _ _ => rfl)
  (s' := (insertStmt exDisk noExt noSeen 5 exCols ["b", "a"] (.values exValues) exIns).1) (Prod.ext rfl rfl)

example := C78_insert_values_runs_partial (d := exDisk) (ext := noExt) (txn := 5) (seen := noSeen) (cols := exCols) (into := ["b", "a"]) (rows := exValues)
  (target := [{ name := "b", ty := 11, notNull := true }, { name := "a", ty := 3, pk := true }]) exIns_table exDisk_fresh
  (by intro c hc; simp only [exCols, List.mem_cons, List.not_mem_nil, or_false] at hc; rcases hc with rfl | rfl | rfl <;> rfl) rfl
  (by intro c hc; simp only [List.mem_cons, List.not_mem_nil, or_false] at hc; rcases hc with rfl | rfl <;> simp [exCols]) exCols_distinct
  (by intro es hes; simp only [exValues, List.mem_cons, List.not_mem_nil, or_false] at hes; rcases hes with rfl | rfl <;> rfl)
  (by
    intro es hes k e c he hc ρ
    simp only [exValues, List.mem_cons, List.not_mem_nil, or_false] at hes
    rcases hes with rfl | rfl <;> match k with
      | 0 => cases he; cases hc; exact ⟨_, _, rfl, rfl⟩
      | 1 => cases he; cases hc; exact ⟨_, _, rfl, rfl⟩
      | k + 2 => cases he)

/-- `INSERT INTO t (b, a) SELECT b, a FROM …`. -/
example := C78_insert_select_partial (d := exDisk) (ext := noExt) (txn := 5) (seen := noSeen) (into := ["b", "a"]) (types := [11, 3]) (rows := [[text [120], i32 5], [text [121], i32 6]])
  exIns_table exDisk_fresh exCols_distinct (by
    intro row hr
    simp only [List.mem_cons, List.not_mem_nil, or_false] at hr
    rcases hr with rfl | rfl <;> rfl)
  (s' := (insertStmt exDisk noExt noSeen 5 exCols ["b", "a"] (.select ["b", "a"] [11, 3] [[text [120], i32 5], [text [121], i32 6]] .done none) exIns).1) (Prod.ext rfl rfl) rfl

example := C79_primary_key_not_null_partial (d := exDisk) (ext := noExt) (txn := 5) (seen := noSeen) (cols := exCols) (into := ["b", "a"]) (src := .values exValues) exIns_table exDisk_fresh rfl
example := C80_insert_types_partial (d := exDisk) (txn := 5) (seen := noSeen) (cols := exCols) (into := ["b", "a"]) (src := .values exValues) exIns_table exDisk_fresh noExt_typed (by
  intro c hc h
  simp only [exCols, List.mem_cons, List.not_mem_nil, or_false] at hc
  rcases hc with rfl | rfl | rfl <;> first | rfl | cases h) rfl

/-- What an INSERT into an empty table leaves in its first page, and how it ended. -/
def stored (cols : List Column) (into : List String) (src : Source) : List Row × End :=
  let x := insertStmt exDisk noExt noSeen 5 cols into src exIns
  (match x.1.heap.page 0 with
    | some pg => pg.slots.map (·.row)
    | none => [], x.2)

/-- `INSERT INTO t (b, a) VALUES ('x', 5)` leaves NULL in `c`, whose DEFAULT is 7. -/
theorem C78_default_fails : stored exCols ["b", "a"] (.values [[.lit (text [120]), .lit (i32 5)]]) = ([[i32 5, text [120], newTyped .null 3]], .done) := rfl

/-- `a INTEGER, b INTEGER`. -/
def twoCols : List Column := [{ name := "a", ty := 3 }, { name := "b", ty := 3 }]

/-- `INSERT INTO t (a, b) SELECT b, a FROM u` where `u` has the row `b = 1, a = 2` stores `a = 2, b = 1`. -/
theorem C78_select_swapped_fails : stored twoCols ["a", "b"] (.select ["b", "a"] [3, 3] [[i32 1, i32 2]] .done none) = ([[i32 2, i32 1]], .done) := rfl

/-- `INSERT INTO t (b) SELECT x FROM u` puts the value into `a`. -/
theorem C78_select_first_column_fails : stored twoCols ["b"] (.select ["x"] [3] [[i32 1]] .done none) = ([[i32 1, newTyped .null 3]], .done) := rfl

/-- `INSERT INTO t SELECT … LIMIT 1` stores both rows. -/
theorem C78_select_limit_fails : stored twoCols [] (.select ["a", "b"] [3, 3] [[i32 1, i32 2], [i32 3, i32 4]] .done (some 1)) = ([[i32 1, i32 2], [i32 3, i32 4]], .done) := rfl

/-! ## Constraints -/

/-- NULL is stored in a NOT NULL column. -/
theorem C79_not_null_fails : stored exCols [] (.values [[.lit (i32 1), .lit (new .null), .lit (i32 0)]]) = ([[i32 1, newTyped .null 11, i32 0]], .done) := rfl

/-- Two rows with the same primary key. -/
theorem C79_primary_key_fails : stored exCols [] (.values [[.lit (i32 1), .lit (text []), .lit (i32 0)], [.lit (i32 1), .lit (text [66]), .lit (i32 0)]]) =
    ([[i32 1, text [], i32 0], [i32 1, text [66], i32 0]], .done) := rfl

/-- Even without the user giving the same key twice: a key which the user gave, then the same from the counter. -/
theorem C79_counter_fails : stored exCols [] (.values [[.lit (i32 1), .lit (text []), .lit (i32 0)], [.lit (new .null), .lit (text [66]), .lit (i32 0)]]) =
    ([[i32 1, text [], i32 0], [i32 1, text [66], i32 0]], .done) := rfl

/-- Two rows with the same value in a UNIQUE column. -/
theorem C79_unique_fails : stored [{ name := "a", ty := 3, unique := true }] [] (.values [[.lit (i32 1)], [.lit (i32 1)]]) = ([[i32 1], [i32 1]], .done) := rfl

/-- A row on which the CHECK is FALSE. -/
theorem C79_check_fails : stored [{ name := "a", ty := 3, check := some isOne }] [] (.values [[.lit (i32 2)]]) = ([[i32 2]], .done) ∧ EvalsTo false (rowEnv [i32 2]) isOne .f :=
  ⟨rfl, _, rfl, rfl⟩

/-- Four characters in a VARCHAR(3). -/
theorem C79_length_fails : stored [{ name := "a", ty := 11, len := some 3 }] [] (.values [[.lit (text [65, 66, 67, 68])]]) = ([[text [65, 66, 67, 68]]], .done) := rfl

/-- `p INTEGER REFERENCES parents (id)`. -/
def childCols : List Column := [{ name := "p", ty := 3, fk := some ("parents", "id") }]

/-- The table `parents` with column `id`, and what is in it. -/
def parents (rows : List Row) : String → Option (List Column × List Row) := fun n => if n == "parents" then some ([{ name := "id", ty := 3 }], rows) else none

example := C79_foreign_key_partial (d := exDisk) (ext := noExt) (txn := 5) (seen := fun _ => parents [[i32 1], [i32 2]]) (cols := childCols) (into := [])
  (src := .values [[.lit (i32 2)], [.lit (i32 3)]]) exIns_table exDisk_fresh rfl

/-- In this case the first row is stored, the second refused. -/
example : (insertStmt exDisk noExt (fun _ => parents [[i32 1], [i32 2]]) 5 childCols [] (.values [[.lit (i32 2)], [.lit (i32 3)]]) exIns).2 = .err := rfl

/-- A table with one row. -/
def oneRow (s : Slot) : Heap := ⟨fun
  | 0 => some ⟨none, [s]⟩
  | _ => none, some 0, some 0⟩

/-- The parent of a row is deleted: the DELETE succeeds and the foreign key then refers to nothing. -/
theorem C79_parent_deleted_fails : ∃ u, Ran (deleteStep exDisk 5 none) ⟨oneRow (old [i32 1]), (oneRow (old [i32 1])).start, 0⟩ u .done ∧ Table u.heap [(⟨0, 0⟩, ⟨⟨5, false, true⟩, [i32 1]⟩)] ∧
    refers (parents ((live [(⟨0, 0⟩, old [i32 1])]).map (·.2))) (i32 1) ("parents", "id") = true ∧
    refers (parents ((live [(⟨0, 0⟩, ⟨⟨5, false, true⟩, [i32 1]⟩)]).map (·.2))) (i32 1) ("parents", "id") = false :=
  ⟨_, .step rfl (.step rfl (.stop rfl)), ⟨[0], .cons rfl .nil, by decide, rfl, rfl⟩, rfl, rfl⟩

/-- The foreign key of a row is set to a value that is not there. -/
theorem C79_child_updated_fails : ∃ u, Ran (updateStep exDisk 5 [(0, .lit (i32 9))] none) ⟨oneRow (old [i32 1]), (oneRow (old [i32 1])).start, 0⟩ u .done ∧
    Table u.heap [(⟨0, 0⟩, ⟨⟨5, false, false⟩, [i32 9]⟩)] ∧
    fkOk (parents [[i32 1]]) childCols [i32 1] = true ∧ fkOk (parents [[i32 1]]) childCols [i32 9] = false :=
  ⟨_, .step rfl (.step rfl (.stop rfl)), ⟨[0], .cons rfl .nil, by decide, rfl, rfl⟩, rfl, rfl⟩

/-- An UPDATE stores a string in an INTEGER column. -/
theorem C80_update_fails : ∃ u, Ran (updateStep exDisk 5 [(0, .lit (text [65]))] none) ⟨oneRow (old [i32 1]), (oneRow (old [i32 1])).start, 0⟩ u .done ∧
    Table u.heap [(⟨0, 0⟩, ⟨⟨5, false, false⟩, [text [65]]⟩)] ∧ ty (text [65]) ≠ ty (i32 1) :=
  ⟨_, .step rfl (.step rfl (.stop rfl)), ⟨[0], .cons rfl .nil, by decide, rfl, rfl⟩, by decide⟩

/-- A BIGINT primary key (type 4) that is not given becomes an INTEGER. -/
theorem C80_bigint_key_fails : stored [{ name := "a", ty := 4, pk := true }] [] (.values [[.lit (new .null)]]) = ([[i32 1]], .done) ∧ ty (i32 1) = 3 := ⟨rfl, rfl⟩

/-- An INSERT of two rows fails on the second; the first stays. -/
theorem C81_insert_fails : ∃ s', insertStmt exDisk noExt (fun _ => parents [[i32 1]]) 5 childCols [] (.values [[.lit (i32 1)], [.lit (i32 3)]]) exIns = (s', .err) ∧
    Table s'.heap [(⟨0, 0⟩, ⟨⟨5, false, false⟩, [i32 1]⟩)] :=
  ⟨_, rfl, [0], .cons rfl .nil, by decide, rfl, rfl⟩

example := C81_one_row_partial (d := exDisk) (ext := noExt) (seen := fun _ => parents [[i32 1]]) (txn := 5) (cols := childCols) (into := []) (es := [.lit (i32 3)]) (s' := exIns) (e := .err)
  exIns_table exDisk_fresh rfl nofun

end Verif.Dml

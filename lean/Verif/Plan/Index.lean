import Verif.Plan.OptProps
import Verif.BTree.Props

/-!
# Indexes and the rows of a table (C74)

The first SELECT that scans a table with a PRIMARY KEY, UNIQUE or FOREIGN KEY column creates the index of the constraint (optimizer_impl.rs:325-361); `CREATE INDEX` creates one
too. Both go through `create_index`, which fills the index from the table. INSERT, UPDATE and DELETE (insert_executor.rs, update_executor.rs, delete_executor.rs) do not touch it.
The optimizer replaces the scan of a table by a scan of an index whose first key column is the first column of the table.
-/

namespace Verif.Plan

open Verif.Wire Verif.Bytes Verif.Sql Verif.Exec

/-- A table with its rows by record id, and the record ids in the index in key order, if there is one. -/
structure Store where
  rows : List (Nat × Row)
  entries : Option (List Nat)

/-- The integer of a key column, 0 for other values: the claims are about tables whose key column is an integer. -/
def intKey (row : Row) : Int := match row with
  | .mk (.integer i) _ _ _ _ :: _ => i
  | _ => 0

/-- `create_index` (database.rs:478-537) with `populate_index_with_existing_data` (634-695) for an index on the first column: a B+ tree of order 4 into which the key and the
record id of every row are inserted. `none` would be a panic of the tree. The record ids are taken to be right (see C75). -/
def Store.createIndex (s : Store) : Option Store := do
  let r ← BTree.run (BTree.KeyOps.linear Int) (BTree.BTree.new 4) (BTree.inserts (s.rows.map fun e => (intKey e.2, e.1)))
  let es ← r.1.scanFull
  some { s with entries := some (es.map (·.2)) }

/-- `InsertExecutor` (insert_executor.rs:294-420): the row is put in the table. -/
def Store.insert (s : Store) (rid : Nat) (row : Row) : Store := { s with rows := s.rows ++ [(rid, row)] }

/-- The executors' view of the store: one table and one index. -/
def Store.world (s : Store) : World where
  rows := fun _ => s.rows.map (·.2)
  entries := fun _ => s.entries.getD []
  fetch := fun _ r => (s.rows.find? fun e => e.1 == r).map (·.2)
  debug := fun _ => []
  drain := id
  heap := ⟨fun _ => 0, id⟩

/-- Whether the optimizer finds an index. -/
def Store.ix (s : Store) : Nat → Option Nat := fun _ => s.entries.map fun _ => 0

/-- `SELECT * FROM t` as it is run. -/
def Store.selectAll (s : Store) (out : List Row) : Prop := ∃ p, optimize s.ix (fun _ => false) (fun _ => true) (.scan 0) = some p ∧ Runs s.world p out .done

theorem selectAll_none {s : Store} (h : s.entries = none) (out : List Row) : s.selectAll out ↔ out = s.rows.map (·.2) := by
  have ho : optimize s.ix (fun _ => false) (fun _ => true) (.scan 0) = some (.scan 0) := by simp [optimize, useIndex, Store.ix, h, prune, rewrite, validate]
  simp only [Store.selectAll, ho, Option.some.injEq, exists_eq_left', runs_iff, den, Store.world, Prod.mk.injEq, and_true]
  exact eq_comm

theorem selectAll_some {s : Store} {es : List Nat} (h : s.entries = some es) (out : List Row) : s.selectAll out ↔ out = es.filterMap (s.world.fetch 0) := by
  have ho : optimize s.ix (fun _ => false) (fun _ => true) (.scan 0) = some (.index 0 0) := by simp [optimize, useIndex, Store.ix, h, prune, rewrite, validate]
  simp only [Store.selectAll, ho, Option.some.injEq, exists_eq_left', runs_iff, den, Prod.mk.injEq, and_true]
  simp only [Store.world, h, Option.getD_some]
  exact eq_comm

theorem filterMap_eq {α β : Type} {f g : α → Option β} : ∀ {l : List α}, (∀ a ∈ l, f a = g a) → l.filterMap f = l.filterMap g
  | [], _ => rfl
  | a :: l, h => by simp only [List.filterMap_cons, h a List.mem_cons_self, filterMap_eq fun b hb => h b (List.mem_cons_of_mem _ hb)]

theorem fetch_mem {rows : List (Nat × Row)} (h : (rows.map (·.1)).Nodup) {e : Nat × Row} (he : e ∈ rows) : (rows.find? fun x => x.1 == e.1).map (·.2) = some e.2 := by
  induction rows with
  | nil => cases he
  | cons x xs ih =>
    rw [List.map_cons, List.nodup_cons] at h
    rcases List.mem_cons.1 he with rfl | he
    · simp
    · have hne : ¬x.1 = e.1 := fun hx => h.1 (List.mem_map.2 ⟨e, he, hx.symm⟩)
      rw [List.find?_cons_of_neg (by simpa using hne)]
      exact ih h.2 he

/-- C74 right after the index was created: with or without it, `SELECT *` gives the same rows, in another order. For integer keys without repetition. -/
theorem C74_fresh_index_partial (s : Store) (hr : (s.rows.map (·.1)).Nodup) (hk : (s.rows.map fun e => intKey e.2).Nodup) :
    ∃ s', s.createIndex = some s' ∧ s'.rows = s.rows ∧ ∃ out, s'.selectAll out ∧ out.Perm (s.rows.map (·.2)) := by
  obtain ⟨t, h1, _, r, h2, h3, _⟩ := BTree.C22_scan_exact (K := Int) (V := Nat) 4 (by decide) (s.rows.map fun e => (intKey e.2, e.1)) (by simpa [Function.comp_def] using hk)
  refine ⟨⟨s.rows, some (r.map (·.2))⟩, by simp [Store.createIndex, h1, h2], rfl, _, (selectAll_some rfl _).2 rfl, ?_⟩
  have h4 : (r.map (·.2)).Perm (s.rows.map (·.1)) := by simpa [Function.comp_def] using h3.map (·.2)
  refine (h4.filterMap _).trans ?_
  rw [List.filterMap_map]
  have h5 : ∀ e ∈ s.rows, ((Store.mk s.rows (some (r.map fun x => x.2))).world.fetch 0 ∘ fun x : Nat × Row => x.1) e = some e.2 := fun e he => fetch_mem hr he
  rw [filterMap_eq h5]
  exact List.Perm.of_eq (congrFun List.filterMap_eq_map _)

/-- The hypotheses are met. -/
example : (([(5, [new (.integer 3)]), (6, [new (.integer 1)])] : List (Nat × Row)).map (·.1)).Nodup ∧
    (([(5, [new (.integer 3)]), (6, [new (.integer 1)])] : List (Nat × Row)).map fun e => intKey e.2).Nodup := by decide

/-- C74 is false: whatever the table holds when the index is created and whatever is inserted afterwards, `SELECT *` gives only the rows from before. -/
theorem C74_stale_fails (s : Store) (hr : (s.rows.map (·.1)).Nodup) (hk : (s.rows.map fun e => intKey e.2).Nodup) (new_ : List (Nat × Row)) :
    ∃ s', s.createIndex = some s' ∧ ∃ out, (new_.foldl (fun s e => s.insert e.1 e.2) s').selectAll out ∧ out.Perm (s.rows.map (·.2)) ∧
      (new_.foldl (fun s e => s.insert e.1 e.2) s').rows = s.rows ++ new_ := by
  obtain ⟨s', h1, h2, out, h3, h4⟩ := C74_fresh_index_partial s hr hk
  obtain ⟨es0, he⟩ : ∃ es, s'.entries = some es := by
    simp only [Store.createIndex, Option.bind_eq_bind, Option.bind_eq_some_iff, Option.some.injEq] at h1
    obtain ⟨r, _, es, _, rfl⟩ := h1
    exact ⟨_, rfl⟩
  have hfold : ∀ (l : List (Nat × Row)) (s : Store), (l.foldl (fun s e => s.insert e.1 e.2) s) = { s with rows := s.rows ++ l } := by
    intro l
    induction l with
    | nil => simp
    | cons e l ih => intro s; rw [List.foldl_cons, ih]; simp [Store.insert]
  refine ⟨s', h1, out, ?_, h4, by rw [hfold, h2]⟩
  rw [hfold]
  rw [selectAll_some (es := es0) (by simpa using he)]
  rw [selectAll_some he] at h3
  subst h3
  refine filterMap_eq fun r hr' => ?_
  have hmem : r ∈ s.rows.map (·.1) := by
    simp only [Store.createIndex, Option.bind_eq_bind, Option.bind_eq_some_iff, Option.some.injEq] at h1
    obtain ⟨t, g1, es, g2, rfl⟩ := h1
    obtain ⟨t', k1, _, r', k2, k3, _⟩ := BTree.C22_scan_exact (K := Int) (V := Nat) 4 (by decide) (s.rows.map fun e => (intKey e.2, e.1)) (by simpa [Function.comp_def] using hk)
    rw [k1] at g1
    cases g1
    rw [k2] at g2
    cases g2
    cases he
    have h5 : (es.map (·.2)).Perm (s.rows.map (·.1)) := by simpa [Function.comp_def] using k3.map (·.2)
    exact h5.mem_iff.1 hr'
  obtain ⟨e, he', rfl⟩ := List.mem_map.1 hmem
  simp only [Store.world, h2]
  rw [List.find?_append, List.find?_isSome.2 ⟨e, he', by simp⟩ |> Option.isSome_iff_exists.1 |>.choose_spec]
  rfl

/-- So a row that is inserted after the first SELECT from a table with a primary key is not found. -/
theorem C74_insert_fails : ∃ s', (Store.mk [] none).createIndex = some s' ∧ ∀ out, (s'.insert 0 [new (.integer 1)]).selectAll out → out = [] := by
  refine ⟨⟨[], some []⟩, rfl, fun out h => ?_⟩
  rw [selectAll_some (es := []) rfl] at h
  exact h

end Verif.Plan

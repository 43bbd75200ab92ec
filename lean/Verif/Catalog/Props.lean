import Verif.Catalog.Restart

/-!
# Properties of the catalog

Statements are those of any number of clients, in the order the server runs them; `Env` is what the buffer pool and the system table answer to each of them.
-/

namespace Verif.Catalog

/-! ## Concrete statements -/

/-- Names for the examples: `t`, `u`, `x` without quotes and `"t"` with. -/
def nt : ObjName := [⟨['t'], none⟩]
def nu : ObjName := [⟨['u'], none⟩]
def nx : ObjName := [⟨['x'], none⟩]
def qt : ObjName := [⟨['t'], some '"'⟩]
def ia : Ident := ⟨['a'], none⟩
def ib : Ident := ⟨['b'], none⟩
def yes : Env := ⟨true, true⟩

/-- `CREATE TABLE t (a, b)`. -/
def mkT : Stmt := .createTable nt [⟨ia, 0, none⟩, ⟨ib, 1, none⟩] [] false
/-- `CREATE TABLE u (b REFERENCES t (a))`. -/
def mkU : Stmt := .createTable nu [⟨ib, 0, some (nt, [ia])⟩] [] false

/-! ## C99: names mean the tables created under them -/

/-- C99. After any statements with plain names (one part, no quotes), the database in use and the tables of every database are those the statements say; SELECT, INSERT, UPDATE and DELETE find
them, with the columns declared; and a CREATE TABLE succeeds exactly when it should. Partial: false of quoted and qualified names, see below. -/
theorem C99_names_partial (evs : List Ev) (hp : ∀ ev ∈ evs, PlainEv ev) :
    let c := (Cat.boot none).run evs
    let s := Spec.new.run evs
    (∀ v : Name, (c.selectTable [⟨v, none⟩]).map Tab.cols = s.tab s.cur v ∧ (c.updateTable [⟨v, none⟩]).map Tab.cols = s.tab s.cur v) ∧
    (∀ (e : Env) n defs fks ine, Plain (.createTable n defs fks ine) →
      ((c.exec e (.createTable n defs fks ine)).1 = .ok true ↔ s.creatable (text n) defs fks ∨ (s.tab s.cur (text n)).isSome = true ∧ ine = true)) := by
  intro c s
  have hi : c.Inv := Cat.reachable_inv evs
  have hs : Sim c s := by
    show Sim ((Cat.boot none).run evs) _
    rw [Cat.boot_none]
    exact run_sim evs (Cat.new_inv none) sim_new hp
  refine ⟨fun v => ?_, fun e n defs fks ine h => (execCreateTable_sim hi hs e h).2⟩
  have : (c.tab c.cur v).map Tab.cols = s.tab s.cur v := by rw [hs.tab, hs.cur]
  exact ⟨this, this⟩

/-- Two tables, a second database and the way back are plain. -/
def tour : List Ev := [.stmt mkT yes, .stmt (.createDatabase nx false) yes, .stmt (.use nx) yes, .page, .stmt mkT yes, .stmt (.use [⟨defaultDb, none⟩]) yes, .stmt mkU yes]

example : (∀ ev ∈ tour, PlainEv ev) ∧ ((Cat.boot none).run tour).cur = defaultDb ∧
    ((((Cat.boot none).run tour).selectTable nu).map Tab.cols) = some [⟨['b'], 0, some (['t'], ['a'])⟩] ∧ ((((Cat.boot none).run tour).selectTable nt).bind Tab.first) = some 4 ∧
    ((((Cat.boot none).run tour).tab ['x'] ['t']).bind Tab.first) = some 6 := by
  refine ⟨?_, by decide, by decide, by decide, by decide⟩
  intro ev hev
  have pn : ∀ v : Name, v ≠ [] → PlainName [⟨v, none⟩] := fun v hv => ⟨v, rfl, hv⟩
  simp only [tour, List.mem_cons, List.not_mem_nil, or_false] at hev
  have hT : Plain mkT := by
    refine ⟨pn _ (by decide), by decide, by decide, by decide, ?_, by simp⟩
    intro d hd r hr
    simp only [List.mem_cons, List.not_mem_nil, or_false] at hd
    rcases hd with rfl | rfl <;> cases hr
  have hU : Plain mkU := by
    refine ⟨pn _ (by decide), by decide, by decide, by decide, ?_, by simp⟩
    intro d hd r hr
    simp only [List.mem_cons, List.not_mem_nil, or_false] at hd
    subst hd
    cases hr
    exact ⟨pn _ (by decide), ia, rfl⟩
  rcases hev with rfl | rfl | rfl | rfl | rfl | rfl | rfl
  · exact hT
  · exact ⟨_, rfl, by decide, by decide⟩
  · exact ⟨_, rfl, by decide, by decide⟩
  · trivial
  · exact hT
  · exact ⟨_, rfl, by decide, by decide⟩
  · exact hU

/-- C99 is false of quoted names: after `CREATE TABLE "t" (a, b)`, which succeeds, SELECT and INSERT of `"t"` find no table. With a table `t` as well, INSERT INTO "t" and DELETE FROM "t"
mean two different tables. -/
theorem C99_quoted_fails :
    let mkQ : Stmt := .createTable qt [⟨ia, 0, none⟩, ⟨ib, 1, none⟩] [] false
    ((Cat.boot none).exec yes mkQ).1 = .ok true ∧ ((Cat.boot none).run [.stmt mkQ yes]).selectTable qt = none ∧
    let c := (Cat.boot none).run [.stmt mkT yes, .stmt mkQ yes]
    (c.selectTable qt).map Tab.oid = some 5 ∧ (c.updateTable qt).map Tab.oid = some 6 := by
  decide

/-- C99 is false of qualified names: `CREATE TABLE x.t (a, b)` makes a table named `x.t` in the database in use, which SELECT does not find, and which is not in the database `x`. -/
theorem C99_qualified_fails :
    let mkQ : Stmt := .createTable (nx ++ nt) [⟨ia, 0, none⟩, ⟨ib, 1, none⟩] [] false
    let c := (Cat.boot none).run [.stmt (.createDatabase nx false) yes, .stmt mkQ yes]
    c.selectTable (nx ++ nt) = none ∧ c.tab ['x'] ['t'] = none ∧ (c.tab defaultDb ['x', '.', 't']).isSome = true := by
  decide

/-- C99 is false of databases whose name contains a space: `CREATE DATABASE "t u"` makes a database `t`. -/
theorem C99_database_name_fails :
    let c := (Cat.boot none).run [.stmt (.createDatabase [⟨['t', ' ', 'u'], some '"'⟩] false) yes]
    (c.dbs.get ['t', ' ', 'u']).isSome = false ∧ (c.dbs.get ['t']).isSome = true := by
  decide

/-- A table may have two columns of one name: the second cannot be reached by it. -/
theorem C99_two_columns_fails :
    let mk2 : Stmt := .createTable nt [⟨ia, 0, none⟩, ⟨ia, 1, none⟩] [] false
    ((Cat.boot none).exec yes mk2).1 = .ok true ∧
    ((((Cat.boot none).run [.stmt mk2 yes]).selectTable nt).map fun t => columnIndex t.cols ['a']) = some (some 0) := by
  decide

/-- Whatever the statements: tables keep apart. Two names, of the same or of different databases, never lead to tables whose rows are kept in the same pages (their chains start at different
pages), none uses a page of the system tables (0 to 3), and within a database no two tables have the same id. -/
theorem C99_tables_apart (evs : List Ev) :
    let c := (Cat.boot none).run evs
    (∀ d n t d' n' t' p, c.tab d n = some t → c.tab d' n' = some t' → t.first = some p → t'.first = some p → d = d' ∧ n = n') ∧
    (∀ d n t p, c.tab d n = some t → t.first = some p → 4 ≤ p) ∧
    (∀ d n t n' t', c.tab d n = some t → c.tab d n' = some t' → t.oid = t'.oid → n = n') := by
  intro c
  have hi : c.Inv := Cat.reachable_inv evs
  refine ⟨hi.apart, fun d n t p h1 h2 => (hi.low d n t p h1 h2).1, ?_⟩
  intro d n t n' t' h1 h2 ho
  cases hd : c.dbs.get d with
  | none =>
    unfold Cat.tab at h1
    rw [hd] at h1
    cases h1
  | some db =>
    have hok := hi.ok d db hd
    have e1 : db.getTable n = some t := by
      unfold Cat.tab at h1
      rw [hd] at h1
      exact h1
    have e2 : db.getTable n' = some t' := by
      unfold Cat.tab at h2
      rw [hd] at h2
      exact h2
    obtain ⟨a1, b1⟩ := hok.getTable e1
    obtain ⟨a2, b2⟩ := hok.getTable e2
    rw [ho] at a1
    obtain ⟨_, x, hx, hx1, _⟩ := hok.tab _ _ a1
    obtain ⟨_, y, hy, hy1, _⟩ := hok.tab _ _ a2
    rw [hx] at hy
    cases hy
    rw [← hx1, ← hy1]

example : (((Cat.boot none).run tour).tab ['x'] ['t']).isSome = true ∧ (((Cat.boot none).run tour).tab defaultDb ['u']).isSome = true := by decide

/-- Between databases the ids are not apart: the first tables of two databases are both number 5, also for the lock manager and the transaction manager. -/
theorem C99_ids_across_databases_fails :
    let c := (Cat.boot none).run tour
    (c.tab ['x'] ['t']).map Tab.oid = (c.tab defaultDb ['t']).map Tab.oid := by
  decide

/-- Once a table is there, it stays there and stays the same, whatever statements follow. -/
theorem C99_tables_stay (evs more : List Ev) (d n : Name) (t : Tab) (h : ((Cat.boot none).run evs).tab d n = some t) :
    ((Cat.boot none).run (evs ++ more)).tab d n = some t := by
  have hrun : (Cat.boot none).run (evs ++ more) = ((Cat.boot none).run evs).run more := by
    unfold Cat.run
    rw [List.foldl_append]
  rw [hrun]
  clear hrun
  have hi := Cat.reachable_inv evs
  generalize (Cat.boot none).run evs = c at h hi
  induction more generalizing c with
  | nil => exact h
  | cons ev more ih =>
    have hstep : (c.step ev).tab d n = some t := by
      cases ev with
      | page => exact h
      | stmt s e =>
        cases s with
        | createTable m defs fks ine =>
          show (c.execCreateTable e m defs fks ine).2.tab d n = some t
          rcases c.execCreateTable_cases e m defs fks ine with h1 | ⟨h1, _⟩ | ⟨cols, _, h1⟩
          · rw [h1]; exact h
          · rw [h1]; exact h
          · rw [h1]
            rcases Cat.createTable_cases hi m.show cols e with ⟨h2, _⟩ | ⟨x, c', h2, h3, _, _, _, _, _, _, _, _, _, h4, _⟩
            · rw [h2]; exact h
            · rw [h2]
              show c'.tab d n = some t
              rw [h4]
              split
              · rename_i hh
                rw [hh.1, hh.2, h3] at h
                cases h
              · exact h
        | createIndex nm m cols ine =>
          show (c.execCreateIndex nm m cols).2.tab d n = some t
          rcases c.execCreateIndex_cases nm m cols with h1 | ⟨i, tn, attrs, h1⟩
          · rw [h1]; exact h
          · rw [h1, Cat.createIndex_tab]; exact h
        | createDatabase m ine =>
          show (c.execCreateDatabase m ine).2.tab d n = some t
          rcases c.execCreateDatabase_cases m ine with h1 | ⟨k, h1⟩
          · rw [h1]; exact h
          · rw [h1, Cat.createDatabase_tab]; exact h
        | use m =>
          show (c.execUse m).2.tab d n = some t
          rcases c.execUse_cases m with h1 | ⟨k, h1⟩
          · rw [h1]; exact h
          · rw [h1, Cat.useDatabase_tab]; exact h
        | echo => exact h
        | rollback => exact h
        | other => exact h
    exact ih (c.step ev) hstep (hi.step ev)

/-! ## C100: foreign keys -/

/-- C100. Whatever the statements, every foreign key of every table refers to a table of the same database that exists and has the column. Partial: not every declared foreign key is kept,
see below. -/
theorem C100_targets_exist_partial (evs : List Ev) (d n : Name) (t : Tab) (h : ((Cat.boot none).run evs).tab d n = some t) :
    ∀ c ∈ t.cols, ∀ r, c.fk = some r → ∃ t', ((Cat.boot none).run evs).tab d r.1 = some t' ∧ r.2 ∈ t'.cols.map Col.name := by
  intro c hc r hr
  obtain ⟨cs, h1, h2⟩ := (Cat.reachable_inv evs).fk d n t h c hc r hr
  simp only [Option.map_eq_some_iff] at h1
  obtain ⟨t', h3, h4⟩ := h1
  exact ⟨t', h3, by rw [h4]; exact h2⟩

example : (((Cat.boot none).run tour).tab defaultDb ['u']).map Tab.cols = some [⟨['b'], 0, some (['t'], ['a'])⟩] := by decide

/-- A FOREIGN KEY clause of two columns is dropped without a word, even when it refers to nothing. -/
theorem C100_two_columns_fails :
    let mk : Stmt := .createTable nu [⟨ia, 0, none⟩, ⟨ib, 1, none⟩] [⟨[ia, ib], nt, [ia, ib]⟩] false
    ((Cat.boot none).exec yes mk).1 = .ok true ∧
    (((Cat.boot none).run [.stmt mk yes]).selectTable nu).map Tab.cols = some [⟨['a'], 0, none⟩, ⟨['b'], 1, none⟩] := by
  decide

/-- A table cannot refer to itself: `CREATE TABLE t (a, b REFERENCES t (a))` is an error. -/
theorem C100_self_reference_fails :
    (((Cat.boot none).exec yes (.createTable nt [⟨ia, 0, none⟩, ⟨ib, 1, some (nt, [ia])⟩] [] false)).1) = .error := by
  decide

/-! ## C101: tables and a restart -/

/-- C101 is false: after a restart there is no table, whatever was created before. -/
theorem C101_tables_lost_fails (evs : List Ev) (n : ObjName) :
    ((Cat.boot none).run evs).restart.selectTable n = none ∧ ((Cat.boot none).run evs).restart.updateTable n = none := by
  have hf : ((Cat.boot none).run evs).file = none := by
    rw [Cat.run_file]
    decide
  unfold Cat.restart
  rw [hf, Cat.boot_none]
  have h : ∀ m, (Cat.new none).getTable m = none := by
    intro m
    rw [Cat.getTable_eq, Cat.new_tab]
  refine ⟨?_, h _⟩
  unfold Cat.selectTable
  split
  · exact h _
  · rfl

example : (((Cat.boot none).run [.stmt mkT yes]).selectTable nt).isSome = true := by decide

/-- And their pages are given out again: a table created after the restart is kept in the page of the one that was lost. -/
theorem C101_pages_reused_fails :
    let c := (Cat.boot none).run [.stmt mkT yes]
    ((c.selectTable nt).bind Tab.first) = some 4 ∧ (((c.restart.run [.stmt mkU yes, .stmt mkT yes]).selectTable nt).bind Tab.first) = some 4 := by
  decide

/-- C101, the part the code is written for: if the rows of the system table reach the snapshot file (`rebuild_from_system_catalog`, which the server calls only when there are none), a restart
brings back every table of the only database: name, columns, id and first page. Partial: it takes that call, one database, and system rows that were stored; pages taken after the creation
are not recorded. -/
theorem C101_snapshot_partial (evs : List Ev) (h1 : ∀ ev ∈ evs, OneDb ev) (hk : ∀ ev ∈ evs, Kept ev) (n : ObjName) :
    let c := (Cat.boot none).run evs
    c.rebuild.restart.selectTable n = c.selectTable n ∧ c.rebuild.restart.updateTable n = c.updateTable n := by
  intro c
  have hi : c.Inv := Cat.reachable_inv evs
  have hr : Recorded c := by
    show Recorded ((Cat.boot none).run evs)
    rw [Cat.boot_none]
    exact recorded_run evs (Cat.new_inv none) (recorded_new none) h1 hk
  have hf : c.file = none := by
    show ((Cat.boot none).run evs).file = none
    rw [Cat.run_file]
    decide
  have h : ∀ m, c.rebuild.restart.getTable m = c.getTable m := by
    intro m
    rw [Cat.getTable_eq, Cat.getTable_eq, rebuild_restart hi hr hf, hr.cur]
  refine ⟨?_, h _⟩
  unfold Cat.selectTable
  split
  · exact h _
  · rfl

example : let evs : List Ev := [.stmt mkT yes, .page, .stmt mkU yes]
    (∀ ev ∈ evs, OneDb ev) ∧ (∀ ev ∈ evs, Kept ev) ∧ ((((Cat.boot none).run evs).rebuild.restart.selectTable nu).map Tab.oid) = some 6 := by
  refine ⟨?_, ?_, by decide⟩ <;> intro ev hev <;> simp only [List.mem_cons, List.not_mem_nil, or_false] at hev <;> rcases hev with rfl | rfl | rfl <;>
    first
      | trivial
      | rfl

/-- Even then the pages collide: the first page handed out after the restart is the first table's. -/
theorem C101_snapshot_pages_reused_fails :
    let c := ((Cat.boot none).run [.stmt mkT yes]).rebuild.restart.run [.stmt mkU yes]
    ((c.selectTable nt).bind Tab.first) = some 4 ∧ ((c.selectTable nu).bind Tab.first) = some 4 := by
  decide

/-- With two databases, a snapshot puts all tables into one, and of two tables with the same name or number only one is left. -/
theorem C101_two_databases_fails :
    let c := ((Cat.boot none).run tour).rebuild.restart
    (c.dbs.get ['x']).isSome = false ∧ ((c.selectTable nt).bind Tab.first) = some 6 := by
  decide

/-! ## C102: what a statement reports -/

/-- C102. A statement that ends with an error has not changed the catalog; a CREATE TABLE that reports success leaves a table of that name; a CREATE INDEX that reports success names a table
that exists. Partial: false of the other statements, and of CREATE INDEX, see below. -/
theorem C102_report_partial (evs : List Ev) (e : Env) :
    let c := (Cat.boot none).run evs
    (∀ s, (c.exec e s).1 = .error → (c.exec e s).2 = c) ∧
    (∀ n defs fks ine, (c.exec e (.createTable n defs fks ine)).1 = .ok true → ((c.exec e (.createTable n defs fks ine)).2.updateTable n).isSome = true) ∧
    (∀ nm t cols ine, (c.exec e (.createIndex nm t cols ine)).1 = .ok true → (c.updateTable t).isSome = true) := by
  intro c
  have hi : c.Inv := Cat.reachable_inv evs
  refine ⟨?_, ?_, ?_⟩
  · intro s hs
    cases s with
    | createTable n defs fks ine =>
      change (c.execCreateTable e n defs fks ine).1 = _ at hs
      show (c.execCreateTable e n defs fks ine).2 = c
      rcases c.execCreateTable_cases e n defs fks ine with h1 | ⟨h1, _⟩ | ⟨cols, _, h1⟩
      · rw [h1]
      · rw [h1]
      · rw [h1] at hs ⊢
        rcases Cat.createTable_cases hi n.show cols e with ⟨h2, _⟩ | ⟨x, c', h2, _⟩
        · rw [h2]
        · rw [h2] at hs
          cases hs
    | createIndex nm t cols ine =>
      change (c.execCreateIndex nm t cols).1 = _ at hs
      show (c.execCreateIndex nm t cols).2 = c
      revert hs
      unfold Cat.execCreateIndex
      split
      · simp only
        split
        · exact fun _ => rfl
        · split
          · exact fun _ => rfl
          · generalize List.any _ _ = b
            cases b
            · intro h; cases h
            · exact fun _ => rfl
      · exact fun _ => rfl
    | createDatabase n ine =>
      change (c.execCreateDatabase n ine).1 = _ at hs
      show (c.execCreateDatabase n ine).2 = c
      revert hs
      unfold Cat.execCreateDatabase
      split
      · exact fun _ => rfl
      · split
        · exact fun _ => rfl
        · intro h; cases h
    | use n =>
      change (c.execUse n).1 = _ at hs
      show (c.execUse n).2 = c
      revert hs
      unfold Cat.execUse
      split
      · exact fun _ => rfl
      · split
        · exact fun _ => rfl
        · intro h; cases h
    | echo => rfl
    | rollback => rfl
    | other => rfl
  · intro n defs fks ine hs
    change (c.execCreateTable e n defs fks ine).1 = _ at hs
    show ((c.execCreateTable e n defs fks ine).2.updateTable n).isSome = true
    rcases c.execCreateTable_cases e n defs fks ine with h1 | ⟨h1, h2⟩ | ⟨cols, _, h1⟩
    · rw [h1] at hs; cases hs
    · rw [h1]; exact h2
    · rw [h1] at hs ⊢
      rcases Cat.createTable_cases hi n.show cols e with ⟨h2, _⟩ | ⟨x, c', h2, _, _, _, _, _, _, h8, _, _, _, h10, _⟩
      · rw [h2] at hs; cases hs
      · rw [h2]
        show (c'.tab c'.cur n.show).isSome = true
        rw [h10, h8]
        simp
  · intro nm t cols ine hs
    change (c.execCreateIndex nm t cols).1 = _ at hs
    unfold Cat.updateTable
    revert hs
    unfold Cat.execCreateIndex
    split
    · simp only
      split
      · intro h; cases h
      · rename_i i _ _ hg
        intro _
        show (c.getTable i.show).isSome = true
        rw [hg]
        rfl
    · intro h; cases h

theorem columnIndex_of {cols : List Col} {n : Name} {a : Nat} (h1 : ∃ col, cols[a]? = some col ∧ col.name = n) (h2 : ∀ b, b < a → ∀ col, cols[b]? = some col → col.name ≠ n) :
    columnIndex cols n = some a := by
  induction cols generalizing a with
  | nil => obtain ⟨col, h, _⟩ := h1; simp at h
  | cons c cs ih =>
    unfold columnIndex
    cases a with
    | zero =>
      obtain ⟨col, h, hn⟩ := h1
      simp at h
      subst h
      rw [if_pos hn]
    | succ a =>
      rw [if_neg (h2 0 (by omega) c rfl), ih (a := a) (by simpa using h1) (fun b hb col hc => h2 (b + 1) (by omega) col (by simpa using hc))]
      rfl

theorem keyAttrs_of {cols : List Col} {is : List Ident} {attrs : List Nat} (hl : attrs.length = is.length)
    (h : ∀ (n a : Nat) (i : Ident), attrs[n]? = some a → is[n]? = some i →
      (∃ col, cols[a]? = some col ∧ col.name = i.show) ∧ ∀ b, b < a → ∀ col, cols[b]? = some col → col.name ≠ i.show) :
    keyAttrs cols is = some attrs := by
  induction is generalizing attrs with
  | nil => cases attrs with
    | nil => rfl
    | cons _ _ => simp at hl
  | cons i is ih => cases attrs with
    | nil => simp at hl
    | cons a attrs =>
      have h0 := h 0 a i rfl rfl
      unfold keyAttrs
      rw [columnIndex_of h0.1 h0.2, ih (by simpa using hl) (fun n a i h1 h2 => h (n + 1) a i (by simpa using h1) (by simpa using h2))]
      rfl

/-- A CREATE INDEX whose name no index of the database has adds the index to its table, with the positions of its columns — the first columns of these names —, and no other index of any table of the database changes. -/
theorem C102_create_index_partial (evs : List Ev) (e : Env) (i t : Ident) (cols : List Ident) (ine : Bool) (db : Db) (info : Tab) (attrs : List Nat)
    (hdb : ((Cat.boot none).run evs).current = some db) (hnew : ∀ u, ∀ x ∈ db.tableIndexes u, x.name ≠ i.show)
    (ht : db.getTable t.show = some info) (hlen : attrs.length = cols.length)
    (hpos : ∀ (n a : Nat) (k : Ident), attrs[n]? = some a → cols[n]? = some k →
      (∃ col, info.cols[a]? = some col ∧ col.name = k.show) ∧ ∀ b, b < a → ∀ col, info.cols[b]? = some col → col.name ≠ k.show) :
    ∃ db', (((Cat.boot none).run evs).exec e (.createIndex (some [i]) [t] cols ine)).2.current = some db' ∧
      db'.tableIndexes t.show = db.tableIndexes t.show ++ [⟨i.show, t.show, attrs, db.nextIdx⟩] ∧
      ∀ u, u ≠ t.show → db'.tableIndexes u = db.tableIndexes u := by
  have hk := keyAttrs_of hlen hpos
  generalize hc : (Cat.boot none).run evs = c at hdb
  have hi : c.Inv := by rw [← hc]; exact Cat.reachable_inv evs
  have hok := hi.ok _ _ hdb
  have hgt : c.getTable t.show = some info := by
    unfold Cat.getTable
    rw [hdb]
    exact ht
  have hnames : db.names.has t.show = true := by rw [hok.has, ht]; rfl
  have hfree : db.idxNames.has i.show = false := by
    rw [has_false]
    cases hn : db.idxNames.get i.show with
    | none => rfl
    | some o =>
      obtain ⟨x, hx, hxn⟩ := hok.idxName _ _ hn
      have := hnew x.2.table x.2 (by
        unfold Db.tableIndexes
        rw [if_pos (hok.idx x hx).2.2, List.mem_filter]
        exact ⟨List.mem_map.mpr ⟨x, hx, rfl⟩, by simp⟩)
      exact absurd hxn this
  have hany : (c.current.elim [] (·.tableIndexes t.show)).any (fun x => x.name = i.show) = false := by
    rw [hdb]
    simp only [Option.elim_some]
    rw [List.any_eq_false]
    intro x hx
    simpa using hnew _ x hx
  cases hci : db.createIndex i.show t.show attrs with
  | none =>
    unfold Db.createIndex at hci
    rw [if_neg (by rw [hnames]; simp), if_neg (by rw [hfree]; simp)] at hci
    cases hci
  | some q =>
    obtain ⟨ix, db'⟩ := q
    obtain ⟨_, hix, hidxs⟩ := hok.createIndex hci
    obtain ⟨hn, _, _⟩ := Db.createIndex_some hci
    have hex : (c.exec e (.createIndex (some [i]) [t] cols ine)).2 = c.put db' := by
      show (c.execCreateIndex (some [i]) [t] cols).2 = _
      unfold Cat.execCreateIndex
      simp only [hgt, hk]
      have hci' : (c.createIndex i.show t.show attrs).2 = c.put db' := by
        unfold Cat.createIndex
        simp only [hdb, hci]
      show (if ((c.current.elim [] (·.tableIndexes t.show)).any fun x => x.name = i.show) = true then (Out.ok true, c)
        else (Out.ok true, (c.createIndex i.show t.show attrs).2)).2 = _
      rw [hany]
      exact hci'
    refine ⟨db', by rw [hex]; simp [Cat.current, Cat.put], ?_, ?_⟩
    · unfold Db.tableIndexes
      rw [hn, hidxs, hix]
      simp [hnames]
    · intro u hu
      have : ¬ t.show = u := fun h => hu h.symm
      unfold Db.tableIndexes
      rw [hn, hidxs, hix]
      simp [this]

example : let c := (Cat.boot none).run [.stmt mkT yes]
    (c.current.map fun db => (db.idxNames.get ['i'], db.idxs)) = some (none, []) ∧
    ((c.exec yes (.createIndex (some [⟨['i'], none⟩]) nt [ib] false)).2.current.map fun db => (db.tableIndexes ['t']).map Idx.attrs) = some [[1]] := by
  decide

/-- Statements that report success and do nothing: ALTER TABLE, CREATE VIEW, SAVEPOINT and the like; a CREATE INDEX under a name another table's index has; CREATE DATABASE of one that
exists; USE of one that does not. -/
theorem C102_nothing_done_fails :
    let c := (Cat.boot none).run [.stmt mkT yes, .stmt mkU yes, .stmt (.createIndex (some [⟨['i'], none⟩]) nt [ia] false) yes]
    (∀ s ∈ [Stmt.echo, .createIndex (some [⟨['i'], none⟩]) nu [ib] false, .createDatabase [⟨defaultDb, none⟩] false, .use nx], c.exec yes s = (.ok true, c)) := by
  decide

/-! ## C103: databases and clients -/

/-- C103. Only USE changes the database names are looked up in. Partial: it changes it for all clients at once, see below. -/
theorem C103_only_use_partial (evs : List Ev) (h : ∀ ev ∈ evs, OneDb ev) : ((Cat.boot none).run evs).cur = defaultDb := by
  have key : ∀ (evs : List Ev) (c : Cat), c.Inv → (∀ ev ∈ evs, OneDb ev) → (c.run evs).cur = c.cur := by
    intro evs
    induction evs with
    | nil => intro c _ _; rfl
    | cons ev evs ih =>
      intro c hi h
      have hs : (c.step ev).cur = c.cur := by
        cases ev with
        | page => rfl
        | stmt s e =>
          have h0 := h (.stmt s e) (by simp)
          cases s with
          | createTable m defs fks ine =>
            show (c.execCreateTable e m defs fks ine).2.cur = c.cur
            rcases c.execCreateTable_cases e m defs fks ine with h1 | ⟨h1, _⟩ | ⟨cols, _, h1⟩
            · rw [h1]
            · rw [h1]
            · rw [h1]
              rcases Cat.createTable_cases hi m.show cols e with ⟨h2, _⟩ | ⟨x, c', h2, _, _, _, _, _, _, h8, _⟩
              · rw [h2]
              · rw [h2]; exact h8
          | createIndex nm m cols ine =>
            show (c.execCreateIndex nm m cols).2.cur = c.cur
            rcases c.execCreateIndex_cases nm m cols with h1 | ⟨i, tn, attrs, h1⟩
            · rw [h1]
            · rw [h1]; exact (c.createIndex_rest i tn attrs).1
          | createDatabase m ine =>
            show (c.execCreateDatabase m ine).2.cur = c.cur
            rcases c.execCreateDatabase_cases m ine with h1 | ⟨k, h1⟩
            · rw [h1]
            · rw [h1]; exact (c.createDatabase_file k).2.2
          | use m => exact absurd h0 (by simp [OneDb])
          | echo => rfl
          | rollback => rfl
          | other => rfl
      exact (ih (c.step ev) (hi.step ev) (fun x hx => h x (List.mem_cons_of_mem _ hx))).trans hs
  rw [Cat.boot_none]
  exact key evs (Cat.new none) (Cat.new_inv none) h

example : let evs : List Ev := [.stmt (.createDatabase nx false) yes, .stmt mkT yes]
    (∀ ev ∈ evs, OneDb ev) ∧ ((((Cat.boot none).run evs).selectTable nt).map Tab.oid) = some 5 := by
  refine ⟨?_, by decide⟩
  intro ev hev
  simp only [List.mem_cons, List.not_mem_nil, or_false] at hev
  rcases hev with rfl | rfl <;> trivial

/-- C103 is false: after another client's `USE x`, a client no longer finds its table, and its next CREATE TABLE puts the table into the other database. -/
theorem C103_use_is_shared_fails :
    let before := (Cat.boot none).run [.stmt (.createDatabase nx false) yes, .stmt mkT yes]
    let after := before.run [.stmt (.use nx) yes]
    (before.selectTable nt).isSome = true ∧ after.selectTable nt = none ∧ ((after.run [.stmt mkT yes]).tab ['x'] ['t']).isSome = true := by
  decide

/-! ## C84: transactions -/

/-- A ROLLBACK leaves the tables that were created in the transaction. -/
theorem C84_create_table_stays_fails :
    (((Cat.boot none).run [.stmt mkT yes, .stmt .rollback yes]).selectTable nt).isSome = true := by
  decide

end Verif.Catalog

import Verif.Catalog.Refine

/-! # What a restart keeps -/

namespace Verif.Catalog

open Verif (AMap)

theorem Cat.createDatabase_file (c : Cat) (n : Name) : (c.createDatabase n).2.file = c.file ∧ (c.createDatabase n).2.sys = c.sys ∧ (c.createDatabase n).2.cur = c.cur := by
  unfold Cat.createDatabase
  split <;> exact ⟨rfl, rfl, rfl⟩

theorem Cat.useDatabase_file (c : Cat) (n : Name) : (c.useDatabase n).2.file = c.file := by
  unfold Cat.useDatabase
  split <;> rfl

theorem Cat.createTable_file (c : Cat) (n : Name) (cols : List Col) (e : Env) : (c.createTable n cols e).2.file = c.file := by
  unfold Cat.createTable
  split
  · rfl
  · split
    · rfl
    · unfold Cat.record
      split <;> rfl

/-- No statement writes the snapshot. -/
theorem Cat.exec_file (c : Cat) (e : Env) (s : Stmt) : (c.exec e s).2.file = c.file := by
  cases s with
  | createTable n defs fks ine =>
    show (c.execCreateTable e n defs fks ine).2.file = c.file
    rcases c.execCreateTable_cases e n defs fks ine with h1 | ⟨h1, _⟩ | ⟨cols, _, h1⟩
    · rw [h1]
    · rw [h1]
    · rw [h1]; exact c.createTable_file _ _ _
  | createIndex nm t cols ine =>
    show (c.execCreateIndex nm t cols).2.file = c.file
    rcases c.execCreateIndex_cases nm t cols with h1 | ⟨i, tn, attrs, h1⟩
    · rw [h1]
    · rw [h1]; exact (c.createIndex_rest i tn attrs).2.2.2.1
  | createDatabase n ine =>
    show (c.execCreateDatabase n ine).2.file = c.file
    rcases c.execCreateDatabase_cases n ine with h1 | ⟨m, h1⟩
    · rw [h1]
    · rw [h1]; exact (c.createDatabase_file m).1
  | use n =>
    show (c.execUse n).2.file = c.file
    rcases c.execUse_cases n with h1 | ⟨m, h1⟩
    · rw [h1]
    · rw [h1]; exact c.useDatabase_file m
  | echo => rfl
  | rollback => rfl
  | other => rfl

theorem Cat.run_file (c : Cat) (evs : List Ev) : (c.run evs).file = c.file := by
  induction evs generalizing c with
  | nil => rfl
  | cons ev evs ih =>
    have h : (c.step ev).file = c.file := by
      cases ev with
      | stmt s e => exact c.exec_file e s
      | page => rfl
    exact (ih (c.step ev)).trans h

/-! ## Reading the rows back -/

/-- The row of a table. -/
def rowOf (t : Tab) : Row := ⟨t.oid, t.name, t.first, t.last, t.cols⟩

/-- The system table describes the tables of the only database. -/
structure Recorded (c : Cat) : Prop where
  cur : c.cur = defaultDb
  low : ∀ db, c.dbs.get defaultDb = some db → 5 ≤ db.nextTab
  oid : ∀ n t, c.tab defaultDb n = some t → 5 ≤ t.oid ∧ t.last = t.first
  rows : ∀ r, r ∈ c.sys ↔ ∃ n t, c.tab defaultDb n = some t ∧ r = rowOf t

theorem recorded_new (f : Option (List Row)) : Recorded (Cat.new f) where
  cur := rfl
  low := by
    intro db h
    have : (Cat.new f).dbs.get defaultDb = some Db.new := by simp [Cat.new, AMap.get]
    rw [this] at h
    cases h
    decide
  oid := by intro n t h; rw [Cat.new_tab] at h; cases h
  rows := by
    intro r
    constructor
    · intro h; cases h
    · rintro ⟨n, t, h, _⟩
      rw [Cat.new_tab] at h
      cases h

theorem Cat.createTable_low {c : Cat} (h : ∀ db, c.dbs.get defaultDb = some db → 5 ≤ db.nextTab) (n : Name) (cols : List Col) (e : Env) :
    ∀ db, (c.createTable n cols e).2.dbs.get defaultDb = some db → 5 ≤ db.nextTab := by
  unfold Cat.createTable
  split
  · exact h
  rename_i d hd
  split
  · exact h
  rename_i t d' hc
  intro db hdb
  have hdb : (c.put d').dbs.get defaultDb = some db := by
    unfold Cat.record at hdb
    split at hdb <;> exact hdb
  simp only [Cat.put, AMap.get_set] at hdb
  split at hdb
  · rename_i hcur
    cases hdb
    unfold Db.createTable at hc
    split at hc
    · cases hc
    split at hc
    · simp only [Option.some.injEq, Prod.mk.injEq] at hc
      obtain ⟨_, rfl⟩ := hc
      have := h d (by rw [← hcur]; exact hd)
      show 5 ≤ d.nextTab + 1
      omega
    · cases hc
  · exact h db hdb

theorem Cat.createIndex_low {c : Cat} (h : ∀ db, c.dbs.get defaultDb = some db → 5 ≤ db.nextTab) (i t : Name) (attrs : List Nat) :
    ∀ db, (c.createIndex i t attrs).2.dbs.get defaultDb = some db → 5 ≤ db.nextTab := by
  unfold Cat.createIndex
  split
  · exact h
  rename_i d hd
  split
  · exact h
  rename_i ix d' hc
  intro db hdb
  simp only [Cat.put, AMap.get_set] at hdb
  split at hdb
  · rename_i hcur
    cases hdb
    rw [(Db.createIndex_some hc).2.2]
    exact h d (by rw [← hcur]; exact hd)
  · exact h db hdb

theorem Recorded.createTable {c : Cat} (hi : c.Inv) (h : Recorded c) (n : Name) (cols : List Col) (e : Env) (hk : e.kept = true) :
    Recorded (c.createTable n cols e).2 := by
  have hlow := Cat.createTable_low h.low n cols e
  rcases Cat.createTable_cases hi n cols e with ⟨h1, _⟩ | ⟨t, c', h1, h2, h3, h4, h5, h6, h7, h8, h9, _, hsys, h10, h11, h12, hoid⟩
  · rw [h1]
    exact h
  · rw [h1] at hlow ⊢
    rw [h.cur] at h2
    have hcur := h.cur
    have htab : ∀ m, c'.tab defaultDb m = if m = n then some t else c.tab defaultDb m := by
      intro m
      rw [h10, hcur]
      simp
    constructor
    · rw [h8]; exact h.cur
    · exact hlow
    · intro m x hx
      rw [htab] at hx
      split at hx
      · cases hx
        refine ⟨?_, h7⟩
        cases hd : c.dbs.get c.cur with
        | none =>
          have := hi.cur
          rw [hd] at this
          cases this
        | some db =>
          rw [hoid db hd]
          exact h.low db (by rw [← hcur]; exact hd)
      · exact h.oid m x hx
    · intro r
      rw [hsys, hk]
      simp only [if_true, List.mem_append, List.mem_singleton, h.rows]
      constructor
      · rintro (⟨m, x, hx, rfl⟩ | rfl)
        · refine ⟨m, x, ?_, rfl⟩
          rw [htab]
          split
          · rename_i hmn
            rw [hmn, h2] at hx
            cases hx
          · exact hx
        · exact ⟨n, t, by rw [htab, if_pos rfl], rfl⟩
      · rintro ⟨m, x, hx, rfl⟩
        rw [htab] at hx
        split at hx
        · cases hx
          exact .inr rfl
        · exact .inl ⟨m, x, hx, rfl⟩

theorem Recorded.same {c c' : Cat} (h : Recorded c) (hcur : c'.cur = c.cur) (hlow : ∀ db, c'.dbs.get defaultDb = some db → 5 ≤ db.nextTab)
    (ht : ∀ d n, c'.tab d n = c.tab d n) (hs : c'.sys = c.sys) : Recorded c' where
  cur := by rw [hcur]; exact h.cur
  low := hlow
  oid := by
    intro n t hx
    rw [ht] at hx
    exact h.oid n t hx
  rows := by
    intro r
    simp only [ht, hs]
    exact h.rows r

theorem Recorded.step {c : Cat} (hi : c.Inv) (h : Recorded c) {ev : Ev} (h1 : OneDb ev) (hk : Kept ev) : Recorded (c.step ev) := by
  cases ev with
  | page => exact h.same rfl h.low (fun _ _ => rfl) rfl
  | stmt s e =>
    have hk : e.kept = true := hk
    cases s with
    | createTable n defs fks ine =>
      show Recorded (c.execCreateTable e n defs fks ine).2
      rcases c.execCreateTable_cases e n defs fks ine with h1 | ⟨h1, _⟩ | ⟨cols, _, h1⟩
      · rw [h1]; exact h
      · rw [h1]; exact h
      · rw [h1]; exact h.createTable hi _ _ _ hk
    | createIndex nm t cols ine =>
      show Recorded (c.execCreateIndex nm t cols).2
      rcases c.execCreateIndex_cases nm t cols with h1 | ⟨i, tn, attrs, h1⟩
      · rw [h1]; exact h
      · rw [h1]
        obtain ⟨r1, _, r3, _, _⟩ := c.createIndex_rest i tn attrs
        exact h.same r1 (Cat.createIndex_low h.low i tn attrs) (c.createIndex_tab i tn attrs) r3
    | createDatabase n ine =>
      show Recorded (c.execCreateDatabase n ine).2
      rcases c.execCreateDatabase_cases n ine with h1 | ⟨m, h1⟩
      · rw [h1]; exact h
      · rw [h1]
        obtain ⟨_, r2, r3⟩ := c.createDatabase_file m
        refine h.same r3 ?_ (c.createDatabase_tab m) r2
        intro db hdb
        unfold Cat.createDatabase at hdb
        split at hdb
        · exact h.low db hdb
        · simp only [AMap.get_set] at hdb
          split at hdb
          · cases hdb
            decide
          · exact h.low db hdb
    | use n => exact absurd h1 (by simp [OneDb])
    | echo => exact h
    | rollback => exact h
    | other => exact h

theorem recorded_run (evs : List Ev) {c : Cat} (hi : c.Inv) (h : Recorded c) (h1 : ∀ ev ∈ evs, OneDb ev) (hk : ∀ ev ∈ evs, Kept ev) :
    Recorded (c.run evs) := by
  induction evs generalizing c with
  | nil => exact h
  | cons ev evs ih =>
    exact ih (hi.step ev) (h.step hi (h1 _ (by simp)) (hk _ (by simp))) (fun x hx => h1 x (List.mem_cons_of_mem _ hx))
      (fun x hx => hk x (List.mem_cons_of_mem _ hx))

/-- Tables with different names or ids do not get in each other's way. -/
def Apart (t : Tab) (ts : List Tab) : Prop := ∀ x ∈ ts, (x.name = t.name ∨ x.oid = t.oid) → x = t

theorem Db.load_keeps {t : Tab} : ∀ (ts : List Tab) (d : Db), Apart t ts → d.names.get t.name = some t.oid → d.tabs.get t.oid = some t →
    (d.load ts).names.get t.name = some t.oid ∧ (d.load ts).tabs.get t.oid = some t
  | [], _, _, h1, h2 => ⟨h1, h2⟩
  | x :: ts, d, ha, h1, h2 => by
    have hx := ha x (by simp)
    unfold Db.load
    refine Db.load_keeps ts _ (fun y hy => ha y (List.mem_cons_of_mem _ hy)) ?_ ?_
    · simp only [AMap.get_set]
      split
      · rename_i hn
        rw [hx (.inl hn)]
      · exact h1
    · simp only [AMap.get_set]
      split
      · rename_i ho
        rw [hx (.inr ho)]
      · exact h2

theorem Db.load_mem {t : Tab} : ∀ (ts : List Tab) (d : Db), Apart t ts → t ∈ ts → (d.load ts).getTable t.name = some t
  | [], _, _, h => by cases h
  | x :: ts, d, ha, h => by
    unfold Db.load
    have ha' : Apart t ts := fun y hy => ha y (List.mem_cons_of_mem _ hy)
    by_cases hx : x = t
    · subst hx
      obtain ⟨h1, h2⟩ := Db.load_keeps ts { d with nextTab := max d.nextTab (x.oid + 1), names := d.names.set x.name x.oid, tabs := d.tabs.set x.oid x }
        ha' (by simp) (by simp)
      unfold Db.getTable
      rw [h1]
      exact h2
    · rcases List.mem_cons.mp h with h | h
      · exact absurd h.symm hx
      · exact Db.load_mem ts _ ha' h

theorem Db.load_other {n : Name} : ∀ (ts : List Tab) (d : Db), (∀ t ∈ ts, t.name ≠ n) → (d.load ts).names.get n = d.names.get n
  | [], _, _ => rfl
  | x :: ts, d, h => by
    unfold Db.load
    rw [Db.load_other ts _ (fun t ht => h t (List.mem_cons_of_mem _ ht))]
    simp only [AMap.get_set]
    rw [if_neg (h x (by simp))]

theorem rowOf_tab {t : Tab} (h : t.last = t.first) : (rowOf t).tab = t := by
  obtain ⟨n, cs, o, f, l⟩ := t
  simp only at h
  subst h
  unfold rowOf Row.tab
  cases l <;> rfl

/-- The rows of a catalog, loaded into a new one, give its tables. -/
theorem recorded_load {c : Cat} (hi : c.Inv) (h : Recorded c) (n : Name) : (Db.new.load (c.sys.map Row.tab)).getTable n = c.tab defaultDb n := by
  cases hd : c.dbs.get defaultDb with
  | none =>
    have := hi.cur
    rw [h.cur, hd] at this
    cases this
  | some db =>
    have hok := hi.ok _ _ hd
    have htab : ∀ m, c.tab defaultDb m = db.getTable m := by
      intro m
      unfold Cat.tab
      rw [hd]
      rfl
    cases ht : c.tab defaultDb n with
    | none =>
      have hno : ∀ t ∈ c.sys.map Row.tab, t.name ≠ n := by
        intro t hm
        rw [List.mem_map] at hm
        obtain ⟨r, hr, rfl⟩ := hm
        obtain ⟨m, x, hx, rfl⟩ := (h.rows r).mp hr
        intro e
        have : x.name = m := (hok.getTable (by rw [← htab]; exact hx)).2
        rw [show (rowOf x).tab.name = x.name from rfl, this] at e
        subst e
        rw [hx] at ht
        cases ht
      have := Db.load_other (c.sys.map Row.tab) Db.new hno
      unfold Db.getTable
      rw [this]
      rfl
    | some t =>
      have hgt := hok.getTable (by rw [← htab]; exact ht)
      have hmem : t ∈ c.sys.map Row.tab := by
        rw [List.mem_map]
        exact ⟨rowOf t, (h.rows _).mpr ⟨n, t, ht, rfl⟩, rowOf_tab (h.oid n t ht).2⟩
      have hap : Apart t (c.sys.map Row.tab) := by
        intro x hx he
        rw [List.mem_map] at hx
        obtain ⟨r, hr, rfl⟩ := hx
        obtain ⟨m, y, hy, rfl⟩ := (h.rows r).mp hr
        rw [rowOf_tab (h.oid m y hy).2] at he ⊢
        have hgy := hok.getTable (by rw [← htab]; exact hy)
        rcases he with he | he
        · rw [hgy.2, hgt.2] at he
          subst he
          rw [ht] at hy
          cases hy
          rfl
        · obtain ⟨_, u, hu, hu1, hu2⟩ := hok.tab _ _ hgy.1
          obtain ⟨_, v, hv, hv1, hv2⟩ := hok.tab _ _ hgt.1
          rw [he, hv] at hu
          cases hu
          rw [hu1] at hv1
          subst hv1
          rw [ht] at hy
          cases hy
          rfl
      have := Db.load_mem _ Db.new hap hmem
      rw [hgt.2] at this
      exact this

theorem recorded_user {c : Cat} (h : Recorded c) : c.sys.filter (fun r => 1 < r.oid) = c.sys := by
  rw [List.filter_eq_self]
  intro r hr
  obtain ⟨n, t, ht, rfl⟩ := (h.rows r).mp hr
  have := (h.oid n t ht).1
  have : 1 < (rowOf t).oid := by
    show 1 < t.oid
    omega
  exact decide_eq_true this

/-- A snapshot of the rows of a catalog brings its tables back. -/
theorem restart_tab {c : Cat} (hi : c.Inv) (h : Recorded c) (n : Name) : (Cat.boot (some c.sys)).tab (Cat.boot (some c.sys)).cur n = c.tab defaultDb n := by
  have hu := recorded_user h
  have hb : Cat.boot (some c.sys) = { Cat.new (some c.sys) with dbs := [(defaultDb, Db.new.load (c.sys.map Row.tab))] } := by
    unfold Cat.boot Cat.rebuild
    have hcur : (Cat.new (some c.sys)).current = some Db.new := by simp [Cat.current, Cat.new, AMap.get]
    rw [hcur]
    have hf : (Cat.new (some c.sys)).file = some c.sys := rfl
    have hs : (Cat.new (some c.sys)).sys = [] := rfl
    rw [hf, hs]
    simp only [Option.getD_some, List.filter_nil, List.isEmpty_nil, if_true, List.append_nil, hu]
    simp [Cat.put, Cat.new, AMap.set]
  rw [hb]
  have : ∀ (x : Db), ({ Cat.new (some c.sys) with dbs := [(defaultDb, x)] } : Cat).tab defaultDb n = x.getTable n := by
    intro x
    simp [Cat.tab, AMap.get]
  show Cat.tab _ defaultDb n = _
  rw [this]
  exact recorded_load hi h n

theorem rebuild_restart {c : Cat} (hi : c.Inv) (h : Recorded c) (hf : c.file = none) (n : Name) :
    c.rebuild.restart.tab c.rebuild.restart.cur n = c.tab defaultDb n := by
  have hu := recorded_user h
  have hfile : c.rebuild.file = if c.sys.isEmpty then none else some c.sys := by
    unfold Cat.rebuild
    simp only [hu]
    split
    · split
      · show (Cat.put c _).file = none
        exact hf
      · exact hf
    · rfl
  unfold Cat.restart
  rw [hfile]
  cases hs : c.sys with
  | nil =>
    simp only [List.isEmpty_nil, if_true]
    rw [Cat.boot_none, Cat.new_tab]
    cases ht : c.tab defaultDb n with
    | none => rfl
    | some t =>
      have := (h.rows (rowOf t)).mpr ⟨n, t, ht, rfl⟩
      rw [hs] at this
      cases this
  | cons r rs =>
    simp only [List.isEmpty_cons, Bool.false_eq_true, if_false]
    rw [← hs]
    exact restart_tab hi h n

end Verif.Catalog

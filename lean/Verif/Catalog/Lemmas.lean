import Verif.Catalog.Spec

/-! # How the catalog's calls change what names mean -/

namespace Verif.Catalog

open Verif (AMap)

theorem has_iff {K V : Type} [DecidableEq K] (m : AMap K V) (k : K) : m.has k = true ↔ ∃ v, m.get k = some v := by
  unfold AMap.has
  cases m.get k <;> simp

theorem has_false {K V : Type} [DecidableEq K] (m : AMap K V) (k : K) : m.has k = false ↔ m.get k = none := by
  unfold AMap.has
  cases m.get k <;> simp

/-- Every name of a table leads to that table, and every name of an index to that index. -/
structure Db.Ok (d : Db) : Prop where
  tab : ∀ n oid, d.names.get n = some oid → oid < d.nextTab ∧ ∃ t, d.tabs.get oid = some t ∧ t.name = n ∧ t.oid = oid
  idx : ∀ x ∈ d.idxs, x.1 < d.nextIdx ∧ d.idxNames.get x.2.name = some x.1 ∧ d.names.has x.2.table = true
  idxName : ∀ n o, d.idxNames.get n = some o → ∃ x ∈ d.idxs, x.2.name = n

theorem Db.new_ok : Db.new.Ok where
  tab := by intro n oid h; simp [Db.new] at h
  idx := by intro x h; simp [Db.new] at h
  idxName := by intro n o h; simp [Db.new] at h

theorem Db.Ok.getTable {d : Db} (h : d.Ok) {n : Name} {t : Tab} (ht : d.getTable n = some t) : d.names.get n = some t.oid ∧ t.name = n := by
  unfold Db.getTable at ht
  cases hn : d.names.get n with
  | none => simp [hn] at ht
  | some oid =>
    obtain ⟨_, t', h1, h2, h3⟩ := h.tab n oid hn
    simp only [hn, Option.bind_some, h1, Option.some.injEq] at ht
    subst ht
    exact ⟨by rw [h3], h2⟩

theorem Db.Ok.has {d : Db} (h : d.Ok) (n : Name) : d.names.has n = (d.getTable n).isSome := by
  unfold Db.getTable AMap.has
  cases hn : d.names.get n with
  | none => rfl
  | some oid =>
    obtain ⟨_, t', h1, _, _⟩ := h.tab n oid hn
    simp [h1]

theorem columnIndex_isSome (cols : List Col) (n : Name) : (columnIndex cols n).isSome = true ↔ n ∈ cols.map Col.name := by
  induction cols with
  | nil => simp [columnIndex]
  | cons c cs ih =>
    unfold columnIndex
    by_cases hc : c.name = n
    · simp [hc]
    · rw [if_neg hc, Option.isSome_map, ih]
      constructor
      · exact fun h => List.mem_cons_of_mem _ h
      · intro h
        rcases List.mem_cons.mp h with h | h
        · exact absurd h.symm hc
        · exact h

/-- The check of foreign keys is what the specification says. -/
theorem Db.fkOk_iff {d : Db} (h : d.Ok) (cols : List Col) :
    d.fkOk cols = true ↔ refersIn (fun n => (d.getTable n).map Tab.cols) cols := by
  induction cols with
  | nil => simp [Db.fkOk, refersIn]
  | cons c cs ih =>
    have hsplit : refersIn (fun n => (d.getTable n).map Tab.cols) (c :: cs) ↔
        (∀ r, c.fk = some r → ∃ cols', (d.getTable r.1).map Tab.cols = some cols' ∧ r.2 ∈ cols'.map Col.name) ∧
          refersIn (fun n => (d.getTable n).map Tab.cols) cs := by
      unfold refersIn
      simp only [List.forall_mem_cons]
    rw [hsplit, ← ih, Db.fkOk]
    cases hfk : c.fk with
    | none => simp
    | some r =>
      obtain ⟨t, rc⟩ := r
      simp only [Option.some.injEq, forall_eq']
      rw [h.has]
      cases hg : d.getTable t with
      | none => simp
      | some info =>
        have hc := columnIndex_isSome info.cols rc
        by_cases hm : (columnIndex info.cols rc).isSome = true
        · have := hc.mp hm
          simp only [Option.isSome_some, if_true, hm, Option.map_some, Option.some.injEq, exists_eq_left', this, true_and]
        · have hn : ¬ rc ∈ info.cols.map Col.name := fun hx => hm (hc.mpr hx)
          simp only [Option.isSome_some, if_true, hm, Option.map_some, Option.some.injEq, exists_eq_left', hn, false_and]
          simp

/-- What `create_table` does to a database. -/
theorem Db.createTable_some {d d' : Db} (h : d.Ok) {n : Name} {cols : List Col} {p : Option Nat} {t : Tab}
    (hc : d.createTable n cols p = some (t, d')) :
    d.getTable n = none ∧ d.fkOk cols = true ∧ t = ⟨n, cols, d.nextTab, p, p⟩ ∧ d'.Ok ∧ d'.nextTab = d.nextTab + 1 ∧
      d'.idxs = d.idxs ∧ d'.idxNames = d.idxNames ∧ d'.nextIdx = d.nextIdx ∧
      ∀ m, d'.getTable m = if m = n then some t else d.getTable m := by
  unfold Db.createTable at hc
  rw [h.has] at hc
  split at hc
  · cases hc
  rename_i hn
  split at hc
  · rename_i hfk
    simp only [Option.some.injEq, Prod.mk.injEq] at hc
    obtain ⟨rfl, rfl⟩ := hc
    have hnone : d.getTable n = none := by simpa using hn
    refine ⟨hnone, hfk, rfl, ?_, rfl, rfl, rfl, rfl, ?_⟩
    · refine ⟨?_, ?_, h.idxName⟩
      · intro m oid hm
        simp only [AMap.get_set] at hm ⊢
        split at hm
        · cases hm
          rename_i hmn
          exact ⟨Nat.lt_succ_self _, ⟨n, cols, d.nextTab, p, p⟩, by simp, hmn, rfl⟩
        · obtain ⟨hlt, t, h1, h2, h3⟩ := h.tab m oid hm
          refine ⟨by omega, t, ?_, h2, h3⟩
          rw [if_neg (by omega)]
          exact h1
      · intro x hx
        obtain ⟨h1, h2, h3⟩ := h.idx x hx
        refine ⟨h1, h2, ?_⟩
        rw [has_iff] at h3 ⊢
        obtain ⟨v, hv⟩ := h3
        simp only [AMap.get_set]
        split
        · exact ⟨_, rfl⟩
        · exact ⟨v, hv⟩
    · intro m
      unfold Db.getTable
      simp only [AMap.get_set]
      by_cases hm : n = m
      · subst hm
        simp
      · rw [if_neg hm, if_neg (fun e => hm e.symm)]
        cases hg : d.names.get m with
        | none => rfl
        | some oid =>
          obtain ⟨hlt, _⟩ := h.tab m oid hg
          simp only [Option.bind_some, AMap.get_set]
          rw [if_neg (by omega)]
  · cases hc

theorem Db.createTable_none {d : Db} (h : d.Ok) {n : Name} {cols : List Col} {p : Option Nat} :
    d.createTable n cols p = none ↔ ¬ (d.getTable n = none ∧ d.fkOk cols = true) := by
  unfold Db.createTable
  rw [h.has]
  cases d.getTable n <;> cases d.fkOk cols <;> simp

/-- What `create_index` does to a database. -/
theorem Db.Ok.createIndex {d d' : Db} (h : d.Ok) {i t : Name} {attrs : List Nat} {ix : Idx} (hc : d.createIndex i t attrs = some (ix, d')) :
    d'.Ok ∧ ix = ⟨i, t, attrs, d.nextIdx⟩ ∧ d'.idxs = d.idxs ++ [(d.nextIdx, ix)] := by
  unfold Db.createIndex at hc
  split at hc
  · cases hc
  rename_i hn
  split at hc
  · cases hc
  rename_i hi
  simp only [Option.some.injEq, Prod.mk.injEq] at hc
  obtain ⟨rfl, rfl⟩ := hc
  have hi : d.idxNames.get i = none := (has_false _ _).mp (by simpa using hi)
  have hset : d.idxs.set d.nextIdx ⟨i, t, attrs, d.nextIdx⟩ = d.idxs ++ [(d.nextIdx, ⟨i, t, attrs, d.nextIdx⟩)] := by
    apply AMap.set_of_not_mem
    intro hm
    unfold AMap.keys at hm
    rw [List.mem_map] at hm
    obtain ⟨y, hy, he⟩ := hm
    have := (h.idx y hy).1
    omega
  refine ⟨⟨h.tab, ?_, ?_⟩, rfl, hset⟩
  · intro x hx
    simp only [hset, List.mem_append, List.mem_singleton] at hx
    rcases hx with hx | rfl
    · obtain ⟨h1, h2, h3⟩ := h.idx x hx
      refine ⟨by simp only; omega, ?_, h3⟩
      simp only [AMap.get_set]
      split
      · rename_i he
        rw [he, h2] at hi
        cases hi
      · exact h2
    · refine ⟨Nat.lt_succ_self _, by simp, ?_⟩
      simpa using hn
  · intro n o ho
    simp only [AMap.get_set] at ho
    simp only [hset, List.mem_append, List.mem_singleton]
    split at ho
    · rename_i he
      exact ⟨_, .inr rfl, he⟩
    · obtain ⟨x, hx, hxn⟩ := h.idxName n o ho
      exact ⟨x, .inl hx, hxn⟩

/-- A database keeps its tables when an index is created. -/
theorem Db.createIndex_some {d d' : Db} {i t : Name} {attrs : List Nat} {ix : Idx} (hc : d.createIndex i t attrs = some (ix, d')) :
    d'.names = d.names ∧ d'.tabs = d.tabs ∧ d'.nextTab = d.nextTab := by
  unfold Db.createIndex at hc
  split at hc
  · cases hc
  split at hc
  · cases hc
  simp only [Option.some.injEq, Prod.mk.injEq] at hc
  obtain ⟨_, rfl⟩ := hc
  exact ⟨rfl, rfl, rfl⟩

/-! ## The whole catalog -/

/-- The table of a name in a database. -/
def Cat.tab (c : Cat) (d n : Name) : Option Tab := (c.dbs.get d).bind (·.getTable n)

theorem Cat.getTable_eq (c : Cat) (n : Name) : c.getTable n = c.tab c.cur n := rfl

/-- Holds of every catalog the server comes to: the database in use exists, names lead to their tables, foreign keys refer to something, and no two tables share a first page. -/
structure Cat.Inv (c : Cat) : Prop where
  cur : (c.dbs.get c.cur).isSome = true
  ok : ∀ d db, c.dbs.get d = some db → db.Ok
  fk : ∀ d n t, c.tab d n = some t → refersIn (fun m => (c.tab d m).map Tab.cols) t.cols
  low : ∀ d n t p, c.tab d n = some t → t.first = some p → 4 ≤ p ∧ p < c.page
  page4 : 4 ≤ c.page
  apart : ∀ d n t d' n' t' p, c.tab d n = some t → c.tab d' n' = some t' → t.first = some p → t'.first = some p → d = d' ∧ n = n'

theorem Cat.boot_none : Cat.boot none = Cat.new none := by decide

theorem Cat.new_tab (f : Option (List Row)) (d n : Name) : (Cat.new f).tab d n = none := by
  unfold Cat.tab Cat.new AMap.get
  split
  · simp [Db.getTable, Db.new]
  · simp

theorem Cat.new_inv (f : Option (List Row)) : (Cat.new f).Inv where
  cur := by simp [Cat.new, AMap.get]
  ok := by
    intro d db h
    unfold Cat.new AMap.get at h
    split at h
    · cases h
      exact Db.new_ok
    · simp at h
  fk := by intro d n t h; rw [Cat.new_tab] at h; cases h
  low := by intro d n t p h; rw [Cat.new_tab] at h; cases h
  page4 := Nat.le_refl 4
  apart := by intro d n t d' n' t' p h; rw [Cat.new_tab] at h; cases h

/-- A change that leaves all tables as they are. -/
theorem Cat.Inv.same {c c' : Cat} (h : c.Inv) (hcur : (c'.dbs.get c'.cur).isSome = true) (hok : ∀ d db, c'.dbs.get d = some db → db.Ok)
    (ht : ∀ d n, c'.tab d n = c.tab d n) (hp : c.page ≤ c'.page) : c'.Inv where
  cur := hcur
  ok := hok
  fk := by
    intro d n t h1
    simp only [ht] at h1 ⊢
    exact h.fk d n t h1
  low := by
    intro d n t p h1 h2
    rw [ht] at h1
    obtain ⟨a, b⟩ := h.low d n t p h1 h2
    exact ⟨a, by omega⟩
  page4 := Nat.le_trans h.page4 hp
  apart := by
    intro d n t d' n' t' p h1 h2 h3 h4
    rw [ht] at h1 h2
    exact h.apart d n t d' n' t' p h1 h2 h3 h4

/-- `create_database` adds an empty database or nothing. -/
theorem Cat.createDatabase_tab (c : Cat) (n d m : Name) : (c.createDatabase n).2.tab d m = c.tab d m := by
  unfold Cat.createDatabase
  split
  · rfl
  rename_i hn
  have hn : c.dbs.get n = none := (has_false _ _).mp (by simpa using hn)
  unfold Cat.tab
  simp only [AMap.get_set]
  split
  · rename_i hd
    subst hd
    rw [hn]
    rfl
  · rfl

theorem Cat.createDatabase_db (c : Cat) (n d : Name) : ((c.createDatabase n).2.dbs.get d).isSome = ((c.dbs.get d).isSome || decide (d = n)) := by
  unfold Cat.createDatabase
  split
  · rename_i hn
    obtain ⟨v, hv⟩ := (has_iff _ _).mp hn
    by_cases hd : d = n
    · subst hd
      simp [hv]
    · simp [hd]
  · simp only [AMap.get_set]
    by_cases hd : n = d
    · subst hd
      simp
    · rw [if_neg hd]
      have : ¬ d = n := fun e => hd e.symm
      simp [this]

theorem Cat.Inv.createDatabase {c : Cat} (h : c.Inv) (n : Name) : (c.createDatabase n).2.Inv := by
  refine h.same ?_ ?_ (c.createDatabase_tab n) ?_
  · have : (c.createDatabase n).2.cur = c.cur := by
      unfold Cat.createDatabase
      split <;> rfl
    rw [this, Cat.createDatabase_db, h.cur]
    rfl
  · intro d db hd
    unfold Cat.createDatabase at hd
    split at hd
    · exact h.ok d db hd
    · simp only [AMap.get_set] at hd
      split at hd
      · cases hd
        exact Db.new_ok
      · exact h.ok d db hd
  · unfold Cat.createDatabase
    split <;> exact Nat.le_refl _

theorem Cat.useDatabase_tab (c : Cat) (n d m : Name) : (c.useDatabase n).2.tab d m = c.tab d m := by
  unfold Cat.useDatabase
  split <;> rfl

theorem Cat.Inv.useDatabase {c : Cat} (h : c.Inv) (n : Name) : (c.useDatabase n).2.Inv := by
  refine h.same ?_ ?_ (c.useDatabase_tab n) ?_
  · unfold Cat.useDatabase
    split
    · rename_i hn
      obtain ⟨v, hv⟩ := (has_iff _ _).mp hn
      simp [hv]
    · exact h.cur
  · intro d db hd
    unfold Cat.useDatabase at hd
    split at hd <;> exact h.ok d db hd
  · unfold Cat.useDatabase
    split <;> exact Nat.le_refl _

/-- What `create_table` does to a catalog. -/
theorem Cat.createTable_cases {c : Cat} (h : c.Inv) (n : Name) (cols : List Col) (e : Env) :
    (c.createTable n cols e = (none, c) ∧ ¬ (c.tab c.cur n = none ∧ refersIn (fun m => (c.tab c.cur m).map Tab.cols) cols)) ∨
    (∃ t c', c.createTable n cols e = (some t, c') ∧ c.tab c.cur n = none ∧ refersIn (fun m => (c.tab c.cur m).map Tab.cols) cols ∧
      t.name = n ∧ t.cols = cols ∧ t.first = (if e.room then some c.page else none) ∧ t.last = t.first ∧
      c'.cur = c.cur ∧ c'.page = (if e.room then c.page + 1 else c.page) ∧ c'.file = c.file ∧
      c'.sys = c.sys ++ (if e.kept then [⟨t.oid, t.name, t.first, t.last, t.cols⟩] else []) ∧
      (∀ d m, c'.tab d m = if d = c.cur ∧ m = n then some t else c.tab d m) ∧
      (∀ d, (c'.dbs.get d).isSome = (c.dbs.get d).isSome) ∧ (∀ d db, c'.dbs.get d = some db → db.Ok) ∧
      (∀ db, c.dbs.get c.cur = some db → t.oid = db.nextTab)) := by
  cases hcur : c.current with
  | none =>
    have := h.cur
    unfold Cat.current at hcur
    rw [hcur] at this
    cases this
  | some d =>
    have hd : c.dbs.get c.cur = some d := hcur
    have hdok := h.ok _ _ hd
    have htab : ∀ m, c.tab c.cur m = d.getTable m := by
      intro m
      unfold Cat.tab
      rw [hd]
      rfl
    have hfk := Db.fkOk_iff hdok cols
    unfold Cat.createTable
    simp only [hcur]
    cases hc : d.createTable n cols (if e.room then some c.page else none) with
    | none =>
      left
      refine ⟨rfl, ?_⟩
      rw [Db.createTable_none hdok] at hc
      simp only [htab]
      rw [← hfk]
      exact hc
    | some q =>
      right
      obtain ⟨t, d'⟩ := q
      obtain ⟨h1, h2, h3, h4, h5, _, _, _, h6⟩ := Db.createTable_some hdok hc
      have hcr : ∀ (x : Cat), (x.record t e.kept).cur = x.cur ∧ (x.record t e.kept).page = x.page ∧ (x.record t e.kept).file = x.file ∧
          (x.record t e.kept).dbs = x.dbs ∧ (x.record t e.kept).sys = x.sys ++ (if e.kept then [⟨t.oid, t.name, t.first, t.last, t.cols⟩] else []) := by
        intro x
        unfold Cat.record
        split <;> simp
      obtain ⟨r1, r2, r3, r4, r5⟩ := hcr ({ c.put d' with page := if e.room then c.page + 1 else c.page })
      refine ⟨t, _, rfl, by rw [htab]; exact h1, by simp only [htab]; exact hfk.mp h2, by rw [h3], by rw [h3], by rw [h3], by rw [h3], ?_, ?_, ?_, ?_, ?_, ?_, ?_, ?_⟩
      · rw [r1]; rfl
      · rw [r2]
      · rw [r3]; rfl
      · rw [r5]; rfl
      · intro dn m
        unfold Cat.tab
        rw [r4]
        simp only [Cat.put, AMap.get_set]
        by_cases hdn : c.cur = dn
        · subst hdn
          simp only [if_true, Option.bind_some, h6, true_and, hd]
        · rw [if_neg hdn, if_neg (fun x => hdn x.1.symm)]
      · intro dn
        rw [r4]
        simp only [Cat.put, AMap.get_set]
        split
        · rename_i hdn
          subst hdn
          rw [hd]
          rfl
        · rfl
      · intro dn db hdb
        rw [r4] at hdb
        simp only [Cat.put, AMap.get_set] at hdb
        split at hdb
        · cases hdb
          exact h4
        · exact h.ok dn db hdb
      · intro db hdb
        rw [hd] at hdb
        cases hdb
        rw [h3]

theorem Cat.Inv.createTable {c : Cat} (h : c.Inv) (n : Name) (cols : List Col) (e : Env) : (c.createTable n cols e).2.Inv := by
  rcases Cat.createTable_cases h n cols e with ⟨h1, _⟩ | ⟨t, c', h1, h2, h3, h4, h5, h6, h7, h8, h9, _, _, h10, h11, h12, _⟩
  · rw [h1]
    exact h
  · rw [h1]
    have hgrow : ∀ d m x, c.tab d m = some x → c'.tab d m = some x := by
      intro d m x hx
      rw [h10]
      split
      · rename_i hh
        rw [hh.1, hh.2, h2] at hx
        cases hx
      · exact hx
    have hpage : c.page ≤ c'.page := by
      rw [h9]
      split <;> omega
    have href : ∀ d cs, refersIn (fun m => (c.tab d m).map Tab.cols) cs → refersIn (fun m => (c'.tab d m).map Tab.cols) cs := by
      intro d cs hc col hcol r hr
      obtain ⟨cs', hcs, hm⟩ := hc col hcol r hr
      simp only [Option.map_eq_some_iff] at hcs
      obtain ⟨x, hx, hxc⟩ := hcs
      exact ⟨cs', by simp only [hgrow _ _ _ hx, Option.map_some, hxc], hm⟩
    constructor
    · rw [h8, h11]
      exact h.cur
    · exact h12
    · intro d m x hx
      rw [h10] at hx
      split at hx
      · rename_i hh
        cases hx
        rw [h5, hh.1]
        exact href _ _ h3
      · exact href _ _ (h.fk d m x hx)
    · intro d m x p hx hp
      rw [h10] at hx
      split at hx
      · cases hx
        rw [h6] at hp
        split at hp
        · cases hp
          rename_i hroom
          rw [h9, if_pos hroom]
          exact ⟨h.page4, by omega⟩
        · cases hp
      · obtain ⟨a, b⟩ := h.low d m x p hx hp
        exact ⟨a, Nat.lt_of_lt_of_le b hpage⟩
    · exact Nat.le_trans h.page4 hpage
    · intro d m x d' m' x' p hx hx' hp hp'
      rw [h10] at hx hx'
      have hnew : t.first = some p → p = c.page := by
        intro hq
        rw [h6] at hq
        split at hq
        · cases hq; rfl
        · cases hq
      split at hx
      · rename_i hh
        cases hx
        split at hx'
        · rename_i hh'
          exact ⟨by rw [hh.1, hh'.1], by rw [hh.2, hh'.2]⟩
        · have := h.low d' m' x' p hx' hp'
          have := hnew hp
          omega
      · split at hx'
        · cases hx'
          have := h.low d m x p hx hp
          have := hnew hp'
          omega
        · exact h.apart d m x d' m' x' p hx hx' hp hp'

theorem Cat.createIndex_tab (c : Cat) (i t : Name) (attrs : List Nat) (d m : Name) : (c.createIndex i t attrs).2.tab d m = c.tab d m := by
  unfold Cat.createIndex
  split
  · rfl
  rename_i db hdb
  split
  · rfl
  rename_i ix d' hc
  obtain ⟨h1, h2, _⟩ := Db.createIndex_some hc
  have hd : c.dbs.get c.cur = some db := hdb
  unfold Cat.tab Cat.put
  simp only [AMap.get_set]
  split
  · rename_i hdn
    subst hdn
    rw [hd]
    simp only [Option.bind_some, Db.getTable, h1, h2]
  · rfl

theorem Cat.createIndex_rest (c : Cat) (i t : Name) (attrs : List Nat) :
    (c.createIndex i t attrs).2.cur = c.cur ∧ (c.createIndex i t attrs).2.page = c.page ∧ (c.createIndex i t attrs).2.sys = c.sys ∧
      (c.createIndex i t attrs).2.file = c.file ∧ ∀ d, ((c.createIndex i t attrs).2.dbs.get d).isSome = (c.dbs.get d).isSome := by
  unfold Cat.createIndex
  split
  · exact ⟨rfl, rfl, rfl, rfl, fun _ => rfl⟩
  rename_i db hdb
  split
  · exact ⟨rfl, rfl, rfl, rfl, fun _ => rfl⟩
  · refine ⟨rfl, rfl, rfl, rfl, fun d => ?_⟩
    have hd : c.dbs.get c.cur = some db := hdb
    simp only [Cat.put, AMap.get_set]
    split
    · rename_i hdn
      subst hdn
      rw [hd]
      rfl
    · rfl

theorem Cat.Inv.createIndex {c : Cat} (h : c.Inv) (i t : Name) (attrs : List Nat) : (c.createIndex i t attrs).2.Inv := by
  obtain ⟨r1, r2, _, _, r5⟩ := c.createIndex_rest i t attrs
  refine h.same ?_ ?_ (c.createIndex_tab i t attrs) (by rw [r2]; exact Nat.le_refl _)
  · rw [r1, r5]
    exact h.cur
  · intro d db hd
    unfold Cat.createIndex at hd
    split at hd
    · exact h.ok d db hd
    rename_i db0 hdb
    split at hd
    · exact h.ok d db hd
    rename_i ix d' hc
    simp only [Cat.put, AMap.get_set] at hd
    split at hd
    · cases hd
      exact ((h.ok _ _ hdb).createIndex hc).1
    · exact h.ok d db hd

/-! ## Statements -/

/-- What CREATE TABLE does, by cases: nothing, or the catalog's call. -/
theorem Cat.execCreateTable_cases (c : Cat) (e : Env) (n : ObjName) (defs : List ColDef) (fks : List FkDef) (ine : Bool) :
    (c.execCreateTable e n defs fks ine = (.error, c)) ∨
    (c.execCreateTable e n defs fks ine = (.ok true, c) ∧ (c.getTable n.show).isSome = true) ∨
    (∃ cols, (convertCols defs).bind (addFks · fks) = some cols ∧
      c.execCreateTable e n defs fks ine = ((match (c.createTable n.show cols e).1 with | some _ => Out.ok true | none => Out.error), (c.createTable n.show cols e).2)) := by
  unfold Cat.execCreateTable
  simp only
  by_cases h1 : n.show = []
  · rw [if_pos h1]; exact .inl rfl
  rw [if_neg h1]
  by_cases h2 : defs = []
  · rw [if_pos h2]; exact .inl rfl
  rw [if_neg h2]
  cases h3 : c.getTable n.show with
  | some x =>
    simp only
    cases ine
    · exact .inl (by simp)
    · simp only [if_true]
      cases convertCols defs with
      | none => exact .inl rfl
      | some _ => exact .inr (.inl ⟨rfl, rfl⟩)
  | none =>
    simp only
    cases h4 : (convertCols defs).bind (addFks · fks) with
    | none => exact .inl rfl
    | some cols =>
      refine .inr (.inr ⟨cols, rfl, ?_⟩)
      simp only
      cases h5 : c.createTable n.show cols e with
      | mk a b => cases a <;> rfl

theorem Cat.execCreateIndex_cases (c : Cat) (nm : Option ObjName) (t : ObjName) (cols : List Ident) :
    (c.execCreateIndex nm t cols).2 = c ∨ ∃ i tn attrs, (c.execCreateIndex nm t cols).2 = (c.createIndex i tn attrs).2 := by
  unfold Cat.execCreateIndex
  split
  · simp only
    split
    · exact .inl rfl
    · split
      · exact .inl rfl
      · generalize List.any _ _ = b
        cases b
        · exact .inr ⟨_, _, _, rfl⟩
        · exact .inl rfl
  · exact .inl rfl

theorem Cat.execCreateDatabase_cases (c : Cat) (n : ObjName) (ine : Bool) :
    (c.execCreateDatabase n ine).2 = c ∨ ∃ m, (c.execCreateDatabase n ine).2 = (c.createDatabase m).2 := by
  unfold Cat.execCreateDatabase
  split
  · exact .inl rfl
  · split
    · exact .inl rfl
    · exact .inr ⟨_, rfl⟩

theorem Cat.execUse_cases (c : Cat) (n : ObjName) :
    (c.execUse n).2 = c ∨ ∃ m, (c.execUse n).2 = (c.useDatabase m).2 := by
  unfold Cat.execUse
  split
  · exact .inl rfl
  · split
    · exact .inl rfl
    · exact .inr ⟨_, rfl⟩

theorem Cat.Inv.exec {c : Cat} (h : c.Inv) (e : Env) (s : Stmt) : (c.exec e s).2.Inv := by
  cases s with
  | createTable n defs fks ine =>
    show (c.execCreateTable e n defs fks ine).2.Inv
    rcases c.execCreateTable_cases e n defs fks ine with h1 | ⟨h1, _⟩ | ⟨cols, _, h1⟩
    · rw [h1]; exact h
    · rw [h1]; exact h
    · rw [h1]; exact h.createTable _ _ _
  | createIndex nm t cols ine =>
    show (c.execCreateIndex nm t cols).2.Inv
    rcases c.execCreateIndex_cases nm t cols with h1 | ⟨i, tn, attrs, h1⟩
    · rw [h1]; exact h
    · rw [h1]; exact h.createIndex _ _ _
  | createDatabase n ine =>
    show (c.execCreateDatabase n ine).2.Inv
    rcases c.execCreateDatabase_cases n ine with h1 | ⟨m, h1⟩
    · rw [h1]; exact h
    · rw [h1]; exact h.createDatabase _
  | use n =>
    show (c.execUse n).2.Inv
    rcases c.execUse_cases n with h1 | ⟨m, h1⟩
    · rw [h1]; exact h
    · rw [h1]; exact h.useDatabase _
  | echo => exact h
  | rollback => exact h
  | other => exact h

theorem Cat.Inv.step {c : Cat} (h : c.Inv) (ev : Ev) : (c.step ev).Inv := by
  cases ev with
  | stmt s e => exact h.exec e s
  | page => exact h.same h.cur h.ok (fun _ _ => rfl) (Nat.le_succ _)

theorem Cat.Inv.run {c : Cat} (h : c.Inv) (evs : List Ev) : (c.run evs).Inv := by
  induction evs generalizing c with
  | nil => exact h
  | cons ev evs ih => exact ih (h.step ev)

theorem Cat.reachable_inv (evs : List Ev) : ((Cat.boot none).run evs).Inv := by
  rw [Cat.boot_none]
  exact (Cat.new_inv none).run evs

end Verif.Catalog

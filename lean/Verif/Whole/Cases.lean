import Verif.Whole.Props
import Verif.Plan.FromFails

/-!
# A history with a join in an open transaction, and the width of rows
-/

namespace Verif.Whole

open Verif.Wire Verif.Bytes Verif.Sql Verif.Exec Verif.Dml Verif.Plan

/-! ## Rows are as wide as their table -/

theorem effect_width {d : Disk} {ext : Value → Nat → Option Value} {cols : List Column} {s : Stmt} {rows rows' : List Row} {r : Dml.Reply} (E : Effect d ext cols s rows r rows')
    (h : ∀ row ∈ rows, row.length = cols.length) : ∀ row ∈ rows', row.length = cols.length := by
  cases E with
  | insert hl hs =>
    intro row hrow
    rcases List.mem_append.1 hrow with hrow | hrow
    · exact h row hrow
    · obtain ⟨i, hi, he⟩ := List.mem_iff_getElem.1 hrow
      exact (hs i _ row (List.getElem?_eq_getElem (hl ▸ hi)) (List.getElem?_eq_some_iff.2 ⟨hi, he⟩)).1
  | delete => exact fun row hrow => h row (List.mem_filter.1 hrow).1
  | update hu =>
    intro row hrow
    obtain ⟨x, hx, rfl⟩ := List.mem_map.1 hrow
    split
    · next hsel => rw [(hu x hx hsel).1, h x hx]
    · exact h x hx
  | error _ => exact h

theorem within_width {d : Disk} {ext : Value → Nat → Option Value} {cols : List Column} {s : Stmt} {rows rows' : List (Row × Bool)} {a : Answer} (W : Within d ext cols s rows a rows')
    (h : ∀ x ∈ rows, x.1.length = cols.length) : ∀ x ∈ rows', x.1.length = cols.length := by
  have new : ∀ {into : List String} {vals : List (List Expr)} {new : List Row}, (new = [] ∨ new.length ≤ vals.length) →
      (∀ (i : Nat) es row, vals[i]? = some es → new[i]? = some row → Stored ext cols into es row) → ∀ x ∈ rows ++ new.map (·, true), x.1.length = cols.length := by
    intro into vals new hl hs x hx
    rcases List.mem_append.1 hx with hx | hx
    · exact h x hx
    · obtain ⟨row, hrow, rfl⟩ := List.mem_map.1 hx
      obtain ⟨i, hi, he⟩ := List.mem_iff_getElem.1 hrow
      rcases hl with rfl | hl
      · cases hrow
      · exact (hs i _ row (List.getElem?_eq_getElem (Nat.lt_of_lt_of_le hi hl)) (List.getElem?_eq_some_iff.2 ⟨hi, he⟩)).1
  have upd : ∀ {as : List (Nat × Expr)} {p : Option Expr} {upd : Row → Row} {a : List (Row × Bool)}, Updates as p upd a → (∀ x ∈ a, x.1.length = cols.length) →
      ∀ x ∈ changed p upd a, x.1.length = cols.length := by
    intro as p upd a hu ha x hx
    obtain ⟨y, hy, rfl⟩ := List.mem_map.1 hx
    split
    · next hsel => rw [(hu y hy hsel).2.1, ha y hy]
    · exact ha y hy
  cases W with
  | insert hl hs => exact new (.inr (Nat.le_of_eq hl)) hs
  | delete => exact fun x hx => h x (List.mem_filter.1 hx).1
  | update hu => exact upd hu h
  | insertError hl hs _ => exact new (hl.imp_right Nat.le_of_lt) hs
  | @updateError as p a x b u hu _ _ =>
    intro y hy
    rcases List.mem_append.1 hy with hy | hy
    · exact upd hu (fun z hz => h z (List.mem_append_left _ hz)) y hy
    · exact h y (List.mem_append_right _ hy)

/-- All rows of the state are as wide as the table. -/
def Wide (cols : List Column) : St → Prop
  | .idle rows => ∀ row ∈ rows, row.length = cols.length
  | .busy base rows _ => (∀ row ∈ base, row.length = cols.length) ∧ ∀ x ∈ rows, x.1.length = cols.length

theorem next_wide {d : Disk} {ext : Value → Nat → Option Value} {cols : List Column} {st st' : St} {r : Dml.Req} {a : Answer} (N : Next d ext cols st r a st') (h : Wide cols st) :
    Wide cols st' := by
  cases N with
  | alone E _ => exact effect_width E h
  | within W => exact ⟨h.1, within_width W h.2⟩
  | begin => exact ⟨h, fun x hx => by obtain ⟨y, hy, rfl⟩ := List.mem_map.1 hx; exact h y hy⟩
  | begun => exact h
  | commit => exact fun x hx => by obtain ⟨y, hy, rfl⟩ := List.mem_map.1 hx; exact h.2 y hy
  | rollback => exact h.1
  | noCommit => exact h
  | noRollback => exact h

theorem nextDb_wide {d : Disk} {ext : Value → Nat → Option Value} {cat : Catalog} {ch : Choices} {σ σ' : Tables} {r : Req} {a : Reply} (N : NextDb d ext cat ch σ r a σ')
    (h : ∀ t, Wide (cat.cols t) (σ t)) (u : Nat) : Wide (cat.cols u) (σ' u) := by
  cases N with
  | query N =>
    dsimp only
    split
    · next he => subst he; exact next_wide N (h _)
    · exact h u
  | select _ => exact h u
  | begin N => exact next_wide (N u) (h u)
  | commit N => exact next_wide (N u) (h u)
  | rollback N => exact next_wide (N u) (h u)

theorem nexts_wide {d : Disk} {ext : Value → Nat → Option Value} {cat : Catalog} {ch : Choices} {σ σ' : Tables} {xs : List Call} (N : NextsDb d ext cat ch σ xs σ')
    (h : ∀ t, Wide (cat.cols t) (σ t)) (t : Nat) : Wide (cat.cols t) (σ' t) := by
  induction N with
  | nil => exact h t
  | cons N _ ih => exact ih (nextDb_wide N h)

/-- Whatever the requests are, the rows a client sees of a table have as many values as the table has columns. So a FROM of one table of the catalog is always `Fine`. -/
theorem C135_width {d : Disk} {ext : Value → Nat → Option Value} {cat : Catalog} {ch : Choices} {σ : Tables} {xs : List Call} (N : NextsDb d ext cat ch (fun _ => .idle []) xs σ)
    (t : Nat) : ∀ row ∈ σ.rows t, row.length = (cat.cols t).length := by
  have := nexts_wide N (fun _ => by exact (fun _ h => by cases h)) t
  unfold Tables.rows
  cases hs : σ t with
  | idle rows => rw [hs] at this; exact this
  | busy base rows again =>
    rw [hs] at this
    intro row hrow
    obtain ⟨x, hx, rfl⟩ := List.mem_map.1 hrow
    exact this.2 x hx

theorem fine_table {d : Disk} {ext : Value → Nat → Option Value} {cat : Catalog} {ch : Choices} {σ : Tables} {xs : List Call} (N : NextsDb d ext cat ch (fun _ => .idle []) xs σ)
    {T : Plan.Table} (hl : LookedUp cat (.table T)) : (From.table T).Fine (ch.world σ.rows) := by
  intro row hrow
  rw [(hl T (List.mem_singleton_self _)).2, List.length_map]
  exact C135_width N _ row hrow

/-! ## Running requests -/

/-- Draining an executor for at most `n` rounds. -/
def drainFor {σ α : Type} (m : Machine σ α) : Nat → σ → Option (List α × End)
  | 0, _ => none
  | n + 1, s => match m s with
    | .emit a s' => (drainFor m n s').map fun r => (a :: r.1, r.2)
    | .cont s' => drainFor m n s'
    | .stop e => some ([], e)

theorem drainFor_yields {σ α : Type} {m : Machine σ α} {n : Nat} {s : σ} {r : List α × End} (h : drainFor m n s = some r) : Yields m s r.1 r.2 := by
  induction n generalizing s r with
  | zero => cases h
  | succ n ih =>
    simp only [drainFor] at h
    split at h
    · next hm =>
      obtain ⟨z, h1, rfl⟩ := Option.map_eq_some_iff.1 h
      exact .emit hm (ih h1)
    · next hm => exact .cont hm (ih h)
    · next hm => cases h; exact .stop hm

theorem nodup_eraseDups {l : List Rid} : l.eraseDups.Nodup := by
  generalize hn : l.length = n
  induction n using Nat.strongRecOn generalizing l with
  | _ n ih =>
    cases l with
    | nil => simp
    | cons a l =>
      rw [List.eraseDups_cons, List.nodup_cons]
      refine ⟨by simp [List.mem_eraseDups], ih _ ?_ rfl⟩
      rw [← hn, List.length_cons]
      exact Nat.lt_succ_of_le (List.length_filter_le _ _)

theorem writeSet_order (tr : Trace) : Order tr (writeSet tr) := by
  refine ⟨nodup_eraseDups, fun r => ?_⟩
  rw [writeSet, List.mem_eraseDups, List.mem_map]

/-- One request, a SELECT for at most 200 rounds. -/
def Server.stepFor (d : Disk) (ext : Value → Nat → Option Value) (seen : Server → Nat → Seen) (cat : Catalog) (ch : Choices) (v : Server) : Req → Option (Call × Server)
  | .query t s => match (v.conn t).stepFor d ext (seen v t) (cat.cols t) (.query s) with
    | some (⟨.query s', a, b⟩, c) => some (⟨.query t s', answered a, fun _ => b⟩, v.put t c)
    | _ => none
  | .select f q => if f.tables.all fun T => cat.known T.oid && decide (T.cols = (cat.cols T.oid).map (·.name)) then
      match planSelect f [] q with
      | none => none
      | some p => match optimize (fun _ => none) ch.isConst cat.known p with
        | none => none
        | some p' => match drainFor (compileOn (ch.world fun _ => []) (fun t => seqScan d (v.heap t)) p').m 200 (compileOn (ch.world fun _ => []) (fun t => seqScan d (v.heap t)) p').s with
          | some (out, .done) => some (⟨.select f q, .rows out, fun _ => true⟩, { v with txn := if v.active.isNone then v.txn + 1 else v.txn })
          | _ => none
    else none
  | .begin => match v.active with
    | none => some (⟨.begin, .ok, fun _ => true⟩, { v with txn := v.txn + 1, active := some (v.txn, fun _ => []) })
    | some _ => some (⟨.begin, .error, fun _ => true⟩, v)
  | .commit => match v.active with
    | none => some (⟨.commit, .error, fun _ => true⟩, v)
    | some (n, trs) => some (⟨.commit, .ok, fun _ => true⟩, { v with heap := fun t => (writeSet (trs t)).foldl (commitRow d n) (v.heap t), active := none })
  | .rollback => match v.active with
    | none => some (⟨.rollback, .error, fun _ => true⟩, v)
    | some (n, trs) => some (⟨.rollback, .ok, fun t => ((writeSet (trs t)).foldl (abortRow d n (trs t)) (v.heap t, true)).2⟩,
        { v with heap := fun t => ((writeSet (trs t)).foldl (abortRow d n (trs t)) (v.heap t, true)).1, active := none })

theorem Server.stepFor_step {d : Disk} {ext : Value → Nat → Option Value} {seen : Server → Nat → Seen} {cat : Catalog} {ch : Choices} {v v' : Server} {r : Req} {x : Call}
    (h : v.stepFor d ext seen cat ch r = some (x, v')) : Server.Step d ext seen cat ch v x v' := by
  cases r with
  | query t s =>
    simp only [Server.stepFor] at h
    split at h
    · next hs => cases h; exact .query (Conn.stepFor_step hs)
    · cases h
  | select f q =>
    simp only [Server.stepFor] at h
    split at h
    · next hl =>
      split at h
      · cases h
      · next hp =>
        split at h
        · cases h
        · next ho =>
          split at h
          · next hy =>
            cases h
            have S := Server.Step.select (ext := ext) (seen := seen) (v := v) (f := f) (q := q) (fun T hT => by
              have := List.all_eq_true.1 hl T hT
              simpa using this) (.rows hp ho (drainFor_yields hy))
            have e : (if v.active = none then v.txn + 1 else v.txn) = (if v.active.isNone then v.txn + 1 else v.txn) := by cases v.active <;> simp
            rw [e] at S
            exact S
          · cases h
    · cases h
  | begin =>
    simp only [Server.stepFor] at h
    split at h
    · next ha => cases h; exact .begin ha
    · next ha => cases h; exact .begun ha
  | commit =>
    simp only [Server.stepFor] at h
    split at h
    · next ha => cases h; exact .noCommit ha
    · next ha => cases h; exact .commit ha fun t => writeSet_order _
  | rollback =>
    simp only [Server.stepFor] at h
    split at h
    · next ha => cases h; exact .noRollback ha
    · next ha => cases h; exact .rollback ha fun t => writeSet_order _

/-- Requests one after another. -/
def Server.runFor (d : Disk) (ext : Value → Nat → Option Value) (seen : Server → Nat → Seen) (cat : Catalog) (ch : Choices) : Server → List Req → Option (List Call × Server)
  | v, [] => some ([], v)
  | v, r :: rs => match v.stepFor d ext seen cat ch r with
    | none => none
    | some (x, v') => (Server.runFor d ext seen cat ch v' rs).map fun y => (x :: y.1, y.2)

theorem Server.runFor_run {d : Disk} {ext : Value → Nat → Option Value} {seen : Server → Nat → Seen} {cat : Catalog} {ch : Choices} {v : Server} {rs : List Req}
    {x : List Call × Server} (h : Server.runFor d ext seen cat ch v rs = some x) : Server.Run d ext seen cat ch v x.1 x.2 := by
  induction rs generalizing v x with
  | nil => cases h; exact .nil
  | cons r rs ih =>
    simp only [Server.runFor] at h
    split at h
    · cases h
    · next h1 =>
      obtain ⟨z, h2, h3⟩ := Option.map_eq_some_iff.1 h
      subst h3
      exact .cons (Server.stepFor_step h1) (ih h2)

/-! ## A history -/

/-- The tables of `exFrom`. -/
def exCatalog : Catalog where
  cols t := match t with
    | 0 => [{ name := "id", ty := 3 }, { name := "dept", ty := 3 }]
    | 1 => [{ name := "id", ty := 3 }, { name := "city", ty := 3 }]
    | _ => [{ name := "people", ty := 3 }, { name := "id", ty := 3 }]
  known t := decide (t < 3)

def exChoices : Choices := ⟨fun _ => [], id, exWorld.heap, fun _ => false⟩

/-- `INSERT INTO … VALUES` with these integers. -/
def ints (rows : List (List Int)) : Stmt := .insert [] (rows.map fun r => r.map fun i => .lit (i32 i))

/-- `SELECT e.id, people FROM … WHERE city.id = 7`. -/
def exJoined : Select := { exJoinSelect with orderBy := [] }

/-- Employees and departments are inserted; in a transaction cities are, and then, before the COMMIT and after it, all three tables are joined; rolled back, they leave nothing. -/
def exHistory : List Req := [.query 0 (ints [[1, 10], [2, 20], [3, 10]]), .query 1 (ints [[10, 7], [30, 8]]), .begin, .query 2 (ints [[9, 9]]), .rollback, .begin,
  .query 2 (ints [[500, 7], [600, 8]]), .select exFrom exJoined, .commit, .select exFrom exJoined]

def replies (xs : List Call) : List Reply := xs.map (·.reply)


/-- `INSERT`s are of constants. -/
theorem ints_const (rows : List (List Int)) : (ints rows).Const := by
  intro es hes e he ρ ρ'
  obtain ⟨r, _, rfl⟩ := List.mem_map.1 hes
  obtain ⟨i, _, rfl⟩ := List.mem_map.1 he
  rfl

def exRun : Option (List Call × Server) := Server.runFor exDisk noExt (fun _ _ => noSeen) exCatalog exChoices (.new some (fun _ => 1) 1) exHistory

theorem exRun_requests : exRun.map (fun x => x.1.map (·.req)) = some exHistory := rfl
theorem exRun_replies : exRun.map (fun x => replies x.1) =
    some [.count 3, .count 2, .ok, .count 1, .ok, .ok, .count 2, .rows [[int 1, int 500], [int 3, int 500]], .ok, .rows [[int 1, int 500], [int 3, int 500]]] := rfl
theorem exRun_complete (t : Nat) : exRun.map (fun x => x.1.all fun y => y.complete t) = some true := by
  rcases t with _ | _ | _ | t <;> rfl

/-- No transaction has deleted a row it had written. -/
def Quiet : St → Prop
  | .busy _ _ again => ¬again
  | .idle _ => True

theorem next_quiet {d : Disk} {ext : Value → Nat → Option Value} {cols : List Column} {st st' : St} {r : Dml.Req} {a : Answer} (N : Next d ext cols st r a st')
    (hr : ∀ p, r ≠ .query (.delete p)) (h : Quiet st) : Quiet st' := by
  cases N with
  | within _ =>
    rintro (h1 | ⟨p, rfl, _⟩)
    · exact h h1
    · exact hr p rfl
  | begin => exact not_false
  | begun => exact h
  | _ => trivial

theorem nextDb_quiet {d : Disk} {ext : Value → Nat → Option Value} {cat : Catalog} {ch : Choices} {σ σ' : Tables} {r : Req} {a : Reply} (N : NextDb d ext cat ch σ r a σ')
    (hr : ∀ t p, r ≠ .query t (.delete p)) (h : ∀ t, Quiet (σ t)) (u : Nat) : Quiet (σ' u) := by
  cases N with
  | query N =>
    dsimp only
    split
    · next he => subst he; exact next_quiet N (fun p hp => by cases hp; exact hr _ p rfl) (h _)
    · exact h u
  | select _ => exact h u
  | begin N => exact next_quiet (N u) nofun (h u)
  | commit N => exact next_quiet (N u) nofun (h u)
  | rollback N => exact next_quiet (N u) nofun (h u)

theorem nexts_quiet {d : Disk} {ext : Value → Nat → Option Value} {cat : Catalog} {ch : Choices} {σ σ' : Tables} {xs : List Call} (N : NextsDb d ext cat ch σ xs σ')
    (hr : ∀ x ∈ xs, ∀ t p, x.req ≠ .query t (.delete p)) (h : ∀ t, Quiet (σ t)) (t : Nat) : Quiet (σ' t) := by
  induction N with
  | nil => exact h t
  | cons N _ ih => exact ih (fun x hx => hr x (List.mem_cons_of_mem _ hx)) (nextDb_quiet N (hr _ List.mem_cons_self) h)

/-- A history of INSERTs of constants and of SELECTs, in transactions or not, is covered. -/
theorem inserts_covered {d : Disk} {ext : Value → Nat → Option Value} {cat : Catalog} {ch : Choices} {xs : List Call}
    (h : ∀ x ∈ xs, ∀ t s, x.req = .query t s → ∃ rows, s = ints rows) : AllCoveredDb d ext cat ch xs := by
  intro pre x post he σ N
  have hx : ∀ y ∈ pre, ∀ t p, y.req ≠ .query t (.delete p) := fun y hy t p hyp => by
    obtain ⟨rows, h⟩ := h y (he ▸ List.mem_append_left _ hy) t _ hyp
    cases h
  have q := nexts_quiet N hx (fun _ => trivial)
  have hm : x ∈ xs := he ▸ List.mem_append_right _ List.mem_cons_self
  cases hreq : x.req with
  | query t s =>
    obtain ⟨rows, rfl⟩ := h x hm t s hreq
    exact ⟨ints_const rows, fun _ _ => trivial⟩
  | rollback =>
    intro t
    have := q t
    cases hs : σ t with
    | idle _ => trivial
    | busy _ _ _ => rw [hs] at this; exact this
  | select _ _ => trivial
  | begin => trivial
  | commit => trivial

theorem exCatalog_distinct (t : Nat) : Distinct (exCatalog.cols t) := by
  rcases t with _ | _ | t
  · unfold Distinct; decide
  · unfold Distinct; decide
  · show (["people", "id"] : List String).Nodup
    decide

/-- The hypotheses of `C135_history_partial`. -/
theorem exRun_meets : ∃ xs v, exRun = some (xs, v) ∧ ∃ σ, NextsDb exDisk noExt exCatalog exChoices (fun _ => .idle []) xs σ ∧
    ∀ t, Yields (seqScan exDisk (v.heap t)).m (seqScan exDisk (v.heap t)).s (σ.rows t) .done := by
  have h1 := exRun_requests
  have h2 := exRun_complete
  cases h : exRun with
  | none => rw [h] at h1; cases h1
  | some x =>
    rw [h] at h1 h2
    refine ⟨x.1, x.2, rfl, C135_history_partial exDisk_readable exDisk_sane exDisk_fresh noExt_typed exCatalog_distinct (fun _ => .refl _) (by decide) (Server.runFor_run h) ?_ ?_⟩
    · intro y hy t
      exact List.all_eq_true.1 (Option.some.inj (h2 t)) y hy
    · refine inserts_covered fun y hy t s hs => ?_
      have : y.req ∈ exHistory := by
        have := Option.some.inj h1
        rw [← this]
        exact List.mem_map_of_mem hy
      simp only [exHistory, List.mem_cons, List.not_mem_nil, or_false, hs, Req.query.injEq, reduceCtorEq, false_or] at this
      rcases this with ⟨_, rfl⟩ | ⟨_, rfl⟩ | ⟨_, rfl⟩ | ⟨_, rfl⟩ <;> exact ⟨_, rfl⟩

/-- On the rows of `exHistory`, its SELECT is one of those the specification speaks of. -/
theorem exJoined_byOutput : ByOutput (exChoices.world exTables.rows) exFrom exJoined (fun _ => true) (fun r => [r.getD 0 (new .null), r.getD 4 (new .null)]) where
  fine := exFrom_fine
  plain := { exJoin_plain with }
  filter := by
    intro e he n hn
    cases he
    simp at hn
    subst hn
    exact .inr (by decide)
  items := by
    intro n hn
    simp only [exJoined, exJoinSelect, item, namesOf, List.mem_cons, List.not_mem_nil, or_false] at hn
    rcases hn with rfl | rfl
    · exact .inr (by decide)
    · exact .inl rfl
  keys := nofun
  have_ := nofun

end Verif.Whole

import Verif.Whole.ClientsProps
import Verif.Whole.Cases

/-!
# Histories of several clients
-/

namespace Verif.Whole

open Verif.Wire Verif.Bytes Verif.Sql Verif.Exec Verif.Dml Verif.Plan

/-! ## `SELECT *` -/

/-- The rows of the table are as wide as it is. -/
def Tab.Wide (n : Nat) : Tab → Prop
  | .free rows => ∀ row ∈ rows, row.length = n
  | .held _ base rows _ => (∀ row ∈ base, row.length = n) ∧ ∀ x ∈ rows, x.1.length = n

theorem turn_wide {d : Disk} {ext : Value → Nat → Option Value} {cat : Catalog} {ch : Choices} {σ σ' : Db} {c : Nat} {r : Req} {a : Reply} (T : Turn d ext cat ch σ c r a σ')
    (h : ∀ t, (σ.tab t).Wide (cat.cols t).length) (u : Nat) : (σ'.tab u).Wide (cat.cols u).length := by
  have set : ∀ t x, x.Wide (cat.cols t).length → ((σ.set t x).tab u).Wide (cat.cols u).length := by
    intro t x hx
    unfold Db.set
    dsimp only
    split
    · next e => rw [e]; exact hx
    · exact h u
  have hu := h u
  cases T with
  | @alone t s rows _ _ _ ht E =>
    have := h t
    rw [ht] at this
    exact set t _ (effect_width E this)
  | @first t s rows _ _ _ ht W =>
    have := h t
    rw [ht] at this
    exact set t _ ⟨this, within_width W fun x hx => by obtain ⟨y, hy, rfl⟩ := List.mem_map.1 hx; exact this y hy⟩
  | @more t s base rows again _ _ _ ht W =>
    have := h t
    rw [ht] at this
    exact set t _ ⟨this.1, within_width W this.2⟩
  | select _ => exact hu
  | begin _ => exact hu
  | begun _ => exact hu
  | commit _ =>
    show ((σ.tab u).kept c).Wide _
    rcases hs : σ.tab u with rows | ⟨c', base, rows, again⟩
    · rw [hs] at hu; exact hu
    · rw [hs] at hu
      unfold Tab.kept
      dsimp only
      split
      · exact fun x hx => by obtain ⟨y, hy, rfl⟩ := List.mem_map.1 hx; exact hu.2 y hy
      · exact hu
  | rollback _ =>
    show ((σ.tab u).undone c).Wide _
    rcases hs : σ.tab u with rows | ⟨c', base, rows, again⟩
    · rw [hs] at hu; exact hu
    · rw [hs] at hu
      unfold Tab.undone
      dsimp only
      split
      · exact hu.1
      · exact hu
  | noCommit _ => exact hu
  | noRollback _ => exact hu

theorem happened_wide {d : Disk} {ext : Value → Nat → Option Value} {cat : Catalog} {ch : Choices} {σ σ' : Db} {xs : List (Nat × Event)} (N : Happened d ext cat ch σ xs σ')
    (h : ∀ t, (σ.tab t).Wide (cat.cols t).length) (t : Nat) : (σ'.tab t).Wide (cat.cols t).length := by
  induction N with
  | nil => exact h t
  | @cons σ c x σ1 xs σ2 N _ ih =>
    refine ih fun u => ?_
    cases N with
    | ask T => exact turn_wide T h u
    | leave =>
      have hu := h u
      show ((σ.tab u).undone c).Wide _
      rcases hs : σ.tab u with rows | ⟨c', base, rows, again⟩
      · rw [hs] at hu; exact hu
      · rw [hs] at hu
        unfold Tab.undone
        dsimp only
        split
        · exact hu.1
        · exact hu

theorem seen_wide {x : Tab} {n : Nat} (h : x.Wide n) (c : Nat) : ∀ row ∈ x.seen c, row.length = n := by
  rcases x with rows | ⟨c', base, rows, again⟩
  · exact h
  · unfold Tab.seen
    dsimp only
    split
    · intro row hrow
      obtain ⟨y, hy, rfl⟩ := List.mem_map.1 hrow
      exact h.2 y hy
    · exact h.1

/-- `SELECT * FROM t` -/
theorem all_byOutput {w : World} {T : Plan.Table} (hT : T.cols ≠ []) (h : ∀ row ∈ w.rows T.oid, row.length = T.cols.length) :
    ByOutput w (.table T) exAll (fun _ => true) id where
  fine := h
  plain := {
    items := trivial
    some_item := nofun
    some_column := by
      simp [From.scope, Plan.Table.scope, hT]
    no_group := rfl
    no_having := rfl
    width := by
      intro r hr
      rw [h r hr]
      simp [From.scope, Plan.Table.scope]
    where_ := fun _ _ => rfl
    values := by
      intro r hr _
      simp [exAll, selected]
    shape := nofun }
  filter := nofun
  items := nofun
  keys := nofun
  have_ := fun _ _ _ => nofun

theorem says_all {w : World} {T : Plan.Table} {r : Reply} (hT : T.cols ≠ []) (h : ∀ row ∈ w.rows T.oid, row.length = T.cols.length) (S : Says w (.table T) exAll r) :
    r = .rows (w.rows T.oid) := by
  obtain ⟨out, rfl, l, _, _, h1, e⟩ := S.output _ _ (all_byOutput hT h)
  rw [e]
  have : l = w.rows T.oid := by
    rw [h1 rfl]
    show List.map id ((w.rows T.oid).filter fun _ => true) = _
    simp
  rw [this]
  rfl

/-- After any history the specification allows, the answer it allows to `SELECT * FROM t` of a client is the rows that were last committed, with the changes of its own transaction, in
this order, and nothing else. -/
theorem C137_select_all {d : Disk} {ext : Value → Nat → Option Value} {cat : Catalog} {ch : Choices} {σ σ' : Db} {xs : List (Nat × Event)} {c : Nat} {T : Plan.Table} {r : Reply}
    (N : Happened d ext cat ch .empty xs σ) (hl : LookedUp cat (.table T)) (hT : T.cols ≠ []) (S : Turn d ext cat ch σ c (.select (.table T) exAll) r σ') :
    r = .rows ((σ.tab T.oid).seen c) := by
  cases S with
  | select S =>
    refine says_all hT (fun row hrow => ?_) S
    rw [(hl T (List.mem_singleton_self _)).2, List.length_map]
    exact seen_wide (happened_wide N (fun _ => by exact nofun) T.oid) c row hrow

/-! ## Running the events -/

/-- What a client does, without the reply. -/
inductive Act where
  | ask (r : Req)
  | leave

def Event.act : Event → Act
  | .ask x => .ask x.req
  | .leave _ => .leave

def Host.stepFor (d : Disk) (ext : Value → Nat → Option Value) (seen : Server → Nat → Seen) (cat : Catalog) (ch : Choices) (v : Host) (c : Nat) : Act → Option (Event × Host)
  | .ask r => match (v.view c).stepFor d ext seen cat ch r with
    | some (x, s) => some (.ask x, v.put c s)
    | none => none
  | .leave => match (v.view c).stepFor d ext seen cat ch .rollback with
    | some (⟨.rollback, _, b⟩, s) => some (.leave b, v.put c s)
    | _ => none

theorem Host.stepFor_step {d : Disk} {ext : Value → Nat → Option Value} {seen : Server → Nat → Seen} {cat : Catalog} {ch : Choices} {v v' : Host} {c : Nat} {r : Act} {x : Event}
    (h : v.stepFor d ext seen cat ch c r = some (x, v')) : Host.Step d ext seen cat ch v c x v' := by
  cases r with
  | ask r =>
    simp only [Host.stepFor] at h
    split at h
    · next h1 => cases h; exact .ask (Server.stepFor_step h1)
    · cases h
  | leave =>
    simp only [Host.stepFor] at h
    split at h
    · next h1 => cases h; exact .leave (Server.stepFor_step h1)
    · cases h

def Host.runFor (d : Disk) (ext : Value → Nat → Option Value) (seen : Server → Nat → Seen) (cat : Catalog) (ch : Choices) : Host → List (Nat × Act) → Option (List (Nat × Event) × Host)
  | v, [] => some ([], v)
  | v, (c, r) :: rs => match v.stepFor d ext seen cat ch c r with
    | none => none
    | some (x, v') => (Host.runFor d ext seen cat ch v' rs).map fun y => ((c, x) :: y.1, y.2)

theorem Host.runFor_run {d : Disk} {ext : Value → Nat → Option Value} {seen : Server → Nat → Seen} {cat : Catalog} {ch : Choices} {v : Host} {rs : List (Nat × Act)}
    {x : List (Nat × Event) × Host} (h : Host.runFor d ext seen cat ch v rs = some x) : Host.Run d ext seen cat ch v x.1 x.2 := by
  induction rs generalizing v x with
  | nil => cases h; exact .nil
  | cons r rs ih =>
    simp only [Host.runFor] at h
    split at h
    · cases h
    · next h1 =>
      obtain ⟨z, h2, h3⟩ := Option.map_eq_some_iff.1 h
      subst h3
      exact .cons (Host.stepFor_step h1) (ih h2)

/-- Who did what, and the reply. -/
def Event.reply : Event → Option Reply
  | .ask x => some x.reply
  | .leave _ => none

/-- Whether no client uses a table in use by another one, from the requests. -/
def apart (m : Marks) : List (Nat × Act) → Bool
  | [] => true
  | (c, .ask r) :: xs => (match r with
    | .query t _ => m.holder t == none || m.holder t == some c
    | .select f _ => f.tables.all fun T => m.holder T.oid == none || m.holder T.oid == some c
    | _ => true) && apart (m.after c r) xs
  | (c, .leave) :: xs => apart (m.free c) xs

theorem apart_sound {m : Marks} {xs : List (Nat × Event)} (h : apart m (xs.map fun x => (x.1, x.2.act)) = true) : Apart m xs := by
  induction xs generalizing m with
  | nil => trivial
  | cons x xs ih =>
    obtain ⟨c, x⟩ := x
    cases x with
    | leave b => exact ih h
    | ask x =>
      simp only [List.map_cons, Event.act, apart, Bool.and_eq_true] at h
      refine ⟨?_, ih h.2⟩
      have h := h.1
      cases hx : x.req with
      | query t s => simpa [hx, Marks.Ok] using h
      | select f q => simpa [hx, Marks.Ok] using h
      | begin => trivial
      | commit => trivial
      | rollback => trivial

/-! ## Histories of INSERTs -/

def Tab.Quiet : Tab → Prop
  | .free _ => True
  | .held _ _ _ again => ¬again

theorem undone_quiet {x : Tab} (c : Nat) (h : x.Quiet) : (x.undone c).Quiet := by
  rcases x with rows | ⟨c', base, rows, again⟩
  · trivial
  · unfold Tab.undone
    dsimp only
    split
    · trivial
    · exact h

theorem kept_quiet {x : Tab} (c : Nat) (h : x.Quiet) : (x.kept c).Quiet := by
  rcases x with rows | ⟨c', base, rows, again⟩
  · trivial
  · unfold Tab.kept
    dsimp only
    split
    · trivial
    · exact h

theorem turn_quiet {d : Disk} {ext : Value → Nat → Option Value} {cat : Catalog} {ch : Choices} {σ σ' : Db} {c : Nat} {r : Req} {a : Reply} (T : Turn d ext cat ch σ c r a σ')
    (hr : ∀ t p, r ≠ .query t (.delete p)) (h : ∀ t, (σ.tab t).Quiet) (u : Nat) : (σ'.tab u).Quiet := by
  have set : ∀ t x, x.Quiet → ((σ.set t x).tab u).Quiet := by
    intro t x hx
    unfold Db.set
    dsimp only
    split
    · exact hx
    · exact h u
  cases T with
  | alone _ _ _ => exact set _ _ trivial
  | first _ _ _ => exact set _ _ not_false
  | @more t s base rows again _ _ _ ht _ =>
    refine set _ _ ?_
    have := h t
    rw [ht] at this
    rintro (h1 | ⟨p, rfl, _⟩)
    · exact this h1
    · exact hr t p rfl
  | select _ => exact h u
  | begin _ => exact h u
  | begun _ => exact h u
  | commit _ => exact kept_quiet c (h u)
  | rollback _ => exact undone_quiet c (h u)
  | noCommit _ => exact h u
  | noRollback _ => exact h u

theorem happened_quiet {d : Disk} {ext : Value → Nat → Option Value} {cat : Catalog} {ch : Choices} {σ σ' : Db} {xs : List (Nat × Event)} (N : Happened d ext cat ch σ xs σ')
    (hr : ∀ x ∈ xs, ∀ y, x.2 = .ask y → ∀ t p, y.req ≠ .query t (.delete p)) (h : ∀ t, (σ.tab t).Quiet) (t : Nat) : (σ'.tab t).Quiet := by
  induction N with
  | nil => exact h t
  | @cons σ c x σ1 xs σ2 N _ ih =>
    refine ih (fun x hx => hr x (List.mem_cons_of_mem _ hx)) fun u => ?_
    cases N with
    | ask T => exact turn_quiet T (hr _ List.mem_cons_self _ rfl) h u
    | leave => exact undone_quiet c (h u)

theorem inserts_regular {d : Disk} {ext : Value → Nat → Option Value} {cat : Catalog} {ch : Choices} {xs : List (Nat × Event)}
    (h : ∀ x ∈ xs, ∀ y, x.2 = .ask y → ∀ t s, y.req = .query t s → ∃ rows, s = ints rows) : AllRegular d ext cat ch xs := by
  intro pre c x post he σ N
  have hq := happened_quiet N (fun z hz y hy t p hyp => by
    obtain ⟨rows, h⟩ := h z (he ▸ List.mem_append_left _ hz) y hy t _ hyp
    cases h) (fun _ => trivial)
  have hm : (c, x) ∈ xs := he ▸ List.mem_append_right _ List.mem_cons_self
  have hback : ∀ t base rows again, σ.tab t = .held c base rows again → ¬again := by
    intro t base rows again ht
    have := hq t
    rw [ht] at this
    exact this
  cases x with
  | leave b => exact hback
  | ask y =>
    obtain ⟨r, a, b⟩ := y
    cases r with
    | query t s =>
      obtain ⟨rows, rfl⟩ := h _ hm _ rfl t s rfl
      exact ⟨ints_const rows, fun _ _ => trivial⟩
    | rollback => exact hback
    | select _ _ => trivial
    | begin => trivial
    | commit => trivial

/-- Two clients are in transactions at the same time, on the tables of employees and of departments, while a third one inserts cities and reads them. The transaction on departments is
committed and then read by the third client; the other client inserts again, sees its own rows, and loses its connection. Then all three tables are joined. -/
def exActs : List (Nat × Act) := [(1, .ask .begin), (2, .ask .begin), (1, .ask (.query 0 (ints [[9, 9]]))), (2, .ask (.query 1 (ints [[10, 7], [30, 8]]))),
  (3, .ask (.query 2 (ints [[500, 7], [600, 8]]))), (3, .ask (.select (.table city) exAll)), (2, .ask .commit), (3, .ask (.select (.table dept) exAll)),
  (1, .ask (.query 0 (ints [[8, 8]]))), (1, .ask (.select (.table emp) exAll)), (1, .leave), (3, .ask (.query 0 (ints [[1, 10], [2, 20], [3, 10]]))), (3, .ask (.select exFrom exJoined))]

def exHosted : Option (List (Nat × Event) × Host) := Host.runFor exDisk noExt (fun _ _ => noSeen) exCatalog exChoices (.new some (fun _ => 1) 1) exActs

theorem exHosted_acts : exHosted.map (fun x => x.1.map fun y => (y.1, y.2.act)) = some exActs := rfl
theorem exHosted_replies : exHosted.map (fun x => x.1.map fun y => y.2.reply) =
    some [some .ok, some .ok, some (.count 1), some (.count 2), some (.count 2), some (.rows [[int 500, int 7], [int 600, int 8]]), some .ok,
      some (.rows [[int 10, int 7], [int 30, int 8]]), some (.count 1), some (.rows [[int 9, int 9], [int 8, int 8]]), none, some (.count 3),
      some (.rows [[int 1, int 500], [int 3, int 500]])] := rfl
theorem exHosted_complete (t : Nat) : exHosted.map (fun x => x.1.all fun y => y.2.complete t) = some true := by
  rcases t with _ | _ | _ | t <;> rfl

/-- The hypotheses of `C137_clients_partial`. -/
theorem exHosted_meets : ∃ xs v, exHosted = some (xs, v) ∧ ∃ σ, Happened exDisk noExt exCatalog exChoices .empty xs σ ∧ (∀ c, σ.busy c = (v.active c).isSome) ∧
    ∀ t c, (∀ c' base rows again, σ.tab t = .held c' base rows again → c' = c) → Yields (seqScan exDisk (v.heap t)).m (seqScan exDisk (v.heap t)).s ((σ.tab t).seen c) .done := by
  have h1 := exHosted_acts
  have h2 := exHosted_complete
  cases h : exHosted with
  | none => rw [h] at h1; cases h1
  | some x =>
    rw [h] at h1 h2
    have h1 : x.1.map (fun y => (y.1, y.2.act)) = exActs := Option.some.inj h1
    refine ⟨x.1, x.2, rfl, C137_clients_partial exDisk_readable exDisk_sane exDisk_fresh noExt_typed exCatalog_distinct (fun _ => .refl _) (by decide) (Host.runFor_run h) ?_ ?_ ?_⟩
    · intro y hy t
      exact List.all_eq_true.1 (Option.some.inj (h2 t)) y hy
    · refine apart_sound ?_
      rw [h1]
      rfl
    · refine inserts_regular fun y hy z hz t s hs => ?_
      have : (y.1, y.2.act) ∈ exActs := by
        rw [← h1]
        exact List.mem_map_of_mem (f := fun y => (y.1, y.2.act)) hy
      rw [hz] at this
      simp only [exActs, List.mem_cons, List.not_mem_nil, or_false, Event.act, hs, Prod.mk.injEq, Act.ask.injEq, Req.query.injEq, reduceCtorEq, and_false, false_or] at this
      rcases this with ⟨_, _, rfl⟩ | ⟨_, _, rfl⟩ | ⟨_, _, rfl⟩ | ⟨_, _, rfl⟩ | ⟨_, _, rfl⟩ <;> exact ⟨_, rfl⟩

/-! ## A table in use by another client -/

/-- A row is inserted in a transaction, another client reads the table, and the transaction is rolled back. -/
def dirtyActs : List (Nat × Act) := [(1, .ask .begin), (1, .ask (.query 0 (ints [[9, 9]]))), (2, .ask (.select (.table emp) exAll)), (1, .ask .rollback), (2, .ask (.select (.table emp) exAll))]

def dirtyRun : Option (List (Nat × Event) × Host) := Host.runFor exDisk noExt (fun _ _ => noSeen) exCatalog exChoices (.new some (fun _ => 1) 1) dirtyActs

theorem dirtyRun_acts : dirtyRun.map (fun x => x.1.map fun y => (y.1, y.2.act)) = some dirtyActs := rfl
theorem dirtyRun_replies : dirtyRun.map (fun x => x.1.map fun y => y.2.reply) = some [some .ok, some (.count 1), some (.rows [[int 9, int 9]]), some .ok, some (.rows [])] := rfl
theorem dirtyRun_complete (t : Nat) : dirtyRun.map (fun x => x.1.all fun y => y.2.complete t) = some true := by
  rcases t with _ | _ | _ | t <;> rfl

theorem act_ask {x : Event} {r : Req} (h : x.act = .ask r) : ∃ y, x = .ask y ∧ y.req = r := by
  cases x with
  | ask y => exact ⟨y, rfl, by cases h; rfl⟩
  | leave _ => cases h

theorem happens_ask {d : Disk} {ext : Value → Nat → Option Value} {cat : Catalog} {ch : Choices} {σ σ' : Db} {c : Nat} {x : Event} {r : Req} {a : Reply} (h : x.act = .ask r)
    (h' : x.reply = some a) (N : Happens d ext cat ch σ c x σ') : Turn d ext cat ch σ c r a σ' := by
  cases N with
  | ask T => cases h; cases h'; exact T
  | leave => cases h

/-- No history of the specification has these replies: the second client is shown a row that is not committed. -/
theorem dirty_not {d : Disk} {ext : Value → Nat → Option Value} {ch : Choices} {σ : Db} {xs : List (Nat × Event)} {as : List (Option Reply)} {a1 a2 : Reply} {row : Row}
    (ha : xs.map (fun y => (y.1, y.2.act)) = dirtyActs) (hr : xs.map (fun y => y.2.reply) = some a1 :: some a2 :: some (.rows [row]) :: as) :
    ¬Happened d ext exCatalog ch .empty xs σ := by
  intro N
  cases N with
  | nil => cases ha
  | @cons σ0 c1 x1 σ1 xs σ' N1 N =>
    simp only [List.map_cons, dirtyActs, List.cons.injEq, Prod.mk.injEq] at ha hr
    obtain ⟨⟨rfl, ha1⟩, ha⟩ := ha
    obtain ⟨hr1, hr⟩ := hr
    cases N with
    | nil => cases ha
    | @cons σ0 c2 x2 σ2 xs σ' N2 N =>
      simp only [List.map_cons, List.cons.injEq, Prod.mk.injEq] at ha hr
      obtain ⟨⟨rfl, ha2⟩, ha⟩ := ha
      obtain ⟨hr2, hr⟩ := hr
      cases N with
      | nil => cases ha
      | @cons σ0 c3 x3 σ3 xs σ' N3 N =>
        simp only [List.map_cons, List.cons.injEq, Prod.mk.injEq] at ha hr
        obtain ⟨⟨rfl, ha3⟩, ha⟩ := ha
        obtain ⟨hr3, hr⟩ := hr
        have T1 := happens_ask ha1 hr1 N1
        have T2 := happens_ask ha2 hr2 N2
        have T3 := happens_ask ha3 hr3 N3
        have hl : LookedUp exCatalog (.table emp) := by
          intro T hT
          cases List.mem_singleton.1 hT
          decide
        have := C137_select_all (.cons N1 (.cons N2 .nil)) hl (by decide) T3
        have hs1 : σ1 = Db.empty.mark 1 true := by
          cases T1 with
          | begin _ => rfl
          | begun h => cases h
        subst hs1
        have hs2 : (σ2.tab emp.oid).seen 2 = [] := by
          cases T2 with
          | alone h _ _ => cases h
          | first _ h _ => cases h; rfl
          | more _ h _ => cases h
        rw [hs2] at this
        cases this

/-- Without the condition that clients keep apart the property is false: a SELECT shows a row that another client has inserted and not committed, and which is then rolled back, so
that it never was in the database. No history of the specification has these replies. -/
theorem C137_dirty_read_fails : ∃ xs v, Host.Run exDisk noExt (fun _ _ => noSeen) exCatalog exChoices (.new some (fun _ => 1) 1) xs v ∧
    xs.map (fun y => (y.1, y.2.act)) = [(1, .ask .begin), (1, .ask (.query 0 (ints [[9, 9]]))), (2, .ask (.select (.table emp) exAll)), (1, .ask .rollback),
      (2, .ask (.select (.table emp) exAll))] ∧
    xs.map (fun y => y.2.reply) = [some .ok, some (.count 1), some (.rows [[int 9, int 9]]), some .ok, some (.rows [])] ∧
    (∀ x ∈ xs, ∀ t, x.2.complete t = true) ∧ AllRegular exDisk noExt exCatalog exChoices xs ∧ ¬∃ σ, Happened exDisk noExt exCatalog exChoices .empty xs σ := by
  have h1 := dirtyRun_acts
  have h2 := dirtyRun_replies
  have h3 := dirtyRun_complete
  cases h : dirtyRun with
  | none => rw [h] at h1; cases h1
  | some x =>
    rw [h] at h1 h2 h3
    have h1 : x.1.map (fun y => (y.1, y.2.act)) = dirtyActs := Option.some.inj h1
    have h2 := Option.some.inj h2
    refine ⟨x.1, x.2, Host.runFor_run h, h1, h2, fun y hy t => List.all_eq_true.1 (Option.some.inj (h3 t)) y hy, inserts_regular fun y hy z hz t s hs => ?_, ?_⟩
    · have : (y.1, y.2.act) ∈ dirtyActs := by
        rw [← h1]
        exact List.mem_map_of_mem (f := fun y => (y.1, y.2.act)) hy
      rw [hz] at this
      simp only [dirtyActs, List.mem_cons, List.not_mem_nil, or_false, Event.act, hs, Prod.mk.injEq, Act.ask.injEq, Req.query.injEq, reduceCtorEq, and_false, false_or] at this
      obtain ⟨_, _, rfl⟩ := this
      exact ⟨_, rfl⟩
    · rintro ⟨σ, N⟩
      exact dirty_not h1 h2 N

end Verif.Whole

import Verif.Whole.NamedProps
import Verif.Whole.Cases
import Verif.Catalog.Props

/-!
# A session with three tables
-/

namespace Verif.Whole

open Verif.Wire Verif.Bytes Verif.Sql Verif.Exec Verif.Dml Verif.Plan
open Verif.Catalog (Cat Tab Col ColDef FkDef ObjName)

/-! ## Running requests -/

/-- One request, a SELECT for at most 200 rounds. -/
def Session.stepFor (d : Disk) (ext : Value → Nat → Option Value) (seen : Cat → Server → Nat → Seen) (decl : Col → Column) (ch : Choices) (s : Session) : NReq → Option (NCall × Session)
  | .create n cols fks ine =>
    let r := Cat.execCreateTable { s.cat with page := s.cat.page } Catalog.yes n cols fks ine
    some (⟨.create n cols fks ine, outReply r.1, fun _ => true⟩, ⟨r.2, (s.srv.create s.cat r.2).tick⟩)
  | .query n st => match target s.cat n st with
    | none => some (⟨.query n st, .error, fun _ => true⟩, ⟨s.cat, s.srv.tick⟩)
    | some t => match s.srv.stepFor d ext (seen s.cat) (view decl s.cat) ch (.query t.oid st) with
      | some (x, v) => some (⟨.query n st, x.reply, x.complete⟩, ⟨s.cat, v⟩)
      | none => none
  | .select nf q => match nf.lookup s.cat with
    | none => some (⟨.select nf q, .error, fun _ => true⟩, ⟨s.cat, s.srv.tick⟩)
    | some f => match s.srv.stepFor d ext (seen s.cat) (view decl s.cat) ch (.select f q) with
      | some (x, v) => some (⟨.select nf q, x.reply, x.complete⟩, ⟨s.cat, v⟩)
      | none => none
  | .begin => match s.srv.stepFor d ext (seen s.cat) (view decl s.cat) ch .begin with
    | some (x, v) => some (⟨.begin, x.reply, x.complete⟩, ⟨s.cat, v⟩)
    | none => none
  | .commit => match s.srv.stepFor d ext (seen s.cat) (view decl s.cat) ch .commit with
    | some (x, v) => some (⟨.commit, x.reply, x.complete⟩, ⟨s.cat, v⟩)
    | none => none
  | .rollback => match s.srv.stepFor d ext (seen s.cat) (view decl s.cat) ch .rollback with
    | some (x, v) => some (⟨.rollback, x.reply, x.complete⟩, ⟨s.cat, v⟩)
    | none => none

theorem Db.runFor_stmts {d : Disk} {ext : Value → Nat → Option Value} {seen : Seen} {cols : List Column} {db : Db} {ss : List Stmt} {x : List Dml.Step × Db}
    (h : Db.runFor d ext seen cols db ss = some x) : x.1.map (·.stmt) = ss := by
  induction ss generalizing db x with
  | nil => cases h; rfl
  | cons s ss ih =>
    simp only [Db.runFor] at h
    split at h
    · split at h
      · obtain ⟨z, h1, rfl⟩ := Option.map_eq_some_iff.1 h
        exact congrArg _ (ih h1)
      · cases h
    · split at h
      · obtain ⟨z, h1, rfl⟩ := Option.map_eq_some_iff.1 h
        exact congrArg _ (ih h1)
      · cases h
    · cases h

theorem Conn.stepFor_req {d : Disk} {ext : Value → Nat → Option Value} {seen : Seen} {cols : List Column} {c c' : Conn} {r : Stmt} {x : Dml.Call}
    (h : c.stepFor d ext seen cols (.query r) = some (x, c')) : x.req = .query r := by
  simp only [Conn.stepFor] at h
  split at h
  · simp only [Conn.runAlone] at h
    split at h
    · next h1 =>
      cases h
      have := Db.runFor_stmts h1
      simp only [List.map_cons, List.map_nil, List.cons.injEq, and_true] at this
      rw [this]
    · cases h
  · split at h
    · cases h; rfl
    · cases h; rfl
    · cases h

theorem Server.stepFor_req {d : Disk} {ext : Value → Nat → Option Value} {seen : Server → Nat → Seen} {cat : Catalog} {ch : Choices} {v v' : Server} {r : Req} {x : Call}
    (h : v.stepFor d ext seen cat ch r = some (x, v')) : x.req = r := by
  cases r with
  | query t s =>
    simp only [Server.stepFor] at h
    split at h
    · next hs => cases h; cases Conn.stepFor_req hs; rfl
    · cases h
  | select f q =>
    simp only [Server.stepFor] at h
    split at h
    · split at h
      · cases h
      · split at h
        · cases h
        · split at h
          · cases h; rfl
          · cases h
    · cases h
  | begin => simp only [Server.stepFor] at h; split at h <;> cases h <;> rfl
  | commit => simp only [Server.stepFor] at h; split at h <;> cases h <;> rfl
  | rollback => simp only [Server.stepFor] at h; split at h <;> cases h <;> rfl

theorem Session.stepFor_step {d : Disk} {ext : Value → Nat → Option Value} {seen : Cat → Server → Nat → Seen} {decl : Col → Column} {ch : Choices} {s s' : Session} {r : NReq} {x : NCall}
    (h : s.stepFor d ext seen decl ch r = some (x, s')) : Session.Step d ext seen decl ch s x s' := by
  have split_ : ∀ {r x v}, s.srv.stepFor d ext (seen s.cat) (view decl s.cat) ch r = some (x, v) → Server.Step d ext (seen s.cat) (view decl s.cat) ch s.srv ⟨r, x.reply, x.complete⟩ v := by
    intro r x v h
    cases Server.stepFor_req h
    exact Server.stepFor_step h
  cases r with
  | create n cols fks ine => cases h; exact .create (Nat.le_refl _)
  | query n st =>
    simp only [Session.stepFor] at h
    split at h
    · next h1 => cases h; exact .noTable h1
    · next h1 =>
      split at h
      · next h2 => cases h; exact .query h1 (split_ h2)
      · cases h
  | select f q =>
    simp only [Session.stepFor] at h
    split at h
    · next h1 => cases h; exact .noFrom h1
    · next h1 =>
      split at h
      · next h2 => cases h; exact .select h1 (split_ h2)
      · cases h
  | begin =>
    simp only [Session.stepFor] at h
    split at h
    · next h2 => cases h; exact .begin (split_ h2)
    · cases h
  | commit =>
    simp only [Session.stepFor] at h
    split at h
    · next h2 => cases h; exact .commit (split_ h2)
    · cases h
  | rollback =>
    simp only [Session.stepFor] at h
    split at h
    · next h2 => cases h; exact .rollback (split_ h2)
    · cases h

/-- Requests one after another. -/
def Session.runFor (d : Disk) (ext : Value → Nat → Option Value) (seen : Cat → Server → Nat → Seen) (decl : Col → Column) (ch : Choices) : Session → List NReq → Option (List NCall × Session)
  | s, [] => some ([], s)
  | s, r :: rs => match s.stepFor d ext seen decl ch r with
    | none => none
    | some (x, s') => (Session.runFor d ext seen decl ch s' rs).map fun y => (x :: y.1, y.2)

theorem Session.runFor_run {d : Disk} {ext : Value → Nat → Option Value} {seen : Cat → Server → Nat → Seen} {decl : Col → Column} {ch : Choices} {s : Session} {rs : List NReq}
    {x : List NCall × Session} (h : Session.runFor d ext seen decl ch s rs = some x) : Session.Run d ext seen decl ch s x.1 x.2 := by
  induction rs generalizing s x with
  | nil => cases h; exact .nil
  | cons r rs ih =>
    simp only [Session.runFor] at h
    split at h
    · cases h
    · next h1 =>
      obtain ⟨z, h2, h3⟩ := Option.map_eq_some_iff.1 h
      subst h3
      exact .cons (Session.stepFor_step h1) (ih h2)

/-! ## Histories that are covered -/

theorem nextN_quiet {d : Disk} {ext : Value → Nat → Option Value} {decl : Col → Column} {ch : Choices} {σ σ' : NDb} {r : NReq} {a : Reply} (N : NextN d ext decl ch σ r a σ')
    (hr : ∀ t p, r ≠ .query t (.delete p)) (h : ∀ m, Quiet (σ.st m)) (m : Catalog.Name) : Quiet (σ'.st m) := by
  cases N with
  | query _ N =>
    dsimp only
    split
    · next he => exact next_quiet N (fun p hp => by cases hp; exact hr _ p rfl) (h _)
    · exact h m
  | begin N => exact next_quiet (N m) nofun (h m)
  | commit N => exact next_quiet (N m) nofun (h m)
  | rollback N => exact next_quiet (N m) nofun (h m)
  | created _ _ => exact h m
  | _ => exact h m

theorem nextsN_quiet {d : Disk} {ext : Value → Nat → Option Value} {decl : Col → Column} {ch : Choices} {σ σ' : NDb} {xs : List NCall} (N : NextsN d ext decl ch σ xs σ')
    (hr : ∀ x ∈ xs, ∀ t p, x.req ≠ .query t (.delete p)) (h : ∀ m, Quiet (σ.st m)) (m : Catalog.Name) : Quiet (σ'.st m) := by
  induction N with
  | nil => exact h m
  | cons N _ ih => exact ih (fun x hx => hr x (List.mem_cons_of_mem _ hx)) (nextN_quiet N (hr _ List.mem_cons_self) h)

/-- A session of CREATE TABLEs, INSERTs of constants and SELECTs, in transactions or not, is covered. -/
theorem inserts_coveredN {d : Disk} {ext : Value → Nat → Option Value} {decl : Col → Column} {ch : Choices} {xs : List NCall}
    (h : ∀ x ∈ xs, ∀ t s, x.req = .query t s → ∃ rows, s = ints rows) : AllCoveredN d ext decl ch xs := by
  intro pre x post he σ N
  have hx : ∀ y ∈ pre, ∀ t p, y.req ≠ .query t (.delete p) := fun y hy t p hyp => by
    obtain ⟨rows, h⟩ := h y (he ▸ List.mem_append_left _ hy) t _ hyp
    cases h
  have q := nextsN_quiet N hx (fun _ => trivial)
  have hm : x ∈ xs := he ▸ List.mem_append_right _ List.mem_cons_self
  cases hreq : x.req with
  | query t s =>
    obtain ⟨rows, rfl⟩ := h x hm t s hreq
    exact ⟨ints_const rows, fun _ _ => trivial⟩
  | rollback =>
    intro m
    have := q m
    cases hs : σ.st m with
    | idle _ => trivial
    | busy _ _ _ => rw [hs] at this; exact this
  | create _ _ _ _ => trivial
  | select _ _ => trivial
  | begin => trivial
  | commit => trivial

/-! ## A session -/

def nm (s : List Char) : ObjName := [⟨s, none⟩]
def co (s : List Char) : ColDef := ⟨⟨s, none⟩, 0, none⟩

def nEmp : ObjName := nm ['e', 'm', 'p']
def nDept : ObjName := nm ['d', 'e', 'p', 't']
def nCity : ObjName := nm ['c', 'i', 't', 'y']

/-- All columns are integers. -/
def intDecl (c : Col) : Column := { name := str c.name, ty := 3 }

/-- `CREATE TABLE emp (id, dept REFERENCES dept (id))`, `CREATE TABLE dept (id, city)` and `CREATE TABLE city (people, id)`. -/
def mkEmp : NReq := .create nEmp [co ['i', 'd'], ⟨⟨['d', 'e', 'p', 't'], none⟩, 0, some (nDept, [⟨['i', 'd'], none⟩])⟩] [] false
def mkDept : NReq := .create nDept [co ['i', 'd'], co ['c', 'i', 't', 'y']] [] false
def mkCity : NReq := .create nCity [co ['p', 'e', 'o', 'p', 'l', 'e'], co ['i', 'd']] [] false

/-- `exFrom` by names. -/
def exNamed : NFrom := .join .inner (.join .left (.table nEmp (some "e")) (.table nDept (some "d")) (.on (eq ⟨some "e", "dept"⟩ ⟨some "d", "id"⟩))) (.table nCity none)
  (.on (eq ⟨some "d", "city"⟩ ⟨some "city", "id"⟩))

/-- Employees must wait for departments; cities are created in a transaction that is rolled back, which leaves the table and not its rows. -/
def exFirst : List NReq := [mkEmp, mkDept, mkEmp, mkDept, .begin, mkCity, .query nCity (ints [[9, 9]]), .rollback]

/-- There is no table of villages; cities are filled in a transaction, in which all three tables are joined. -/
def exThen : List NReq := [.query nEmp (ints [[1, 10], [2, 20], [3, 10]]), .query nDept (ints [[10, 7], [30, 8]]), .query (nm ['v']) (ints [[9, 9]]), .select exNamed exJoined, .begin,
  .query nCity (ints [[500, 7], [600, 8]]), .select exNamed exJoined, .commit, .select (.table (nm ['v']) none) exJoined, .select exNamed exJoined]

def exRunFirst : Option (List NCall × Session) := Session.runFor exDisk noExt (fun _ _ _ => noSeen) intDecl exChoices (.new (fun _ => 1) 1) exFirst
def exRunThen : Option (List NCall × Session) := exRunFirst.bind fun x => Session.runFor exDisk noExt (fun _ _ _ => noSeen) intDecl exChoices x.2 exThen

/-- A reply with rows of integers. -/
inductive Shown where
  | ok
  | error
  | count (n : Nat)
  | rows (l : List (List (Option Int)))
  deriving DecidableEq

def shown : Reply → Shown
  | .ok => .ok
  | .error => .error
  | .count n => .count n
  | .rows l => .rows (l.map fun r => r.map fun | .mk (.integer i) _ _ _ _ => some i | _ => none)

theorem exRunFirst_replies : exRunFirst.map (fun x => x.1.map fun y => shown y.reply) = some [.error, .ok, .ok, .error, .ok, .ok, .count 1, .ok] := by decide +kernel
theorem exRunThen_replies : exRunThen.map (fun x => x.1.map fun y => shown y.reply) = some [.count 3, .count 2, .error, .rows [], .ok, .count 2,
    .rows [[some 1, some 500], [some 3, some 500]], .ok, .error, .rows [[some 1, some 500], [some 3, some 500]]] := by decide +kernel
theorem exRunThen_complete : exRunThen.map (fun x => x.1.all fun y => y.complete 0) = some true := by decide +kernel

theorem exRunFirst_low : ∀ t < 8, exRunFirst.map (fun x => x.1.all fun y => y.complete t) = some true := by decide +kernel
theorem exRunFirst_high (t : Nat) : exRunFirst.map (fun x => x.1.all fun y => y.complete (t + 8)) = some true := rfl
theorem exRunFirst_complete (t : Nat) : exRunFirst.map (fun x => x.1.all fun y => y.complete t) = some true := by
  by_cases h : t < 8
  · exact exRunFirst_low t h
  · obtain ⟨k, rfl⟩ := Nat.exists_eq_add_of_le' (Nat.le_of_not_lt h)
    exact exRunFirst_high k

theorem Session.stepFor_req {d : Disk} {ext : Value → Nat → Option Value} {seen : Cat → Server → Nat → Seen} {decl : Col → Column} {ch : Choices} {s s' : Session} {r : NReq} {x : NCall}
    (h : s.stepFor d ext seen decl ch r = some (x, s')) : x.req = r := by
  cases r with
  | create n cols fks ine => cases h; rfl
  | query n st =>
    simp only [Session.stepFor] at h
    split at h
    · cases h; rfl
    · split at h
      · cases h; rfl
      · cases h
  | select f q =>
    simp only [Session.stepFor] at h
    split at h
    · cases h; rfl
    · split at h
      · cases h; rfl
      · cases h
  | begin => simp only [Session.stepFor] at h; split at h <;> cases h; rfl
  | commit => simp only [Session.stepFor] at h; split at h <;> cases h; rfl
  | rollback => simp only [Session.stepFor] at h; split at h <;> cases h; rfl

theorem Session.runFor_reqs {d : Disk} {ext : Value → Nat → Option Value} {seen : Cat → Server → Nat → Seen} {decl : Col → Column} {ch : Choices} {s : Session} {rs : List NReq}
    {x : List NCall × Session} (h : Session.runFor d ext seen decl ch s rs = some x) : x.1.map (·.req) = rs := by
  induction rs generalizing s x with
  | nil => cases h; rfl
  | cons r rs ih =>
    simp only [Session.runFor] at h
    split at h
    · cases h
    · next h1 =>
      obtain ⟨z, h2, h3⟩ := Option.map_eq_some_iff.1 h
      subst h3
      rw [List.map_cons, ih h2, Session.stepFor_req h1]

theorem Session.Run.append {d : Disk} {ext : Value → Nat → Option Value} {seen : Cat → Server → Nat → Seen} {decl : Col → Column} {ch : Choices} {s s1 s2 : Session} {xs ys : List NCall}
    (h : Session.Run d ext seen decl ch s xs s1) (h' : Session.Run d ext seen decl ch s1 ys s2) : Session.Run d ext seen decl ch s (xs ++ ys) s2 := by
  induction h with
  | nil => exact h'
  | cons S _ ih => exact .cons S (ih h')

/-- Only a ROLLBACK has more than one table to see to. -/
theorem Session.Step.complete {d : Disk} {ext : Value → Nat → Option Value} {seen : Cat → Server → Nat → Seen} {decl : Col → Column} {ch : Choices} {s s' : Session} {x : NCall}
    (S : Session.Step d ext seen decl ch s x s') (h : x.req ≠ .rollback) (t : Nat) : x.complete t = x.complete 0 := by
  cases S with
  | create => rfl
  | query _ S => cases S; rfl
  | noTable => rfl
  | select _ S => cases S; rfl
  | noFrom => rfl
  | begin S => cases S <;> rfl
  | commit S => cases S <;> rfl
  | rollback => exact absurd rfl h

theorem Session.Run.complete {d : Disk} {ext : Value → Nat → Option Value} {seen : Cat → Server → Nat → Seen} {decl : Col → Column} {ch : Choices} {s s' : Session} {xs : List NCall}
    (R : Session.Run d ext seen decl ch s xs s') (h : ∀ x ∈ xs, x.req ≠ .rollback) : ∀ x ∈ xs, ∀ t, x.complete t = x.complete 0 := by
  induction R with
  | nil => nofun
  | cons S _ ih =>
    intro x hx t
    rcases List.mem_cons.1 hx with rfl | hx
    · exact S.complete (h _ List.mem_cons_self) t
    · exact ih (fun y hy => h y (List.mem_cons_of_mem _ hy)) x hx t

theorem plain_nm {c : Char} {l : List Char} : Catalog.PlainName (nm (c :: l)) := ⟨_, rfl, nofun⟩

theorem ex_plain {r : NReq} (h : r ∈ exFirst ++ exThen) : r.Plain := by
  have hd : mkDept.Plain := ⟨plain_nm, by decide, by decide, by decide, by simp [co], nofun⟩
  have hc : mkCity.Plain := ⟨plain_nm, by decide, by decide, by decide, by simp [co], nofun⟩
  have he : mkEmp.Plain := ⟨plain_nm, by decide, by decide, by decide, by simp [co]; exact plain_nm, nofun⟩
  have hf : exNamed.Plain := ⟨⟨plain_nm, plain_nm⟩, plain_nm⟩
  simp only [exFirst, exThen, List.mem_append, List.mem_cons, List.not_mem_nil, or_false] at h
  rcases h with (rfl | rfl | rfl | rfl | rfl | rfl | rfl | rfl) | (rfl | rfl | rfl | rfl | rfl | rfl | rfl | rfl | rfl | rfl) <;>
    first
      | trivial
      | exact plain_nm

/-- The hypotheses of `C142_session_partial`. -/
theorem ex_meets : ∃ xs ys s1 s2, exRunFirst = some (xs, s1) ∧ exRunThen = some (ys, s2) ∧
    ∃ σ, NextsN exDisk noExt intDecl exChoices .new (xs ++ ys) σ ∧ ∀ n, (s2.cat.selectTable [⟨n, none⟩]).map Tab.cols = σ.tab n ∧
      ∀ tab, s2.cat.selectTable [⟨n, none⟩] = some tab → Yields (seqScan exDisk (s2.srv.heap tab.oid)).m (seqScan exDisk (s2.srv.heap tab.oid)).s (σ.st n).rows .done := by
  have h1 := exRunFirst_complete
  have h2 := exRunThen_complete
  unfold exRunThen at h2 ⊢
  cases h : exRunFirst with
  | none => rw [h] at h2; cases h2
  | some x =>
    rw [h] at h1 h2
    rw [Option.bind_some] at h2 ⊢
    cases h' : Session.runFor exDisk noExt (fun _ _ _ => noSeen) intDecl exChoices x.2 exThen with
    | none => rw [h'] at h2; cases h2
    | some y =>
      rw [h'] at h2
      have R := Session.runFor_run h'
      have e : (x.1 ++ y.1).map (·.req) = exFirst ++ exThen := by rw [List.map_append, Session.runFor_reqs h, Session.runFor_reqs h']
      refine ⟨x.1, y.1, x.2, y.2, rfl, rfl, C142_session_partial exDisk_readable exDisk_sane exDisk_fresh noExt_typed (fun _ => rfl) (fun _ => .refl _) (by decide)
        ((Session.runFor_run h).append R) ?_ ?_ ?_⟩
      · intro z hz
        exact ex_plain (e ▸ List.mem_map_of_mem hz)
      · intro z hz t
        rcases List.mem_append.1 hz with hz | hz
        · exact List.all_eq_true.1 (Option.some.inj (h1 t)) z hz
        · rw [R.complete (fun w hw => ?_) z hz t]
          · exact List.all_eq_true.1 (Option.some.inj h2) z hz
          · have : w.req ∈ exThen := Session.runFor_reqs h' ▸ List.mem_map_of_mem hw
            simp only [exThen, List.mem_cons, List.not_mem_nil, or_false] at this
            rcases this with h | h | h | h | h | h | h | h | h | h <;> rw [h] <;> nofun
      · refine inserts_coveredN fun z hz t s hs => ?_
        have : z.req ∈ exFirst ++ exThen := e ▸ List.mem_map_of_mem hz
        simp only [exFirst, exThen, mkEmp, mkDept, mkCity, List.mem_append, List.mem_cons, List.not_mem_nil, or_false, hs, NReq.query.injEq, reduceCtorEq, false_or] at this
        rcases this with ⟨_, rfl⟩ | ⟨_, rfl⟩ | ⟨_, rfl⟩ | ⟨_, rfl⟩ | ⟨_, rfl⟩ <;> exact ⟨_, rfl⟩

end Verif.Whole

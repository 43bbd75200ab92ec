import Verif.Base.AMap
import Verif.Locks.Queue

/-!
# Lock manager (`LockManager`, `LockStateManager`, `LockValidator`, `src/concurrency/lock_manager.rs`)

A call that blocks forever is the result `none`: the queue's lock and the lock on the whole map stay held, so
no later call returns either. Transactions' states live in the state because the calls change them.
-/

namespace Verif.Locks

/-- `enum TransactionState` (transaction.rs). -/
inductive TState where
  | running | growing | shrinking | tainted | committed | aborted
  deriving DecidableEq, Repr

/-- `enum IsolationLevel` (transaction.rs). -/
inductive Iso where
  | readUncommitted | readCommitted | repeatableRead | serializable | snapshot
  deriving DecidableEq, Repr

/-- `enum LockError`, the variants these calls return. -/
inductive LockError where
  | lockSharedOnReadUncommitted | lockOnShrinking | transactionAborted | transactionCommitted
  | noLockHeld | tableUnlockedBeforeRows | intentionLockOnRow | tableLockNotPresent
  deriving DecidableEq, Repr

/-- Table oids. -/
abbrev Oid := Nat

/-- Record ids: page and slot. -/
abbrev Rid := Nat × Nat

/-- `struct TxnLockState` (lock_manager.rs:228-234). The first component of a row entry is named
`TableOidT` in the code but is filled with the page id (line 706). -/
structure LockSet where
  tables : List Oid
  rows : List (Nat × Rid)
  deriving DecidableEq, Repr

/-- `LockManager` with `LockStateManager` and `DeadlockDetector` state (lock_manager.rs:242-298), and the
state and isolation level of each transaction. -/
structure Mgr where
  tables : AMap Oid Queue
  rows : AMap Rid Queue
  sets : AMap TxnId LockSet
  waits : AMap TxnId (List TxnId)
  latestAbort : Option TxnId
  tstate : TxnId → TState
  iso : TxnId → Iso

/-- `LockManager::new` (lock_manager.rs:1017-1026). -/
def Mgr.new (tstate : TxnId → TState) (iso : TxnId → Iso) : Mgr :=
  { tables := [], rows := [], sets := [], waits := [], latestAbort := none, tstate, iso }

/-- Results of calls. -/
inductive Res where
  | ok (b : Bool)
  | err (e : LockError)
  | unit
  deriving DecidableEq, Repr

/-- `txn.set_state`. -/
def setState (m : Mgr) (t : TxnId) (st : TState) : Mgr :=
  { m with tstate := fun u => if u = t then st else m.tstate u }

/-- `HashSet::insert`. -/
def addTo {α : Type} [DecidableEq α] (x : α) (l : List α) : List α := if x ∈ l then l else l ++ [x]

/-- `validate_lock_request` (lock_manager.rs:929-1006); a snapshot transaction is moved to `Shrinking` by
the check itself. -/
def validate (m : Mgr) (t : TxnId) (mode : Mode) : Mgr × Option LockError :=
  match m.iso t with
  | .readUncommitted =>
    match mode with
    | .s | .is | .six => (m, some .lockSharedOnReadUncommitted)
    | .x | .ix => if m.tstate t = .shrinking then (m, some .lockOnShrinking) else (m, none)
  | .readCommitted =>
    match m.tstate t with
    | .growing => (m, none)
    | .shrinking => match mode with
      | .s | .is => (m, none)
      | _ => (m, some .lockOnShrinking)
    | .aborted => (m, some .transactionAborted)
    | .committed => (m, some .transactionCommitted)
    | .running => (m, none)
    | .tainted => (m, some .transactionAborted)
  | .repeatableRead =>
    match m.tstate t with
    | .growing => (m, none)
    | .shrinking => (m, some .lockOnShrinking)
    | .aborted => (m, some .transactionAborted)
    | .committed => (m, some .transactionCommitted)
    | .running => (m, none)
    | .tainted => (m, some .transactionAborted)
  | .serializable => (m, none)
  | .snapshot =>
    match mode with
    | .s | .x => (setState m t .shrinking, none)
    | _ => (m, none)

/-- `entry(oid).or_insert_with(new)`. -/
def queueOf {K : Type} [DecidableEq K] (qs : AMap K Queue) (k : K) : Queue := (qs.get k).getD Queue.new

/-- `add_edge` (lock_manager.rs:510-513). -/
def addEdge (m : Mgr) (t u : TxnId) : Mgr :=
  { m with waits := m.waits.set t ((m.waits.get t).getD [] ++ [u]) }

/-- The loop adding an edge to every granted request's transaction (lock_manager.rs:1079-1085, 1249-1255). -/
def addEdges (m : Mgr) (t : TxnId) (q : Queue) : Mgr :=
  q.reqs.foldl (fun m r => if r.granted then addEdge m t r.txn else m) m

/-- `check_deadlock` (lock_manager.rs:1368-1376). -/
def checkDeadlock (m : Mgr) (t : TxnId) : Mgr :=
  if m.latestAbort = some t then setState { m with latestAbort := none } t .aborted
  else { m with latestAbort := none }

/-- The set of locks recorded for a transaction. -/
def lockSet (m : Mgr) (t : TxnId) : LockSet := (m.sets.get t).getD { tables := [], rows := [] }

/-- `lock_table` (lock_manager.rs:1041-1094). When not granted the result is `Ok(false)` whether or not the
transaction was picked as deadlock victim. -/
def lockTable (m : Mgr) (t : TxnId) (mode : Mode) (oid : Oid) : Mgr × Res :=
  match validate m t mode with
  | (m, some e) => (m, .err e)
  | (m, none) =>
    let (q, granted) := grantLock (queueOf m.tables oid) t mode
    let m := { m with tables := m.tables.set oid q }
    if granted then
      ({ m with sets := m.sets.set t { lockSet m t with tables := addTo oid (lockSet m t).tables } }, .ok true)
    else (checkDeadlock (addEdges m t q) t, .ok false)

/-- The state change after an unlock (lock_manager.rs:1134-1160 and 1297-1323). -/
def afterUnlock (m : Mgr) (t : TxnId) (mode : Mode) : Mgr :=
  match m.iso t with
  | .readCommitted | .readUncommitted => if mode = .x then setState m t .shrinking else m
  | _ => if mode = .s ∨ mode = .x then setState m t .shrinking else m

/-- `release_table_lock` (lock_manager.rs:713-751); outer `none`: blocks forever; inner `none`: `NoLockHeld`. -/
def releaseTable (m : Mgr) (t : TxnId) (oid : Oid) : Option (Option Mgr) :=
  match m.tables.get oid with
  | none => some none
  | some q =>
    match release q t with
    | .hang => none
    | .notHeld => some none
    | .released q' => some (some { m with
        tables := m.tables.set oid q',
        sets := match m.sets.get t with
          | none => m.sets
          | some ls => m.sets.set t { ls with tables := ls.tables.filter (· ≠ oid) } })

/-- `release_row_lock` (lock_manager.rs:754-780). -/
def releaseRow (m : Mgr) (t : TxnId) (rid : Rid) : Option (Option Mgr) :=
  match m.rows.get rid with
  | none => some none
  | some q =>
    match release q t with
    | .hang => none
    | .notHeld => some none
    | .released q' => some (some { m with
        rows := m.rows.set rid q',
        sets := match m.sets.get t with
          | none => m.sets
          | some ls => m.sets.set t { ls with rows := ls.rows.filter (· ≠ (rid.1, rid)) } })

/-- `get_row_locks_for_table` (lock_manager.rs:854-867). -/
def rowLocksForTable (m : Mgr) (t : TxnId) (oid : Oid) : List Rid :=
  ((lockSet m t).rows.filter (fun e => e.1 = oid)).map (·.2)

/-- `remove_edge` (lock_manager.rs:516-519). -/
def removeEdge (m : Mgr) (t : TxnId) : Mgr := { m with waits := m.waits.erase t }

/-- `unlock_table` (lock_manager.rs:1105-1166). -/
def unlockTable (m : Mgr) (t : TxnId) (mode : Mode) (oid : Oid) : Option (Mgr × Res) :=
  if oid ∉ (lockSet m t).tables then some (setState m t .aborted, .err .noLockHeld)
  else if rowLocksForTable m t oid ≠ [] then some (setState m t .aborted, .err .tableUnlockedBeforeRows)
  else match releaseTable m t oid with
    | none => none
    | some none => some (m, .err .noLockHeld)
    | some (some m) => some (removeEdge (afterUnlock m t mode) t, .ok true)

/-- The table lock a row lock needs (lock_manager.rs:1203-1232). -/
def hasTableLockFor (m : Mgr) (t : TxnId) (mode : Mode) (oid : Oid) : Bool :=
  match m.tables.get oid with
  | none => false
  | some q => q.reqs.any fun r =>
      decide (r.txn = t) && r.granted &&
        match mode with
        | .x => r.mode = .x || r.mode = .ix || r.mode = .six
        | .s => r.mode = .s || r.mode = .is || r.mode = .six
        | _ => false

/-- `lock_row` (lock_manager.rs:1181-1265), with `grant_row_lock` (685-710). -/
def lockRow (m : Mgr) (t : TxnId) (mode : Mode) (oid : Oid) (rid : Rid) : Mgr × Res :=
  match validate m t mode with
  | (m, some e) => (m, .err e)
  | (m, none) =>
    if mode = .is ∨ mode = .ix ∨ mode = .six then (setState m t .aborted, .err .intentionLockOnRow)
    else if hasTableLockFor m t mode oid = false then (setState m t .aborted, .err .tableLockNotPresent)
    else
      let (q, granted) := grantLock (queueOf m.rows rid) t mode
      let m := { m with rows := m.rows.set rid q }
      if granted then
        ({ m with sets := m.sets.set t { lockSet m t with rows := addTo (rid.1, rid) (lockSet m t).rows } },
          .ok true)
      else (checkDeadlock (addEdges m t q) t, .ok false)

/-- `unlock_row` (lock_manager.rs:1276-1329). -/
def unlockRow (m : Mgr) (t : TxnId) (mode : Mode) (oid : Oid) (rid : Rid) : Option (Mgr × Res) :=
  if rid ∉ rowLocksForTable m t oid then some (setState m t .aborted, .err .noLockHeld)
  else match releaseRow m t rid with
    | none => none
    | some none => some (m, .err .noLockHeld)
    | some (some m) => some (removeEdge (afterUnlock m t mode) t, .ok true)

/-- `unlock_all` (lock_manager.rs:1332-1356). -/
def unlockAll (m : Mgr) : Mgr := { m with tables := [], rows := [], sets := [], waits := [] }

/-- One of the loops of `force_release_txn` (lock_manager.rs:797-805 and 811-819). The sets are iterated in an
arbitrary order in the code; each iteration touches a different queue. -/
def purgeAll {K : Type} [DecidableEq K] (t : TxnId) : List K → AMap K Queue → Option (AMap K Queue)
  | [], qs => some qs
  | k :: ks, qs =>
    match qs.get k with
    | none => purgeAll t ks qs
    | some q =>
      match purge q t with
      | none => none
      | some q' => purgeAll t ks (qs.set k q')

/-- `force_release_txn` (lock_manager.rs:1359-1363 and 783-827). -/
def forceRelease (m : Mgr) (t : TxnId) : Option (Mgr × Res) :=
  let m := removeEdge m t
  match m.sets.get t with
  | none => some (m, .unit)
  | some ls =>
    match purgeAll t (ls.rows.map (·.2)) m.rows with
    | none => none
    | some rows =>
      match purgeAll t ls.tables m.tables with
      | none => none
      | some tables => some ({ m with rows, tables, sets := m.sets.erase t }, .unit)

/-- Calls. `detect v` is the detector thread reporting a victim (lock_manager.rs:542-546), which any
transaction may be here; `setState` is the rest of the system changing a transaction's state. -/
inductive Op where
  | lockTable (t : TxnId) (mode : Mode) (oid : Oid)
  | unlockTable (t : TxnId) (mode : Mode) (oid : Oid)
  | lockRow (t : TxnId) (mode : Mode) (oid : Oid) (rid : Rid)
  | unlockRow (t : TxnId) (mode : Mode) (oid : Oid) (rid : Rid)
  | unlockAll
  | forceRelease (t : TxnId)
  | detect (v : TxnId)
  | setState (t : TxnId) (st : TState)

/-- One call; `none`: it blocks forever. -/
def step (m : Mgr) : Op → Option (Mgr × Res)
  | .lockTable t mode oid => some (lockTable m t mode oid)
  | .unlockTable t mode oid => unlockTable m t mode oid
  | .lockRow t mode oid rid => some (lockRow m t mode oid rid)
  | .unlockRow t mode oid rid => unlockRow m t mode oid rid
  | .unlockAll => some (unlockAll m, .ok true)
  | .forceRelease t => forceRelease m t
  | .detect v => some ({ m with latestAbort := some v }, .unit)
  | .setState t st => some (setState m t st, .unit)

/-- A sequence of calls, all of which return. -/
def run (m : Mgr) : List Op → Option (Mgr × List Res)
  | [] => some (m, [])
  | o :: os =>
    match step m o with
    | none => none
    | some (m', r) =>
      match run m' os with
      | none => none
      | some (m'', rs) => some (m'', r :: rs)

/-! ## Specification vocabulary -/

/-- The transaction holds a granted lock of this mode on the table. -/
def HoldsTable (m : Mgr) (t : TxnId) (mode : Mode) (oid : Oid) : Prop :=
  ∃ q, m.tables.get oid = some q ∧ { txn := t, mode := mode, granted := true } ∈ q.reqs

/-- The transaction holds a granted lock of this mode on the row. -/
def HoldsRow (m : Mgr) (t : TxnId) (mode : Mode) (rid : Rid) : Prop :=
  ∃ q, m.rows.get rid = some q ∧ { txn := t, mode := mode, granted := true } ∈ q.reqs

/-- The transaction has a request, granted or waiting, somewhere. -/
def HasRequest (m : Mgr) (t : TxnId) : Prop :=
  (∃ oid q r, m.tables.get oid = some q ∧ r ∈ q.reqs ∧ r.txn = t) ∨
  (∃ rid q r, m.rows.get rid = some q ∧ r ∈ q.reqs ∧ r.txn = t)

/-! ## Frame lemmas -/

@[simp] theorem setState_tables (m : Mgr) (t st) : (setState m t st).tables = m.tables := rfl
@[simp] theorem setState_rows (m : Mgr) (t st) : (setState m t st).rows = m.rows := rfl
@[simp] theorem setState_sets (m : Mgr) (t st) : (setState m t st).sets = m.sets := rfl
@[simp] theorem setState_iso (m : Mgr) (t st) : (setState m t st).iso = m.iso := rfl

theorem validate_frame (m : Mgr) (t : TxnId) (mode : Mode) :
    (validate m t mode).1.tables = m.tables ∧ (validate m t mode).1.rows = m.rows ∧
    (validate m t mode).1.sets = m.sets ∧ (validate m t mode).1.iso = m.iso := by
  unfold validate
  repeat' split
  all_goals exact ⟨rfl, rfl, rfl, rfl⟩

theorem addEdges_frame (t : TxnId) (q : Queue) : ∀ m : Mgr,
    (addEdges m t q).tables = m.tables ∧ (addEdges m t q).rows = m.rows ∧
    (addEdges m t q).sets = m.sets ∧ (addEdges m t q).iso = m.iso := by
  unfold addEdges
  generalize q.reqs = l
  induction l with
  | nil => intro m; exact ⟨rfl, rfl, rfl, rfl⟩
  | cons r rs ih =>
    intro m
    simp only [List.foldl_cons]
    obtain ⟨h1, h2, h3, h4⟩ := ih (if r.granted then addEdge m t r.txn else m)
    rw [h1, h2, h3, h4]
    split <;> exact ⟨rfl, rfl, rfl, rfl⟩

theorem checkDeadlock_frame (m : Mgr) (t : TxnId) :
    (checkDeadlock m t).tables = m.tables ∧ (checkDeadlock m t).rows = m.rows ∧
    (checkDeadlock m t).sets = m.sets ∧ (checkDeadlock m t).iso = m.iso := by
  unfold checkDeadlock; split <;> exact ⟨rfl, rfl, rfl, rfl⟩

theorem afterUnlock_frame (m : Mgr) (t : TxnId) (mode : Mode) :
    (afterUnlock m t mode).tables = m.tables ∧ (afterUnlock m t mode).rows = m.rows ∧
    (afterUnlock m t mode).sets = m.sets ∧ (afterUnlock m t mode).iso = m.iso := by
  unfold afterUnlock; repeat' split
  all_goals exact ⟨rfl, rfl, rfl, rfl⟩

/-- Effect of `lock_table` on queues and lock sets. -/
theorem lockTable_eff (m : Mgr) (t : TxnId) (mode : Mode) (oid : Oid) :
    (lockTable m t mode oid).1.rows = m.rows ∧
    (((lockTable m t mode oid).1.tables = m.tables ∧ (lockTable m t mode oid).1.sets = m.sets) ∨
     ((lockTable m t mode oid).1.tables = m.tables.set oid (grantLock (queueOf m.tables oid) t mode).1 ∧
      (lockTable m t mode oid).1.sets =
        if (grantLock (queueOf m.tables oid) t mode).2 then
          m.sets.set t { lockSet m t with tables := addTo oid (lockSet m t).tables }
        else m.sets)) := by
  unfold lockTable
  have hv := validate_frame m t mode
  rcases hvv : validate m t mode with ⟨m1, e⟩
  rw [hvv] at hv
  obtain ⟨h1, h2, h3, h4⟩ := hv
  simp only at h1 h2 h3 h4
  cases e with
  | some e => exact ⟨h2, Or.inl ⟨h1, h3⟩⟩
  | none =>
    simp only
    rw [h1]
    rcases hg : grantLock (queueOf m.tables oid) t mode with ⟨q, g⟩
    cases g with
    | true =>
      simp only [if_true]
      refine ⟨h2, Or.inr ⟨trivial, ?_⟩⟩
      simp only [lockSet, h3]
    | false =>
      simp only [Bool.false_eq_true, if_false]
      obtain ⟨c1, c2, c3, _⟩ := checkDeadlock_frame (addEdges { m1 with tables := m.tables.set oid q } t q) t
      obtain ⟨a1, a2, a3, _⟩ := addEdges_frame t q { m1 with tables := m.tables.set oid q }
      exact ⟨by rw [c2, a2]; exact h2, Or.inr ⟨by rw [c1, a1], by rw [c3, a3]; exact h3⟩⟩

/-- Effect of `lock_row` on queues and lock sets. -/
theorem lockRow_eff (m : Mgr) (t : TxnId) (mode : Mode) (oid : Oid) (rid : Rid) :
    (lockRow m t mode oid rid).1.tables = m.tables ∧
    (((lockRow m t mode oid rid).1.rows = m.rows ∧ (lockRow m t mode oid rid).1.sets = m.sets) ∨
     ((mode = .s ∨ mode = .x) ∧
      (lockRow m t mode oid rid).1.rows = m.rows.set rid (grantLock (queueOf m.rows rid) t mode).1 ∧
      (lockRow m t mode oid rid).1.sets =
        if (grantLock (queueOf m.rows rid) t mode).2 then
          m.sets.set t { lockSet m t with rows := addTo (rid.1, rid) (lockSet m t).rows }
        else m.sets)) := by
  unfold lockRow
  have hv := validate_frame m t mode
  rcases hvv : validate m t mode with ⟨m1, e⟩
  rw [hvv] at hv
  obtain ⟨h1, h2, h3, h4⟩ := hv
  simp only at h1 h2 h3 h4
  cases e with
  | some e => exact ⟨h1, Or.inl ⟨h2, h3⟩⟩
  | none =>
    simp only
    by_cases hi : mode = .is ∨ mode = .ix ∨ mode = .six
    · rw [if_pos hi]; exact ⟨h1, Or.inl ⟨h2, h3⟩⟩
    · rw [if_neg hi]
      have hm : mode = .s ∨ mode = .x := by cases mode <;> simp_all
      by_cases hh : hasTableLockFor m1 t mode oid = false
      · rw [if_pos hh]; exact ⟨h1, Or.inl ⟨h2, h3⟩⟩
      · rw [if_neg hh, h2]
        rcases hg : grantLock (queueOf m.rows rid) t mode with ⟨q, g⟩
        cases g with
        | true =>
          simp only [if_true]
          refine ⟨h1, Or.inr ⟨hm, trivial, ?_⟩⟩
          simp only [lockSet, h3]
        | false =>
          simp only [Bool.false_eq_true, if_false]
          obtain ⟨c1, c2, c3, _⟩ := checkDeadlock_frame (addEdges { m1 with rows := m.rows.set rid q } t q) t
          obtain ⟨a1, a2, a3, _⟩ := addEdges_frame t q { m1 with rows := m.rows.set rid q }
          exact ⟨by rw [c1, a1]; exact h1, Or.inr ⟨hm, by rw [c2, a2], by rw [c3, a3]; exact h3⟩⟩

/-! ## Invariants -/

/-- Every queue of a map satisfies the exclusion invariant. -/
def AllInv {K : Type} [DecidableEq K] (qs : AMap K Queue) : Prop := ∀ k q, qs.get k = some q → Inv q

theorem allInv_set {K : Type} [DecidableEq K] {qs : AMap K Queue} (h : AllInv qs) (k : K) {q : Queue}
    (hq : Inv q) : AllInv (qs.set k q) := by
  intro k' q' hg
  rw [AMap.get_set] at hg
  split at hg
  · cases hg; exact hq
  · exact h k' q' hg

theorem allInv_queueOf {K : Type} [DecidableEq K] {qs : AMap K Queue} (h : AllInv qs) (k : K) :
    Inv (queueOf qs k) := by
  unfold queueOf
  cases hk : qs.get k with
  | none => exact inv_new
  | some q => exact h k q hk

theorem allInv_purgeAll {K : Type} [DecidableEq K] (t : TxnId) (ks : List K) : ∀ {qs qs' : AMap K Queue},
    AllInv qs → purgeAll t ks qs = some qs' → AllInv qs' := by
  induction ks with
  | nil => intro qs qs' h hp; simp [purgeAll] at hp; subst hp; exact h
  | cons k ks ih =>
    intro qs qs' h hp
    unfold purgeAll at hp
    split at hp
    · exact ih h hp
    · next q hq =>
      split at hp
      · cases hp
      · next q' hq' => exact ih (allInv_set h k (inv_purge (h k q hq) hq')) hp

/-- Row queues only contain shared and exclusive requests. -/
def RowModes (qs : AMap Rid Queue) : Prop :=
  ∀ k q, qs.get k = some q → ∀ r ∈ q.reqs, r.mode = .s ∨ r.mode = .x

theorem rowModes_set {qs : AMap Rid Queue} (h : RowModes qs) (k : Rid) {q : Queue}
    (hq : ∀ r ∈ q.reqs, r.mode = .s ∨ r.mode = .x) : RowModes (qs.set k q) := by
  intro k' q' hg
  rw [AMap.get_set] at hg
  split at hg
  · cases hg; exact hq
  · exact h k' q' hg

theorem enqueue_mem {q : Queue} {t : TxnId} {mode : Mode} {r : Req} (h : r ∈ (enqueue q t mode).1.reqs) :
    r ∈ q.reqs ∨ (r.txn = t ∧ r.mode = mode) := by
  unfold enqueue at h
  split at h <;> · simp only [List.mem_append, List.mem_singleton] at h
                   rcases h with h | h
                   · exact Or.inl h
                   · subst h; exact Or.inr ⟨rfl, rfl⟩

theorem grantLock_mem {q : Queue} {t : TxnId} {mode : Mode} {r : Req} (h : r ∈ (grantLock q t mode).1.reqs) :
    r ∈ q.reqs ∨ (r.txn = t ∧ r.mode = mode) := by
  unfold grantLock at h
  split at h
  · exact enqueue_mem h
  · split at h
    · exact enqueue_mem h
    · split at h
      · exact Or.inl h
      · split at h
        · exact enqueue_mem h
        · exact enqueue_mem h
        · split at h
          · exact Or.inl h
          · rcases enqueue_mem h with h | h
            · exact Or.inl (List.mem_of_mem_eraseIdx h)
            · exact Or.inr h

theorem release_mem {q q' : Queue} {t : TxnId} (hi : Inv q) (h : release q t = .released q') {r : Req}
    (hr : r ∈ q'.reqs) : r ∈ q.reqs := by
  unfold release at h
  split at h
  · cases h
  · split at h
    · cases h
    · next hg =>
      cases h
      rw [grantWaiting_eq (inv_sublist hi (List.eraseIdx_sublist _ _)) _ _ _ hg] at hr
      exact List.mem_of_mem_eraseIdx hr

theorem purge_mem {q q' : Queue} {t : TxnId} (hi : Inv q) (h : purge q t = some q') {r : Req} :
    r ∈ q'.reqs ↔ r ∈ q.reqs ∧ r.txn ≠ t := by
  unfold purge at h
  have hi' := inv_sublist (u := q.upgrading) hi (List.filter_sublist (p := fun r => r.txn ≠ t) (l := q.reqs))
  rw [grantWaiting_eq hi' _ _ _ h]
  simp

theorem purgeAll_get {K : Type} [DecidableEq K] (t : TxnId) (ks : List K) : ∀ {qs qs' : AMap K Queue},
    AllInv qs → purgeAll t ks qs = some qs' → ∀ k q', qs'.get k = some q' →
      ∃ q, qs.get k = some q ∧ (∀ r, r ∈ q'.reqs ↔ r ∈ q.reqs ∧ (k ∈ ks → r.txn ≠ t)) := by
  induction ks with
  | nil => intro qs qs' _ hp k q' hg; simp [purgeAll] at hp; subst hp; exact ⟨q', hg, by simp⟩
  | cons k0 ks ih =>
    intro qs qs' h hp k q' hg
    unfold purgeAll at hp
    split at hp
    · next hn =>
      obtain ⟨q, h1, h2⟩ := ih h hp k q' hg
      refine ⟨q, h1, ?_⟩
      have hk : k ≠ k0 := by rintro rfl; rw [hn] at h1; cases h1
      intro r; rw [h2 r]; simp [hk]
    · next q0 hq0 =>
      split at hp
      · cases hp
      · next q1 hq1 =>
        obtain ⟨q, h1, h2⟩ := ih (allInv_set h k0 (inv_purge (h k0 q0 hq0) hq1)) hp k q' hg
        rw [AMap.get_set] at h1
        split at h1
        · next he =>
          subst he
          cases h1
          refine ⟨q0, hq0, ?_⟩
          intro r; rw [h2 r, purge_mem (h _ _ hq0) hq1]
          simp only [List.mem_cons, true_or, true_imp_iff]
          exact ⟨fun h => h.1, fun h => ⟨h, fun _ => h.2⟩⟩
        · next he =>
          refine ⟨q, h1, ?_⟩
          intro r; rw [h2 r]; simp [Ne.symm he]

/-- The row part of the invariant: exclusion, and only S and X requests. -/
def RowInv (m : Mgr) : Prop := AllInv m.rows ∧ RowModes m.rows

theorem heldMode_mem {q : Queue} {t : TxnId} {mode : Mode} (h : heldMode q t = some mode) :
    ∃ r ∈ q.reqs, r.granted = true ∧ r.txn = t ∧ r.mode = mode := by
  unfold heldMode at h
  cases hf : q.reqs.find? (fun r => r.granted && decide (r.txn = t)) with
  | none => rw [hf] at h; simp at h
  | some r =>
    rw [hf] at h
    simp at h
    have h1 := List.mem_of_find?_eq_some hf
    have h2 := List.find?_some hf
    simp only [Bool.and_eq_true, decide_eq_true_eq] at h2
    exact ⟨r, h1, h2.1, h2.2, h⟩

theorem releaseTable_rows {m m' : Mgr} {t : TxnId} {oid : Oid} (h : releaseTable m t oid = some (some m')) :
    m'.rows = m.rows := by
  unfold releaseTable at h
  split at h
  · simp at h
  · split at h
    · cases h
    · simp at h
    · simp at h; rw [← h]

theorem releaseRow_tables {m m' : Mgr} {t : TxnId} {rid : Rid} (h : releaseRow m t rid = some (some m')) :
    m'.tables = m.tables := by
  unfold releaseRow at h
  split at h
  · simp at h
  · split at h
    · cases h
    · simp at h
    · simp at h; rw [← h]

theorem rowInv_step {m m' : Mgr} {o : Op} {r : Res} (h : RowInv m) (hs : step m o = some (m', r)) :
    RowInv m' := by
  unfold RowInv at h ⊢
  cases o with
  | lockTable t mode oid =>
    simp only [step, Option.some.injEq] at hs
    have := (lockTable_eff m t mode oid).1
    rw [hs] at this
    rw [this]; exact h
  | unlockTable t mode oid =>
    simp only [step, unlockTable] at hs
    split at hs
    · cases hs; exact h
    · split at hs
      · cases hs; exact h
      · split at hs
        · cases hs
        · cases hs; exact h
        · next m1 hm1 =>
          cases hs
          simp only [removeEdge, (afterUnlock_frame m1 t mode).2.1, releaseTable_rows hm1]
          exact h
  | lockRow t mode oid rid =>
    simp only [step, Option.some.injEq] at hs
    have he := (lockRow_eff m t mode oid rid).2
    rw [hs] at he
    rcases he with ⟨h1, _⟩ | ⟨hm, h1, _⟩
    · simp only at h1; rw [h1]; exact h
    · simp only at h1
      rw [h1]
      have hq : ∀ r ∈ (queueOf m.rows rid).reqs, r.mode = .s ∨ r.mode = .x := by
        unfold queueOf
        cases hk : m.rows.get rid with
        | none => simp [Queue.new]
        | some q => exact h.2 rid q hk
      refine ⟨allInv_set h.1 _ (inv_grantLock (allInv_queueOf h.1 rid) t mode ?_), rowModes_set h.2 _ ?_⟩
      · rintro (⟨hh, _⟩ | ⟨hh, _⟩)
        · obtain ⟨r, hr, _, _, hmode⟩ := heldMode_mem hh
          rcases hq r hr with h' | h' <;> rw [h'] at hmode <;> cases hmode
        · obtain ⟨r, hr, _, _, hmode⟩ := heldMode_mem hh
          rcases hq r hr with h' | h' <;> rw [h'] at hmode <;> cases hmode
      · intro r hr
        rcases grantLock_mem hr with hr | ⟨_, hr⟩
        · exact hq r hr
        · rw [hr]; exact hm
  | unlockRow t mode oid rid =>
    simp only [step, unlockRow] at hs
    split at hs
    · cases hs; exact h
    · split at hs
      · cases hs
      · cases hs; exact h
      · next m1 hm1 =>
        cases hs
        simp only [removeEdge, (afterUnlock_frame m1 t mode).2.1]
        unfold releaseRow at hm1
        split at hm1
        · simp at hm1
        · next q hq =>
          split at hm1
          · cases hm1
          · simp at hm1
          · next q' hq' =>
            simp at hm1
            rw [← hm1]
            refine ⟨allInv_set h.1 _ (inv_release (h.1 rid q hq) hq'), rowModes_set h.2 _ ?_⟩
            intro r hr
            exact h.2 rid q hq r (release_mem (h.1 rid q hq) hq' hr)
  | unlockAll =>
    simp only [step, Option.some.injEq] at hs
    cases hs
    exact ⟨fun k q hk => by simp [unlockAll] at hk, fun k q hk => by simp [unlockAll] at hk⟩
  | forceRelease t =>
    simp only [step, forceRelease] at hs
    split at hs
    · cases hs; exact h
    · next ls hls =>
      split at hs
      · cases hs
      · next rows hrows =>
        split at hs
        · cases hs
        · cases hs
          refine ⟨allInv_purgeAll t _ h.1 hrows, ?_⟩
          intro k q' hk r hr
          obtain ⟨q, h1, h2⟩ := purgeAll_get t _ h.1 hrows k q' hk
          exact h.2 k q h1 r ((h2 r).1 hr).1
  | detect v => simp only [step, Option.some.injEq] at hs; cases hs; exact h
  | setState t st => simp only [step, Option.some.injEq] at hs; cases hs; exact h

theorem rowInv_run (os : List Op) : ∀ {m m' : Mgr} {rs : List Res}, RowInv m → run m os = some (m', rs) →
    RowInv m' := by
  induction os with
  | nil => intro m m' rs h hr; simp [run] at hr; rw [← hr.1]; exact h
  | cons o os ih =>
    intro m m' rs h hr
    unfold run at hr
    split at hr
    · cases hr
    · next m1 r1 h1 =>
      split at hr
      · cases hr
      · next m2 rs2 h2 =>
        cases hr
        exact ih (rowInv_step h h1) h2

theorem rowInv_new (ts : TxnId → TState) (iso : TxnId → Iso) : RowInv (Mgr.new ts iso) :=
  ⟨fun k q hk => by simp [Mgr.new] at hk, fun k q hk => by simp [Mgr.new] at hk⟩

/-- The table part: exclusion, and every granted request is recorded in its transaction's lock set. -/
structure TabInv (m : Mgr) : Prop where
  excl : AllInv m.tables
  trec : ∀ oid q r, m.tables.get oid = some q → r ∈ q.reqs → r.granted = true →
    oid ∈ (lockSet m r.txn).tables
  rrec : ∀ rid q r, m.rows.get rid = some q → r ∈ q.reqs → r.granted = true →
    (rid.1, rid) ∈ (lockSet m r.txn).rows

/-- The calls on which the theorems about table locks are conditional: no request for S by a holder of IS,
none for X by a holder of IX. -/
def CheckedUpgrades (m : Mgr) : Op → Prop
  | .lockTable t mode oid => ¬ UncheckedUpgrade (queueOf m.tables oid) t mode
  | _ => True

theorem mem_addTo {α : Type} [DecidableEq α] {x y : α} {l : List α} : y ∈ addTo x l ↔ y = x ∨ y ∈ l := by
  unfold addTo
  split
  · next h => exact ⟨Or.inr, fun hh => hh.elim (fun he => he ▸ h) id⟩
  · simp [or_comm]

theorem enqueue_granted {q : Queue} {t : TxnId} {mode : Mode} {r : Req} (h : r ∈ (enqueue q t mode).1.reqs)
    (hg : r.granted = true) : r ∈ q.reqs ∨ (r.txn = t ∧ (enqueue q t mode).2 = true) := by
  unfold enqueue at h ⊢
  split at h
  · simp only [List.mem_append, List.mem_singleton] at h
    rcases h with h | h
    · exact Or.inl h
    · subst h; exact Or.inr ⟨rfl, rfl⟩
  · simp only [List.mem_append, List.mem_singleton] at h
    rcases h with h | h
    · exact Or.inl h
    · subst h; cases hg

theorem grantLock_granted {q : Queue} {t : TxnId} {mode : Mode} {r : Req} (h : r ∈ (grantLock q t mode).1.reqs)
    (hg : r.granted = true) : r ∈ q.reqs ∨ (r.txn = t ∧ (grantLock q t mode).2 = true) := by
  revert h
  unfold grantLock
  split
  · intro h; exact enqueue_granted h hg
  · split
    · intro h; exact enqueue_granted h hg
    · split
      · intro h; exact Or.inl h
      · split
        · intro h; exact enqueue_granted h hg
        · intro h; exact enqueue_granted h hg
        · split
          · intro h; exact Or.inl h
          · intro h
            rcases enqueue_granted h hg with h | h
            · exact Or.inl (List.mem_of_mem_eraseIdx h)
            · exact Or.inr h

theorem queueOf_mem {K : Type} [DecidableEq K] {qs : AMap K Queue} {k : K} {r : Req}
    (h : r ∈ (queueOf qs k).reqs) : ∃ q, qs.get k = some q ∧ r ∈ q.reqs := by
  unfold queueOf at h
  cases hk : qs.get k with
  | none => rw [hk] at h; simp [Queue.new] at h
  | some q => rw [hk] at h; exact ⟨q, rfl, h⟩

theorem lockSet_set (m : Mgr) (t u : TxnId) (ls : LockSet) (m' : Mgr) (h : m'.sets = m.sets.set t ls) :
    lockSet m' u = if u = t then ls else lockSet m u := by
  unfold lockSet
  rw [h, AMap.get_set]
  by_cases hu : u = t
  · subst hu; simp
  · rw [if_neg (fun h => hu h.symm), if_neg hu]

theorem lockSet_congr {m m' : Mgr} (h : m'.sets = m.sets) (u : TxnId) : lockSet m' u = lockSet m u := by
  unfold lockSet; rw [h]

theorem release_own {q q' : Queue} {t : TxnId} (hi : Inv q) (h : release q t = .released q') {r : Req}
    (hr : r ∈ q'.reqs) (hg : r.granted = true) : r.txn ≠ t := by
  unfold release at h
  split at h
  · cases h
  · next i hidx =>
    split at h
    · cases h
    · next hgw =>
      cases h
      rw [grantWaiting_eq (inv_sublist hi (List.eraseIdx_sublist _ _)) _ _ _ hgw] at hr
      obtain ⟨a, r0, b, hq, hl, hg0, ht0, ha⟩ := findIdx_own hidx
      simp only at hr
      rw [hq, ← hl, eraseIdx_split] at hr
      exact own_erased hi hq ht0 hg0 ha r hr hg

theorem tabInv_step {m m' : Mgr} {o : Op} {r : Res} (h : TabInv m) (hrow : RowInv m) (hc : CheckedUpgrades m o)
    (hs : step m o = some (m', r)) : TabInv m' := by
  cases o with
  | lockTable t mode oid =>
    simp only [step, Option.some.injEq] at hs
    obtain ⟨e1, e2⟩ := lockTable_eff m t mode oid
    rw [hs] at e1 e2
    simp only at e1 e2
    rcases e2 with ⟨e2, e3⟩ | ⟨e2, e3⟩
    · constructor
      · rw [e2]; exact h.excl
      · rw [e2]; intro o q r; rw [lockSet_congr e3]; exact h.trec o q r
      · rw [e1]; intro o q r; rw [lockSet_congr e3]; exact h.rrec o q r
    · have hls : ∀ u, lockSet m' u = if (grantLock (queueOf m.tables oid) t mode).2 = true ∧ u = t then
          { lockSet m t with tables := addTo oid (lockSet m t).tables } else lockSet m u := by
        intro u
        cases hg : (grantLock (queueOf m.tables oid) t mode).2 with
        | true =>
          rw [hg] at e3
          rw [lockSet_set m t u _ m' e3]
          simp
        | false =>
          rw [hg] at e3
          rw [lockSet_congr e3]
          simp
      constructor
      · rw [e2]
        exact allInv_set h.excl _ (inv_grantLock (allInv_queueOf h.excl oid) t mode hc)
      · rw [e2]
        intro o q r hget hr hg
        rw [AMap.get_set] at hget
        rw [hls]
        split at hget
        · next he =>
          subst he
          cases hget
          rcases grantLock_granted hr hg with hr' | ⟨ht, hgr⟩
          · obtain ⟨q, hq, hr''⟩ := queueOf_mem hr'
            have := h.trec _ _ _ hq hr'' hg
            split
            · next hh => simp only [mem_addTo]; left; trivial
            · exact this
          · rw [if_pos ⟨hgr, ht⟩]; simp [mem_addTo]
        · have := h.trec _ _ _ hget hr hg
          split
          · next hh => rw [hh.2] at this; simp only [mem_addTo]; right; exact this
          · exact this
      · rw [e1]
        intro o q r hget hr hg
        have := h.rrec _ _ _ hget hr hg
        rw [hls]
        split
        · next hh => rw [hh.2] at this; exact this
        · exact this
  | lockRow t mode oid rid =>
    simp only [step, Option.some.injEq] at hs
    obtain ⟨e1, e2⟩ := lockRow_eff m t mode oid rid
    rw [hs] at e1 e2
    simp only at e1 e2
    rcases e2 with ⟨e2, e3⟩ | ⟨_, e2, e3⟩
    · constructor
      · rw [e1]; exact h.excl
      · rw [e1]; intro o q r; rw [lockSet_congr e3]; exact h.trec o q r
      · rw [e2]; intro o q r; rw [lockSet_congr e3]; exact h.rrec o q r
    · have hls : ∀ u, lockSet m' u = if (grantLock (queueOf m.rows rid) t mode).2 = true ∧ u = t then
          { lockSet m t with rows := addTo (rid.1, rid) (lockSet m t).rows } else lockSet m u := by
        intro u
        cases hg : (grantLock (queueOf m.rows rid) t mode).2 with
        | true =>
          rw [hg] at e3
          rw [lockSet_set m t u _ m' e3]
          simp
        | false =>
          rw [hg] at e3
          rw [lockSet_congr e3]
          simp
      constructor
      · rw [e1]; exact h.excl
      · rw [e1]
        intro o q r hget hr hg
        have := h.trec _ _ _ hget hr hg
        rw [hls]
        split
        · next hh => rw [hh.2] at this; exact this
        · exact this
      · rw [e2]
        intro o q r hget hr hg
        rw [AMap.get_set] at hget
        rw [hls]
        split at hget
        · next he =>
          subst he
          cases hget
          rcases grantLock_granted hr hg with hr' | ⟨ht, hgr⟩
          · obtain ⟨q, hq, hr''⟩ := queueOf_mem hr'
            have := h.rrec _ _ _ hq hr'' hg
            split
            · next hh => simp only [mem_addTo]; left; trivial
            · exact this
          · rw [if_pos ⟨hgr, ht⟩]; simp [mem_addTo]
        · have := h.rrec _ _ _ hget hr hg
          split
          · next hh => rw [hh.2] at this; simp only [mem_addTo]; right; exact this
          · exact this
  | unlockTable t mode oid =>
    simp only [step, unlockTable] at hs
    split at hs
    · cases hs; exact ⟨h.excl, h.trec, h.rrec⟩
    · split at hs
      · cases hs; exact ⟨h.excl, h.trec, h.rrec⟩
      · split at hs
        · cases hs
        · cases hs; exact h
        · next m1 hm1 =>
          cases hs
          obtain ⟨f1, f2, f3, _⟩ := afterUnlock_frame m1 t mode
          unfold releaseTable at hm1
          split at hm1
          · simp at hm1
          · next q hq =>
            split at hm1
            · cases hm1
            · simp at hm1
            · next q' hq' =>
              simp only [Option.some.injEq] at hm1
              have t1 : m1.tables = m.tables.set oid q' := by rw [← hm1]
              have t2 : m1.rows = m.rows := by rw [← hm1]
              have hls : ∀ u, (lockSet (removeEdge (afterUnlock m1 t mode) t) u).rows = (lockSet m u).rows ∧
                  ∀ o, (u ≠ t ∨ o ≠ oid) → o ∈ (lockSet m u).tables →
                    o ∈ (lockSet (removeEdge (afterUnlock m1 t mode) t) u).tables := by
                intro u
                have e1 : lockSet (removeEdge (afterUnlock m1 t mode) t) u = lockSet m1 u :=
                  lockSet_congr (by simp only [removeEdge]; exact f3) u
                rw [e1, ← hm1]
                cases hst : m.sets.get t with
                | none =>
                  unfold lockSet
                  exact ⟨rfl, fun o _ ho => ho⟩
                | some ls =>
                  unfold lockSet
                  simp only [AMap.get_set]
                  by_cases hu : u = t
                  · subst hu
                    simp only [if_true, Option.getD_some, hst]
                    refine ⟨trivial, fun o hne ho => ?_⟩
                    rcases hne with hne | hne
                    · exact absurd rfl hne
                    · simp [ho, hne]
                  · rw [if_neg (fun h => hu h.symm)]
                    exact ⟨rfl, fun o _ ho => ho⟩
              constructor
              · simp only [removeEdge, f1, t1]
                exact allInv_set h.excl _ (inv_release (h.excl _ _ hq) hq')
              · simp only [removeEdge, f1, t1]
                intro o q2 r hget hr hg
                rw [AMap.get_set] at hget
                split at hget
                · next he =>
                  subst he
                  cases hget
                  exact (hls r.txn).2 _ (Or.inl (release_own (h.excl _ _ hq) hq' hr hg))
                    (h.trec _ _ _ hq (release_mem (h.excl _ _ hq) hq' hr) hg)
                · next hne =>
                  exact (hls r.txn).2 _ (Or.inr (fun he => hne he.symm)) (h.trec _ _ _ hget hr hg)
              · simp only [removeEdge, f2, t2]
                intro o q2 r hget hr hg
                have := h.rrec _ _ _ hget hr hg
                rw [← (hls r.txn).1] at this
                exact this
  | unlockRow t mode oid rid =>
    simp only [step, unlockRow] at hs
    split at hs
    · cases hs; exact ⟨h.excl, h.trec, h.rrec⟩
    · split at hs
      · cases hs
      · cases hs; exact h
      · next m1 hm1 =>
        cases hs
        obtain ⟨f1, f2, f3, _⟩ := afterUnlock_frame m1 t mode
        unfold releaseRow at hm1
        split at hm1
        · simp at hm1
        · next q hq =>
          split at hm1
          · cases hm1
          · simp at hm1
          · next q' hq' =>
            simp only [Option.some.injEq] at hm1
            have t1 : m1.rows = m.rows.set rid q' := by rw [← hm1]
            have t2 : m1.tables = m.tables := by rw [← hm1]
            have hls : ∀ u, (lockSet (removeEdge (afterUnlock m1 t mode) t) u).tables = (lockSet m u).tables ∧
                ∀ o, (u ≠ t ∨ o ≠ (rid.1, rid)) → o ∈ (lockSet m u).rows →
                  o ∈ (lockSet (removeEdge (afterUnlock m1 t mode) t) u).rows := by
              intro u
              have e1 : lockSet (removeEdge (afterUnlock m1 t mode) t) u = lockSet m1 u :=
                lockSet_congr (by simp only [removeEdge]; exact f3) u
              rw [e1, ← hm1]
              cases hst : m.sets.get t with
              | none =>
                unfold lockSet
                exact ⟨rfl, fun o _ ho => ho⟩
              | some ls =>
                unfold lockSet
                simp only [AMap.get_set]
                by_cases hu : u = t
                · subst hu
                  simp only [if_true, Option.getD_some, hst]
                  refine ⟨trivial, fun o hne ho => ?_⟩
                  rcases hne with hne | hne
                  · exact absurd rfl hne
                  · rw [List.mem_filter]; exact ⟨ho, by simpa using hne⟩
                · rw [if_neg (fun h => hu h.symm)]
                  exact ⟨rfl, fun o _ ho => ho⟩
            constructor
            · simp only [removeEdge, f1, t2]; exact h.excl
            · simp only [removeEdge, f1, t2]
              intro o q2 r hget hr hg
              have := h.trec _ _ _ hget hr hg
              rw [← (hls r.txn).1] at this
              exact this
            · simp only [removeEdge, f2, t1]
              intro o q2 r hget hr hg
              rw [AMap.get_set] at hget
              split at hget
              · next he =>
                subst he
                cases hget
                exact (hls r.txn).2 _ (Or.inl (release_own (hrow.1 _ _ hq) hq' hr hg))
                  (h.rrec _ _ _ hq (release_mem (hrow.1 _ _ hq) hq' hr) hg)
              · next hne =>
                exact (hls r.txn).2 _ (Or.inr (fun he => hne (congrArg Prod.snd he).symm)) (h.rrec _ _ _ hget hr hg)
  | unlockAll =>
    simp only [step, Option.some.injEq] at hs
    cases hs
    exact ⟨fun k q hk => by simp [unlockAll] at hk, fun k q r hk => by simp [unlockAll] at hk,
      fun k q r hk => by simp [unlockAll] at hk⟩
  | forceRelease t =>
    simp only [step, forceRelease] at hs
    split at hs
    · cases hs; exact ⟨h.excl, h.trec, h.rrec⟩
    · next ls hls =>
      split at hs
      · cases hs
      · next rows hrows =>
        split at hs
        · cases hs
        · next tables htables =>
          cases hs
          have hlst : lockSet m t = ls := by
            unfold lockSet; simp only [removeEdge] at hls; rw [hls]; rfl
          have hlsu : ∀ u, u ≠ t → ∀ m2 : Mgr, m2.sets = m.sets.erase t → lockSet m2 u = lockSet m u := by
            intro u hu m2 hm2
            unfold lockSet
            rw [hm2, AMap.get_erase, if_neg (fun h => hu h.symm)]
          constructor
          · exact allInv_purgeAll t _ h.excl htables
          · intro o q' r hk hr hg
            obtain ⟨q, h1, h2⟩ := purgeAll_get t _ h.excl htables o q' hk
            obtain ⟨h3, h4⟩ := (h2 r).1 hr
            have h5 := h.trec o q r h1 h3 hg
            have hne : r.txn ≠ t := by
              intro he
              rw [he, hlst] at h5
              exact h4 h5 he
            rw [hlsu r.txn hne _ rfl]; exact h5
          · intro o q' r hk hr hg
            obtain ⟨q, h1, h2⟩ := purgeAll_get t _ hrow.1 hrows o q' hk
            obtain ⟨h3, h4⟩ := (h2 r).1 hr
            have h5 := h.rrec o q r h1 h3 hg
            have hne : r.txn ≠ t := by
              intro he
              rw [he, hlst] at h5
              exact h4 (List.mem_map.2 ⟨_, h5, rfl⟩) he
            rw [hlsu r.txn hne _ rfl]; exact h5
  | detect v => simp only [step, Option.some.injEq] at hs; cases hs; exact ⟨h.excl, h.trec, h.rrec⟩
  | setState t st => simp only [step, Option.some.injEq] at hs; cases hs; exact ⟨h.excl, h.trec, h.rrec⟩

/-- Every call of the run is one of `CheckedUpgrades`. -/
def AllChecked : Mgr → List Op → Prop
  | _, [] => True
  | m, o :: os => CheckedUpgrades m o ∧ ∀ m' r, step m o = some (m', r) → AllChecked m' os

theorem tabInv_run (os : List Op) : ∀ {m m' : Mgr} {rs : List Res}, TabInv m → RowInv m → AllChecked m os →
    run m os = some (m', rs) → TabInv m' := by
  induction os with
  | nil => intro m m' rs h _ _ hr; simp [run] at hr; rw [← hr.1]; exact h
  | cons o os ih =>
    intro m m' rs h hrow hc hr
    unfold run at hr
    split at hr
    · cases hr
    · next m1 r1 h1 =>
      split at hr
      · cases hr
      · next m2 rs2 h2 =>
        cases hr
        exact ih (tabInv_step h hrow hc.1 h1) (rowInv_step hrow h1) (hc.2 _ _ h1) h2

theorem tabInv_new (ts : TxnId → TState) (iso : TxnId → Iso) : TabInv (Mgr.new ts iso) :=
  ⟨fun k q hk => by simp [Mgr.new] at hk, fun k q r hk => by simp [Mgr.new] at hk,
   fun k q r hk => by simp [Mgr.new] at hk⟩

end Verif.Locks

import Verif.Locks.Manager

/-!
# Lock manager: properties C11, C12, C49-C52
-/

namespace Verif.Locks

/-! ## C12: row locks -/

/-- C12. In every state reached by any sequence of calls, two different transactions that hold locks on the
same row both hold shared locks. -/
theorem C12_row_locks_exclude (ts : TxnId → TState) (iso : TxnId → Iso) (os : List Op) (m : Mgr)
    (rs : List Res) (h : run (Mgr.new ts iso) os = some (m, rs)) (rid : Rid) (t u : TxnId) (a b : Mode)
    (ht : HoldsRow m t a rid) (hu : HoldsRow m u b rid) (hne : t ≠ u) : a = .s ∧ b = .s := by
  obtain ⟨h1, h2⟩ := rowInv_run os (rowInv_new ts iso) h
  obtain ⟨q, hq, hr⟩ := ht
  obtain ⟨q', hq', hr'⟩ := hu
  rw [hq] at hq'; cases hq'
  have hc := inv_excl (h1 rid q hq) hr hr' rfl rfl hne
  have ha := h2 rid q hq _ hr
  have hb := h2 rid q hq _ hr'
  simp only at hc ha hb
  rcases ha with rfl | rfl <;> rcases hb with rfl | rfl <;> simp_all [areCompatible]

/-- Transactions all running under repeatable read. -/
def rr : Mgr := Mgr.new (fun _ => .growing) (fun _ => .repeatableRead)

/-- Two transactions share a row lock; a third one asking for X on it is refused. -/
example : (run rr [.lockTable 1 .is 7, .lockTable 2 .is 7, .lockTable 3 .ix 7, .lockRow 1 .s 7 (0, 0),
    .lockRow 2 .s 7 (0, 0), .lockRow 3 .x 7 (0, 0)]).map (·.2) =
    some [.ok true, .ok true, .ok true, .ok true, .ok true, .ok false] := by decide

/-! ## C11: table locks -/

/-- C11, when no transaction holding IS asks for S on the same table and none holding IX asks for X: two
different transactions never hold conflicting locks on the same table. Missing: the two upgrades, for which
the claim is false (`C11_is_to_s_fails`, `C11_ix_to_x_fails`). -/
theorem C11_table_locks_exclude_partial (ts : TxnId → TState) (iso : TxnId → Iso) (os : List Op) (m : Mgr)
    (rs : List Res) (h : run (Mgr.new ts iso) os = some (m, rs)) (hc : AllChecked (Mgr.new ts iso) os)
    (oid : Oid) (t u : TxnId) (a b : Mode) (ht : HoldsTable m t a oid) (hu : HoldsTable m u b oid)
    (hne : t ≠ u) : ¬ Conflict a b := by
  have hi := tabInv_run os (tabInv_new ts iso) (rowInv_new ts iso) hc h
  obtain ⟨q, hq, hr⟩ := ht
  obtain ⟨q', hq', hr'⟩ := hu
  rw [hq] at hq'; cases hq'
  rw [← C10_compatible_iff_no_conflict]
  exact inv_excl (hi.excl oid q hq) hr hr' rfl rfl hne

/-- A run with an upgrade that the theorem covers: S to X by the only holder. -/
example : AllChecked rr [.lockTable 1 .s 7, .lockTable 1 .x 7, .lockTable 2 .is 7] ∧
    (run rr [.lockTable 1 .s 7, .lockTable 1 .x 7, .lockTable 2 .is 7]).map (·.2) =
      some [.ok true, .ok true, .ok false] := by
  refine ⟨⟨by unfold CheckedUpgrades UncheckedUpgrade; decide, fun m r h => ?_⟩, by decide⟩
  simp only [step, Option.some.injEq] at h
  cases h
  refine ⟨by unfold CheckedUpgrades UncheckedUpgrade; decide, fun m r h => ?_⟩
  simp only [step, Option.some.injEq] at h
  cases h
  exact ⟨by unfold CheckedUpgrades UncheckedUpgrade; decide, fun _ _ _ => trivial⟩

/-- C11 is false of the code: after IS by 1, IX by 2 and S by 1, transaction 1 holds S while 2 holds IX. -/
theorem C11_is_to_s_fails : ∃ m rs, run rr [.lockTable 1 .is 7, .lockTable 2 .ix 7, .lockTable 1 .s 7] = some (m, rs) ∧
    HoldsTable m 1 .s 7 ∧ HoldsTable m 2 .ix 7 ∧ Conflict .s .ix := by
  refine ⟨_, _, rfl, ⟨_, rfl, by decide⟩, ⟨_, rfl, by decide⟩, ?_⟩
  exact ⟨.read, .write, trivial, Or.inl ⟨trivial, trivial⟩⟩

/-- C11 is false of the code: after IX by 1, IX by 2 and X by 1, transaction 1 holds X while 2 holds IX. -/
theorem C11_ix_to_x_fails : ∃ m rs, run rr [.lockTable 1 .ix 7, .lockTable 2 .ix 7, .lockTable 1 .x 7] = some (m, rs) ∧
    HoldsTable m 1 .x 7 ∧ HoldsTable m 2 .ix 7 ∧ Conflict .x .ix := by
  refine ⟨_, _, rfl, ⟨_, rfl, by decide⟩, ⟨_, rfl, by decide⟩, ?_⟩
  exact ⟨.read, .write, trivial, Or.inl ⟨trivial, trivial⟩⟩

/-! ## C49: releasing a lock -/

theorem grantWaiting_allGranted (n : Nat) : ∀ (q : Queue) (i : Nat), (∀ r ∈ q.reqs, r.granted = true) →
    grantWaiting q i n = some q := by
  induction n with
  | zero => intro q i _; rfl
  | succ n ih =>
    intro q i h
    unfold grantWaiting
    split
    · rfl
    · next r hr =>
      rw [if_pos (h r (List.mem_of_getElem? hr))]
      exact ih q (i + 1) h

/-- C49, when nobody waits for the table: a transaction that holds a lock on a table can release it. The call
returns, the lock is gone, and every other request is as before. Missing: waiting requests, for which the
claim is false (`C49_release_with_waiter_fails`). -/
theorem C49_release_returns_partial (ts : TxnId → TState) (iso : TxnId → Iso) (os : List Op) (m : Mgr)
    (rs : List Res) (h : run (Mgr.new ts iso) os = some (m, rs)) (hc : AllChecked (Mgr.new ts iso) os)
    (t : TxnId) (a mode : Mode) (oid : Oid) (ht : HoldsTable m t a oid) (hrows : rowLocksForTable m t oid = [])
    (q : Queue) (hq : m.tables.get oid = some q) (hg : ∀ r ∈ q.reqs, r.granted = true) :
    ∃ m' q', unlockTable m t mode oid = some (m', .ok true) ∧ m'.tables.get oid = some q' ∧
      ∀ r, r ∈ q'.reqs ↔ r ∈ q.reqs ∧ r.txn ≠ t := by
  have hti := tabInv_run os (tabInv_new ts iso) (rowInv_new ts iso) hc h
  have hi := hti.excl oid q hq
  obtain ⟨q0, hq0, hr0⟩ := ht
  rw [hq] at hq0; cases hq0
  have hs := hti.trec oid q _ hq hr0 rfl
  simp only at hs
  unfold unlockTable releaseTable
  rw [if_neg (by simpa using hs), if_neg (by simpa using hrows), hq]
  simp only
  unfold release
  cases hidx : q.reqs.findIdx? (fun r => r.granted && decide (r.txn = t)) with
  | none =>
    have := List.findIdx?_eq_none_iff.1 hidx _ hr0
    simp at this
  | some i =>
    simp only
    rw [grantWaiting_allGranted _ _ _ (fun r hr => hg r (List.mem_of_mem_eraseIdx hr))]
    simp only
    refine ⟨_, { q with reqs := q.reqs.eraseIdx i }, rfl, ?_, ?_⟩
    · simp only [removeEdge, (afterUnlock_frame _ t mode).1, AMap.get_set_self]
    · intro r
      obtain ⟨a, r1, b, hq1, hl, hg1, ht1, ha⟩ := findIdx_own hidx
      have hown := own_erased hi hq1 ht1 hg1 ha
      have he : q.reqs.eraseIdx i = a ++ b := by rw [hq1, ← hl, eraseIdx_split]
      simp only
      rw [he]
      constructor
      · intro hr
        have : r ∈ q.reqs := by rw [hq1]; simp only [List.mem_append, List.mem_cons] at hr ⊢; rcases hr with h | h <;> simp [h]
        exact ⟨this, hown r hr (hg r this)⟩
      · rintro ⟨hr, hne⟩
        rw [hq1] at hr
        simp only [List.mem_append, List.mem_cons] at hr ⊢
        rcases hr with h | h | h
        · exact Or.inl h
        · subst h; exact absurd ht1 hne
        · exact Or.inr h

/-- The hypotheses are met after two transactions have taken S. -/
example : ∃ m rs q, run rr [.lockTable 1 .s 7, .lockTable 2 .s 7] = some (m, rs) ∧ HoldsTable m 1 .s 7 ∧
    rowLocksForTable m 1 7 = [] ∧ m.tables.get 7 = some q ∧ ∀ r ∈ q.reqs, r.granted = true := by
  refine ⟨_, _, _, rfl, ⟨_, rfl, by decide⟩, ?_, rfl, ?_⟩ <;> decide

/-- C49 is false of the code: 1 holds X, 2 waits for X; the release by 1 blocks forever. -/
theorem C49_release_with_waiter_fails : ∃ m rs, run rr [.lockTable 1 .x 7, .lockTable 2 .x 7] = some (m, rs) ∧
    HoldsTable m 1 .x 7 ∧ unlockTable m 1 .x 7 = none ∧ forceRelease m 1 = none := by
  refine ⟨_, _, rfl, ⟨_, rfl, by decide⟩, ?_, ?_⟩
  · rfl
  · rfl

/-- C49 is false of the code in a second way: 1 and 2 hold S, 1 asks for X and has to wait; that loses its S
lock and leaves the table marked as being upgraded. After 1's locks are force-released nothing but 2's
lock is granted, yet 3 can no longer get S. -/
theorem C49_failed_upgrade_blocks_table_fails :
    ∃ m rs, run rr [.lockTable 1 .s 7, .lockTable 2 .s 7, .lockTable 1 .x 7, .forceRelease 1, .lockTable 3 .s 7] =
      some (m, rs) ∧ rs = [.ok true, .ok true, .ok false, .unit, .ok false] ∧
    m.tables.get 7 = some { reqs := [{ txn := 2, mode := .s, granted := true }, { txn := 3, mode := .s, granted := false }],
                            upgrading := some 1 } := by
  refine ⟨_, _, rfl, ?_, ?_⟩ <;> decide

/-! ## C50: force release -/

/-- C50, under the condition of C11: after `force_release_txn` returns, the transaction holds no table lock and
no row lock. Missing: requests still waiting, which stay in their queues (`C50_waiting_request_stays_fails`). -/
theorem C50_force_release_drops_locks_partial (ts : TxnId → TState) (iso : TxnId → Iso) (os : List Op) (m m' : Mgr)
    (rs : List Res) (h : run (Mgr.new ts iso) os = some (m, rs)) (hc : AllChecked (Mgr.new ts iso) os)
    (t : TxnId) (r : Res) (hf : forceRelease m t = some (m', r)) :
    (∀ a oid, ¬ HoldsTable m' t a oid) ∧ (∀ a rid, ¬ HoldsRow m' t a rid) := by
  have hi := tabInv_run os (tabInv_new ts iso) (rowInv_new ts iso) hc h
  have hrow := rowInv_run os (rowInv_new ts iso) h
  have hi' : TabInv m' := tabInv_step (o := .forceRelease t) hi hrow trivial hf
  have hempty : lockSet m' t = { tables := [], rows := [] } := by
    simp only [forceRelease] at hf
    split at hf
    · next hn => cases hf; unfold lockSet; simp only [removeEdge] at hn ⊢; rw [hn]; rfl
    · split at hf
      · cases hf
      · split at hf
        · cases hf
        · cases hf; unfold lockSet; simp [removeEdge]
  constructor
  · rintro a oid ⟨q, hq, hr⟩
    have := hi'.trec oid q _ hq hr rfl
    rw [hempty] at this; cases this
  · rintro a rid ⟨q, hq, hr⟩
    have := hi'.rrec rid q _ hq hr rfl
    rw [hempty] at this; cases this

/-- The call returns on a transaction holding a table and a row lock. -/
example : ((run rr [.lockTable 1 .ix 7, .lockRow 1 .x 7 (0, 3), .lockTable 2 .ix 7, .forceRelease 1]).map
    (fun p => (p.1.tables.get 7, p.1.rows.get (0, 3)))) =
    some (some { reqs := [{ txn := 2, mode := .ix, granted := true }], upgrading := none },
          some { reqs := [], upgrading := none }) := by decide

/-- C50 is false of the code for waiting requests: 2's refused request survives its own force release. -/
theorem C50_waiting_request_stays_fails :
    ∃ m rs, run rr [.lockTable 1 .x 7, .lockTable 2 .x 7, .forceRelease 2] = some (m, rs) ∧ HasRequest m 2 := by
  refine ⟨_, _, rfl, Or.inl ⟨7, _, { txn := 2, mode := .x, granted := false }, rfl, ?_, rfl⟩⟩
  decide

/-! ## C51: row locks and table locks -/

/-- Table modes that allow taking a row lock of the given mode. -/
def Permits (table row : Mode) : Prop :=
  (row = .s ∧ (table = .s ∨ table = .is ∨ table = .six)) ∨ (row = .x ∧ (table = .x ∨ table = .ix ∨ table = .six))

/-- C51, the grant: a row lock is only granted to a transaction holding, at that moment, a table lock that permits
it. Missing: that the table lock is still held as long as the row lock is (`C51_table_unlocked_first_fails`). -/
theorem C51_row_lock_needs_table_lock_partial (m m' : Mgr) (t : TxnId) (mode : Mode) (oid : Oid) (rid : Rid)
    (h : lockRow m t mode oid rid = (m', .ok true)) : ∃ tm, HoldsTable m t tm oid ∧ Permits tm mode := by
  unfold lockRow at h
  have hv := validate_frame m t mode
  rcases hvv : validate m t mode with ⟨m1, e⟩
  rw [hvv] at hv h
  cases e with
  | some e => simp at h
  | none =>
    simp only at h hv
    split at h
    · simp at h
    · next hi =>
      split at h
      · simp at h
      · next hh =>
        clear h
        simp only [Bool.not_eq_false] at hh
        unfold hasTableLockFor at hh
        rw [hv.1] at hh
        split at hh
        · cases hh
        · next q hq =>
          rw [List.any_eq_true] at hh
          obtain ⟨r, hr, hb⟩ := hh
          obtain ⟨rt, rm, rg⟩ := r
          simp only [Bool.and_eq_true, decide_eq_true_eq] at hb
          obtain ⟨⟨h1, h2⟩, h3⟩ := hb
          subst h1; subst h2
          refine ⟨rm, ⟨q, hq, hr⟩, ?_⟩
          unfold Permits
          cases mode <;> simp_all [or_assoc]

/-- C51, the release, for tables whose oid is the page number of the locked row: the table cannot be unlocked
before the row. -/
theorem C51_table_unlock_refused_partial (ts : TxnId → TState) (iso : TxnId → Iso) (os : List Op) (m : Mgr)
    (rs : List Res) (h : run (Mgr.new ts iso) os = some (m, rs)) (hc : AllChecked (Mgr.new ts iso) os)
    (t : TxnId) (a b tm : Mode) (rid : Rid) (ht : HoldsTable m t tm rid.1) (hr : HoldsRow m t a rid) :
    ∃ m', unlockTable m t b rid.1 = some (m', .err .tableUnlockedBeforeRows) ∧ HoldsTable m' t tm rid.1 := by
  have hi := tabInv_run os (tabInv_new ts iso) (rowInv_new ts iso) hc h
  obtain ⟨q, hq, hin⟩ := hr
  obtain ⟨q2, hq2, hin2⟩ := ht
  have h1 := hi.rrec rid q _ hq hin rfl
  have h2 := hi.trec rid.1 q2 _ hq2 hin2 rfl
  simp only at h1 h2
  unfold unlockTable
  rw [if_neg (by simpa using h2), if_pos]
  · exact ⟨_, rfl, q2, hq2, hin2⟩
  · unfold rowLocksForTable
    intro he
    have hm : (rid.1, rid) ∈ (lockSet m t).rows.filter (fun e => e.1 = rid.1) := by
      rw [List.mem_filter]; exact ⟨h1, by simp⟩
    have : rid ∈ ((lockSet m t).rows.filter (fun e => e.1 = rid.1)).map (·.2) := List.mem_map.2 ⟨_, hm, rfl⟩
    rw [he] at this; cases this

/-- A run reaching such a state: the row is on page 7 of table 7. -/
example : ∃ m rs, run rr [.lockTable 1 .ix 7, .lockRow 1 .x 7 (7, 3)] = some (m, rs) ∧ HoldsTable m 1 .ix 7 ∧
    HoldsRow m 1 .x (7, 3) := by
  refine ⟨_, _, rfl, ⟨_, rfl, by decide⟩, ⟨_, rfl, by decide⟩⟩

/-- C51 is false of the code: the row of table 7 is on page 0; the table lock is released while the row lock is
held, because the check compares the page number with the table's oid. -/
theorem C51_table_unlocked_first_fails :
    ∃ m rs, run rr [.lockTable 1 .ix 7, .lockRow 1 .x 7 (0, 3), .unlockTable 1 .ix 7] = some (m, rs) ∧
    rs = [.ok true, .ok true, .ok true] ∧ HoldsRow m 1 .x (0, 3) ∧ ∀ a, ¬ HoldsTable m 1 a 7 := by
  refine ⟨_, _, rfl, rfl, ⟨_, rfl, by decide⟩, ?_⟩
  rintro a ⟨q, hq, hr⟩
  cases hq
  cases hr

/-- C51 is false of the code: for the same reason the row itself cannot be unlocked; the attempt aborts the
transaction. -/
theorem C51_row_unlock_fails :
    ∃ m rs, run rr [.lockTable 1 .ix 7, .lockRow 1 .x 7 (0, 3), .unlockRow 1 .x 7 (0, 3)] = some (m, rs) ∧
    rs = [.ok true, .ok true, .err .noLockHeld] ∧ HoldsRow m 1 .x (0, 3) ∧ m.tstate 1 = .aborted := by
  refine ⟨_, _, rfl, rfl, ⟨_, rfl, by decide⟩, rfl⟩

/-! ## C52: two-phase locking -/

/-- The state of a transaction after one call not setting it from outside: shrinking transactions stay
shrinking or get aborted; nobody's isolation level changes. -/
theorem shrinking_step {m m' : Mgr} {o : Op} {r : Res} {t : TxnId}
    (hst : m.tstate t = .shrinking ∨ m.tstate t = .aborted) (ho : ∀ st, o ≠ .setState t st)
    (hs : step m o = some (m', r)) :
    (m'.tstate t = .shrinking ∨ m'.tstate t = .aborted) ∧ m'.iso = m.iso := by
  have hset : ∀ (m : Mgr) u st, (m.tstate t = .shrinking ∨ m.tstate t = .aborted) →
      (st = .shrinking ∨ st = .aborted) →
      ((setState m u st).tstate t = .shrinking ∨ (setState m u st).tstate t = .aborted) := by
    intro m u st h1 h2
    simp only [setState]
    split
    · exact h2
    · exact h1
  have hval : ∀ u mode, ((validate m u mode).1.tstate t = .shrinking ∨ (validate m u mode).1.tstate t = .aborted) := by
    intro u mode
    unfold validate
    repeat' split
    all_goals first | exact hst | exact hset m u _ hst (Or.inl rfl)
  have hedge : ∀ (q : Queue) u (m : Mgr), (addEdges m u q).tstate = m.tstate := by
    intro q u
    unfold addEdges
    generalize q.reqs = l
    induction l with
    | nil => intro m; rfl
    | cons r rs ih => intro m; simp only [List.foldl_cons]; rw [ih]; split <;> rfl
  have hdead : ∀ (m : Mgr) u, (m.tstate t = .shrinking ∨ m.tstate t = .aborted) →
      ((checkDeadlock m u).tstate t = .shrinking ∨ (checkDeadlock m u).tstate t = .aborted) := by
    intro m u h
    unfold checkDeadlock
    split
    · exact hset { m with latestAbort := none } u _ h (Or.inr rfl)
    · exact h
  have haft : ∀ (m : Mgr) u mode, (m.tstate t = .shrinking ∨ m.tstate t = .aborted) →
      ((afterUnlock m u mode).tstate t = .shrinking ∨ (afterUnlock m u mode).tstate t = .aborted) := by
    intro m u mode h
    unfold afterUnlock
    repeat' split
    all_goals first | exact h | exact hset m u _ h (Or.inl rfl)
  cases o with
  | lockTable u mode oid =>
    simp only [step, Option.some.injEq, lockTable] at hs
    have hv := hval u mode
    have hf := (validate_frame m u mode).2.2.2
    rcases hvv : validate m u mode with ⟨m1, e⟩
    rw [hvv] at hv hs hf
    simp only at hv hf
    cases e with
    | some e => cases hs; exact ⟨hv, hf⟩
    | none =>
      simp only at hs
      split at hs
      · cases hs; exact ⟨hv, hf⟩
      · cases hs
        refine ⟨hdead _ u ?_, ?_⟩
        · rw [hedge]; exact hv
        · rw [(checkDeadlock_frame _ u).2.2.2, (addEdges_frame u _ _).2.2.2]; exact hf
  | lockRow u mode oid rid =>
    simp only [step, Option.some.injEq, lockRow] at hs
    have hv := hval u mode
    have hf := (validate_frame m u mode).2.2.2
    rcases hvv : validate m u mode with ⟨m1, e⟩
    rw [hvv] at hv hs hf
    simp only at hv hf
    cases e with
    | some e => cases hs; exact ⟨hv, hf⟩
    | none =>
      simp only at hs
      split at hs
      · cases hs; exact ⟨hset _ u _ hv (Or.inr rfl), hf⟩
      · split at hs
        · cases hs; exact ⟨hset _ u _ hv (Or.inr rfl), hf⟩
        · split at hs
          · cases hs; exact ⟨hv, hf⟩
          · cases hs
            refine ⟨hdead _ u ?_, ?_⟩
            · rw [hedge]; exact hv
            · rw [(checkDeadlock_frame _ u).2.2.2, (addEdges_frame u _ _).2.2.2]; exact hf
  | unlockTable u mode oid =>
    simp only [step, unlockTable] at hs
    split at hs
    · cases hs; exact ⟨hset _ u _ hst (Or.inr rfl), rfl⟩
    · split at hs
      · cases hs; exact ⟨hset _ u _ hst (Or.inr rfl), rfl⟩
      · split at hs
        · cases hs
        · cases hs; exact ⟨hst, rfl⟩
        · next m1 hm1 =>
          cases hs
          have : m1.tstate = m.tstate ∧ m1.iso = m.iso := by
            unfold releaseTable at hm1
            split at hm1
            · simp at hm1
            · split at hm1
              · cases hm1
              · simp at hm1
              · simp only [Option.some.injEq] at hm1; rw [← hm1]; exact ⟨rfl, rfl⟩
          refine ⟨haft m1 u mode (by rw [this.1]; exact hst), ?_⟩
          simp only [removeEdge, (afterUnlock_frame m1 u mode).2.2.2, this.2]
  | unlockRow u mode oid rid =>
    simp only [step, unlockRow] at hs
    split at hs
    · cases hs; exact ⟨hset _ u _ hst (Or.inr rfl), rfl⟩
    · split at hs
      · cases hs
      · cases hs; exact ⟨hst, rfl⟩
      · next m1 hm1 =>
        cases hs
        have : m1.tstate = m.tstate ∧ m1.iso = m.iso := by
          unfold releaseRow at hm1
          split at hm1
          · simp at hm1
          · split at hm1
            · cases hm1
            · simp at hm1
            · simp only [Option.some.injEq] at hm1; rw [← hm1]; exact ⟨rfl, rfl⟩
        refine ⟨haft m1 u mode (by rw [this.1]; exact hst), ?_⟩
        simp only [removeEdge, (afterUnlock_frame m1 u mode).2.2.2, this.2]
  | unlockAll => simp only [step, Option.some.injEq] at hs; cases hs; exact ⟨hst, rfl⟩
  | forceRelease u =>
    simp only [step, forceRelease] at hs
    split at hs
    · cases hs; exact ⟨hst, rfl⟩
    · split at hs
      · cases hs
      · split at hs
        · cases hs
        · cases hs; exact ⟨hst, rfl⟩
  | detect v => simp only [step, Option.some.injEq] at hs; cases hs; exact ⟨hst, rfl⟩
  | setState u st =>
    simp only [step, Option.some.injEq] at hs; cases hs
    have hu : u ≠ t := by rintro rfl; exact ho st rfl
    refine ⟨?_, rfl⟩
    simp only [setState]
    rw [if_neg (Ne.symm hu)]; exact hst

theorem shrinking_run {t : TxnId} (os : List Op) : ∀ {m m' : Mgr} {rs : List Res},
    (m.tstate t = .shrinking ∨ m.tstate t = .aborted) → (∀ st, Op.setState t st ∉ os) →
    run m os = some (m', rs) → (m'.tstate t = .shrinking ∨ m'.tstate t = .aborted) ∧ m'.iso = m.iso := by
  induction os with
  | nil => intro m m' rs h _ hr; simp [run] at hr; rw [← hr.1]; exact ⟨h, rfl⟩
  | cons o os ih =>
    intro m m' rs h hn hr
    unfold run at hr
    split at hr
    · cases hr
    · next m1 r1 h1 =>
      split at hr
      · cases hr
      · next m2 rs2 h2 =>
        cases hr
        obtain ⟨g1, g2⟩ := shrinking_step h (fun st he => hn st (by simp [he])) h1
        obtain ⟨g3, g4⟩ := ih g1 (fun st he => hn st (by simp [he])) h2
        exact ⟨g3, g4.trans g2⟩

theorem unlock_shrinks {m m' : Mgr} {t : TxnId} {mode : Mode} {oid : Oid}
    (hm : mode = .x ∨ (mode = .s ∧ m.iso t = .repeatableRead))
    (h : unlockTable m t mode oid = some (m', .ok true)) :
    m'.tstate t = .shrinking ∧ m'.iso = m.iso := by
  unfold unlockTable at h
  split at h
  · simp at h
  · split at h
    · simp at h
    · split at h
      · cases h
      · simp at h
      · next m1 hm1 =>
        cases h
        have : m1.tstate = m.tstate ∧ m1.iso = m.iso := by
          unfold releaseTable at hm1
          split at hm1
          · simp at hm1
          · split at hm1
            · cases hm1
            · simp at hm1
            · simp only [Option.some.injEq] at hm1; rw [← hm1]; exact ⟨rfl, rfl⟩
        refine ⟨?_, by simp only [removeEdge, (afterUnlock_frame m1 t mode).2.2.2, this.2]⟩
        simp only [removeEdge]
        unfold afterUnlock
        rw [this.2]
        rcases hm with rfl | ⟨rfl, hi⟩
        · cases m.iso t <;> simp [setState]
        · rw [hi]; simp [setState]

/-- C52 under repeatable read: once a transaction has released a table lock in mode S or X, whatever happens
next (other than the rest of the system resetting its state), it is granted no table lock and no row
lock. Missing: the serializable and snapshot levels, where the claim is false
(`C52_serializable_relocks_fails`). -/
theorem C52_two_phase_repeatable_read_partial (m m1 m2 : Mgr) (t : TxnId) (mode : Mode) (oid : Oid) (os : List Op)
    (rs : List Res) (hiso : m.iso t = .repeatableRead) (hmode : mode = .s ∨ mode = .x)
    (hu : unlockTable m t mode oid = some (m1, .ok true)) (hr : run m1 os = some (m2, rs))
    (hn : ∀ st, Op.setState t st ∉ os) :
    (∀ mode' oid', (lockTable m2 t mode' oid').2 ≠ .ok true) ∧
    (∀ mode' oid' rid, (lockRow m2 t mode' oid' rid).2 ≠ .ok true) := by
  obtain ⟨h1, h2⟩ := unlock_shrinks (by rcases hmode with h | h <;> simp [h, hiso]) hu
  obtain ⟨h3, h4⟩ := shrinking_run os (Or.inl h1) hn hr
  have hi : m2.iso t = .repeatableRead := by rw [h4, h2]; exact hiso
  have hv : ∀ mode', ∃ e, validate m2 t mode' = (m2, some e) := by
    intro mode'
    unfold validate
    rw [hi]
    rcases h3 with h3 | h3 <;> rw [h3] <;> exact ⟨_, rfl⟩
  constructor
  · intro mode' oid'
    obtain ⟨e, he⟩ := hv mode'
    unfold lockTable; rw [he]; simp
  · intro mode' oid' rid
    obtain ⟨e, he⟩ := hv mode'
    unfold lockRow; rw [he]; simp

/-- C52 under read committed: once a transaction has released an X table lock, it is granted no lock that
allows writing. -/
theorem C52_two_phase_read_committed_partial (m m1 m2 : Mgr) (t : TxnId) (oid : Oid) (os : List Op)
    (rs : List Res) (hiso : m.iso t = .readCommitted)
    (hu : unlockTable m t .x oid = some (m1, .ok true)) (hr : run m1 os = some (m2, rs))
    (hn : ∀ st, Op.setState t st ∉ os) (mode' : Mode) (hw : Allows mode' .write) :
    (∀ oid', (lockTable m2 t mode' oid').2 ≠ .ok true) ∧
    (∀ oid' rid, (lockRow m2 t mode' oid' rid).2 ≠ .ok true) := by
  obtain ⟨h1, h2⟩ := unlock_shrinks (Or.inl rfl) hu
  obtain ⟨h3, h4⟩ := shrinking_run os (Or.inl h1) hn hr
  have hi : m2.iso t = .readCommitted := by rw [h4, h2]; exact hiso
  have hv : ∃ e, validate m2 t mode' = (m2, some e) := by
    unfold validate
    rw [hi]
    rcases h3 with h3 | h3 <;> rw [h3] <;> cases mode' <;> first | exact ⟨_, rfl⟩ | cases hw
  obtain ⟨e, he⟩ := hv
  constructor
  · intro oid'
    unfold lockTable; rw [he]; simp
  · intro oid' rid
    unfold lockRow; rw [he]; simp

/-- C52 under read uncommitted: once a transaction has released an X table lock, it is granted no lock that allows
writing, unless it has been aborted. Missing: aborted transactions, which are still granted locks
(`C52_read_uncommitted_aborted_fails`). -/
theorem C52_two_phase_read_uncommitted_partial (m m1 m2 : Mgr) (t : TxnId) (oid : Oid) (os : List Op)
    (rs : List Res) (hiso : m.iso t = .readUncommitted)
    (hu : unlockTable m t .x oid = some (m1, .ok true)) (hr : run m1 os = some (m2, rs))
    (hn : ∀ st, Op.setState t st ∉ os) (ha : m2.tstate t ≠ .aborted) (mode' : Mode) (hw : Allows mode' .write) :
    (∀ oid', (lockTable m2 t mode' oid').2 ≠ .ok true) ∧
    (∀ oid' rid, (lockRow m2 t mode' oid' rid).2 ≠ .ok true) := by
  obtain ⟨h1, h2⟩ := unlock_shrinks (Or.inl rfl) hu
  obtain ⟨h3, h4⟩ := shrinking_run os (Or.inl h1) hn hr
  have hi : m2.iso t = .readUncommitted := by rw [h4, h2]; exact hiso
  have hs : m2.tstate t = .shrinking := h3.resolve_right ha
  have hv : ∃ e, validate m2 t mode' = (m2, some e) := by
    unfold validate
    rw [hi]
    simp only [hs, if_true]
    cases mode' <;> first | exact ⟨_, rfl⟩ | cases hw
  obtain ⟨e, he⟩ := hv
  constructor
  · intro oid'
    unfold lockTable; rw [he]; simp
  · intro oid' rid
    unfold lockRow; rw [he]; simp

/-- A transaction that reads uncommitted data and has released X is refused another lock, and has not been aborted. -/
example : ((run (Mgr.new (fun _ => .growing) (fun _ => .readUncommitted))
    [.lockTable 1 .x 7, .unlockTable 1 .x 7, .lockTable 1 .ix 8]).map (fun r => (r.2, r.1.tstate 1))) =
    some ([.ok true, .ok true, .err .lockOnShrinking], .shrinking) := by decide

/-- C52 is false of the code under read uncommitted: after a second, mistaken release has aborted the transaction it is
granted a lock again. -/
theorem C52_read_uncommitted_aborted_fails :
    ((run (Mgr.new (fun _ => .growing) (fun _ => .readUncommitted))
      [.lockTable 1 .x 7, .unlockTable 1 .x 7, .unlockTable 1 .x 7, .lockTable 1 .x 8]).map (fun r => (r.2, r.1.tstate 1))) =
    some ([.ok true, .ok true, .err .noLockHeld, .ok true], .aborted) := by decide

/-- A repeatable-read transaction that released S is refused another lock. -/
example : ((run rr [.lockTable 1 .s 7, .unlockTable 1 .s 7, .lockTable 1 .s 8]).map (·.2)) =
    some [.ok true, .ok true, .err .lockOnShrinking] := by decide

/-- C52 is false of the code at the serializable level: a lock is granted after an X lock was released. -/
theorem C52_serializable_relocks_fails :
    ((run (Mgr.new (fun _ => .growing) (fun _ => .serializable))
      [.lockTable 1 .x 7, .unlockTable 1 .x 7, .lockTable 1 .x 8]).map (·.2)) =
    some [.ok true, .ok true, .ok true] := by decide

/-! ## C58: a request takes no lock away -/

theorem mem_eraseIdx_ne {l : List Req} {i : Nat} {r x : Req} (hi : l[i]? = some r) (hx : x ≠ r) :
    x ∈ l.eraseIdx i ↔ x ∈ l := by
  induction l generalizing i with
  | nil => simp
  | cons y ys ih =>
    cases i with
    | zero => simp only [List.getElem?_cons_zero, Option.some.injEq] at hi; subst hi; simp [hx]
    | succ i => simp only [List.getElem?_cons_succ] at hi; simp [ih hi]

theorem enqueue_granted_mem (q : Queue) (t : TxnId) (mode : Mode) (x : Req) (hx : x.granted = true)
    (h : x.txn ≠ t ∨ (enqueue q t mode).2 = false) : x ∈ (enqueue q t mode).1.reqs ↔ x ∈ q.reqs := by
  unfold enqueue at h ⊢
  split
  · next hc =>
    rcases h with h | h
    · simp only [List.mem_append, List.mem_singleton, or_iff_left_iff_imp]
      rintro rfl; exact absurd rfl h
    · rw [hc] at h; cases h
  · simp only [List.mem_append, List.mem_singleton, or_iff_left_iff_imp]
    rintro rfl; cases hx

/-- The granted requests of other transactions are untouched, and those of the asking one too unless it is an upgrade. -/
theorem grantLock_granted_mem (q : Queue) (t : TxnId) (mode : Mode) (x : Req) (hx : x.granted = true)
    (h : x.txn ≠ t ∨ ((grantLock q t mode).2 = false ∧
      ((∀ r ∈ q.reqs, r.granted = true → r.txn ≠ t) ∨ ∃ u, q.upgrading = some u ∧ u ≠ t))) :
    x ∈ (grantLock q t mode).1.reqs ↔ x ∈ q.reqs := by
  unfold grantLock at h ⊢
  split
  · next hf =>
    rw [hf] at h
    exact enqueue_granted_mem q t mode x hx (h.imp id (·.1))
  · next i hf =>
    obtain ⟨a, r1, b, hq1, hl, hg1, ht1, ha⟩ := findIdx_own hf
    have hri : q.reqs[i]? = some r1 := by rw [hq1, ← hl]; simp
    simp only [hf, hri] at h ⊢
    have up : (x.txn ≠ t ∨ ((∀ r ∈ q.reqs, r.granted = true → r.txn ≠ t) ∨ ∃ u, q.upgrading = some u ∧ u ≠ t)) →
        (x ∈ (if q.upgrading.isSome && decide (q.upgrading ≠ some t) then (q, false)
          else enqueue { reqs := q.reqs.eraseIdx i, upgrading := some t } t mode).1.reqs ↔ x ∈ q.reqs) := by
      intro h0
      split
      · rfl
      · next hu =>
        rcases h0 with h0 | h0 | ⟨u, h1, h2⟩
        · rw [enqueue_granted_mem _ t mode x hx (Or.inl h0)]
          exact mem_eraseIdx_ne hri (by rintro rfl; exact h0 ht1)
        · exact absurd ht1 (h0 r1 (by rw [hq1]; simp) hg1)
        · exfalso; apply hu; simp [h1, h2]
    by_cases hm : r1.mode = mode
    · rw [if_pos hm]
    · rw [if_neg hm] at h ⊢
      cases h1 : r1.mode <;> cases mode <;> simp only [h1] at h hm ⊢ <;>
        first
        | exact absurd trivial hm
        | exact enqueue_granted_mem q t _ x hx (h.imp id (·.1))
        | exact up (h.imp id (·.2))

theorem queueOf_mem_iff {K : Type} [DecidableEq K] (qs : AMap K Queue) (k : K) (x : Req) :
    x ∈ (queueOf qs k).reqs ↔ ∃ q, qs.get k = some q ∧ x ∈ q.reqs := by
  unfold queueOf
  cases h : qs.get k with
  | none => simp [Queue.new]
  | some q => simp

theorem holds_set {K : Type} [DecidableEq K] (qs : AMap K Queue) (k k' : K) (q : Queue) (x : Req)
    (h : x ∈ q.reqs ↔ x ∈ (queueOf qs k).reqs) :
    (∃ q', (qs.set k q).get k' = some q' ∧ x ∈ q'.reqs) ↔ ∃ q', qs.get k' = some q' ∧ x ∈ q'.reqs := by
  by_cases e : k = k'
  · subst e
    simp only [AMap.get_set_self, Option.some.injEq, exists_eq_left']
    rw [h, queueOf_mem_iff]
  · rw [AMap.get_set, if_neg e]

/-- What `lock_table` does to the queues. -/
theorem lockTable_queues (m : Mgr) (t : TxnId) (mode : Mode) (oid : Oid) :
    (lockTable m t mode oid).1.rows = m.rows ∧
    ((lockTable m t mode oid).1.tables = m.tables ∧ (∃ e, (lockTable m t mode oid).2 = .err e) ∨
     (lockTable m t mode oid).1.tables = m.tables.set oid (grantLock (queueOf m.tables oid) t mode).1 ∧
     (lockTable m t mode oid).2 = .ok (grantLock (queueOf m.tables oid) t mode).2) := by
  have hv := validate_frame m t mode
  unfold lockTable
  split
  · next m1 e hm => rw [hm] at hv; exact ⟨hv.2.1, Or.inl ⟨hv.1, e, rfl⟩⟩
  · next m1 hm =>
    rw [hm] at hv
    simp only at hv ⊢
    rw [hv.1]
    cases hb : (grantLock (queueOf m.tables oid) t mode).2 with
    | true => simp [hv.2.1]
    | false =>
      simp only [Bool.false_eq_true, if_false]
      rw [(checkDeadlock_frame _ t).1, (checkDeadlock_frame _ t).2.1, (addEdges_frame t _ _).1,
        (addEdges_frame t _ _).2.1]
      exact ⟨hv.2.1, Or.inr ⟨rfl, trivial⟩⟩

/-- C58. Asking for a table lock, whatever the answer, never changes the locks other transactions hold. -/
theorem C58_others_keep_locks (m : Mgr) (t : TxnId) (mode : Mode) (oid : Oid) (u : TxnId) (hu : u ≠ t) :
    (∀ a o, HoldsTable (lockTable m t mode oid).1 u a o ↔ HoldsTable m u a o) ∧
    (∀ a r, HoldsRow (lockTable m t mode oid).1 u a r ↔ HoldsRow m u a r) := by
  obtain ⟨hr, h⟩ := lockTable_queues m t mode oid
  unfold HoldsTable HoldsRow
  rw [hr]
  refine ⟨fun a o => ?_, fun _ _ => Iff.rfl⟩
  rcases h with ⟨h, _⟩ | ⟨h, _⟩
  · rw [h]
  · rw [h]
    exact holds_set _ _ _ _ _ (grantLock_granted_mem _ t mode _ rfl (Or.inl hu))

/-- C58, when the transaction holds nothing on the table, or another upgrade of that table is under way: a request that
is refused leaves every lock in place. Missing: upgrades, for which the claim is false
(`C58_refused_upgrade_fails`). -/
theorem C58_refused_keeps_locks_partial (m m' : Mgr) (t : TxnId) (mode : Mode) (oid : Oid)
    (h : lockTable m t mode oid = (m', .ok false))
    (hc : (∀ a, ¬ HoldsTable m t a oid) ∨ ∃ q u, m.tables.get oid = some q ∧ q.upgrading = some u ∧ u ≠ t)
    (u : TxnId) : (∀ a o, HoldsTable m' u a o ↔ HoldsTable m u a o) ∧
      (∀ a r, HoldsRow m' u a r ↔ HoldsRow m u a r) := by
  obtain ⟨hr, hq⟩ := lockTable_queues m t mode oid
  rw [h] at hr hq
  unfold HoldsTable HoldsRow
  rw [hr]
  refine ⟨fun a o => ?_, fun _ _ => Iff.rfl⟩
  rcases hq with ⟨hq, e, he⟩ | ⟨hq, hg⟩
  · cases he
  · rw [hq]
    simp only [Res.ok.injEq] at hg
    apply holds_set _ _ _ _ _ (grantLock_granted_mem _ t mode _ rfl (Or.inr ⟨hg.symm, ?_⟩))
    rcases hc with hc | ⟨q, u', h1, h2, h3⟩
    · left
      rintro ⟨rt, rm, rg⟩ hr1 hr2 rfl
      obtain ⟨q, h1, h2⟩ := (queueOf_mem_iff _ _ _).1 hr1
      simp only at hr2; subst hr2
      exact hc rm ⟨q, h1, h2⟩
    · right; exact ⟨u', by unfold queueOf; rw [h1]; exact h2, h3⟩

/-- Both alternatives of the hypothesis, with a refusal. -/
example : (∃ m, (run rr [.lockTable 1 .x 7]) = some (m, [.ok true]) ∧ (lockTable m 2 .s 7).2 = .ok false ∧
      m.tables.get 7 = some { reqs := [{ txn := 1, mode := .x, granted := true }], upgrading := none }) ∧
    (∃ m, (run rr [.lockTable 1 .s 7, .lockTable 2 .s 7, .lockTable 3 .s 7, .lockTable 1 .x 7]) =
        some (m, [.ok true, .ok true, .ok true, .ok false]) ∧ (lockTable m 2 .x 7).2 = .ok false ∧
      (m.tables.get 7).bind (·.upgrading) = some 1) := by
  refine ⟨⟨_, rfl, ?_, ?_⟩, ⟨_, rfl, ?_, ?_⟩⟩ <;> decide

/-- C58 is false of the code: an S lock is gone after its holder's request for X was refused. -/
theorem C58_refused_upgrade_fails : ∃ m m' rs, run rr [.lockTable 1 .s 7, .lockTable 2 .s 7] = some (m, rs) ∧
    HoldsTable m 1 .s 7 ∧ lockTable m 1 .x 7 = (m', .ok false) ∧ (∀ a, ¬ HoldsTable m' 1 a 7) := by
  refine ⟨_, _, _, rfl, ⟨_, rfl, by decide⟩, rfl, ?_⟩
  rintro a ⟨q, hq, h⟩
  revert hq h
  cases a <;> intro hq h <;> (have := Option.some.inj hq; subst this; revert h; decide)

end Verif.Locks

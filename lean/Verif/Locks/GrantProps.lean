import Verif.Locks.Props

/-!
# C134: a lock with which nobody's lock conflicts is granted
-/

namespace Verif.Locks

/-- The transaction may ask for a lock of this mode: it has neither released a lock nor ended, and one that reads uncommitted data takes no locks for reading. -/
def MayAsk (m : Mgr) (t : TxnId) (mode : Mode) : Prop :=
  (m.tstate t = .growing ∨ m.tstate t = .running) ∧ (m.iso t = .readUncommitted → mode = .x ∨ mode = .ix)

theorem validate_mayAsk {m : Mgr} {t : TxnId} {mode : Mode} (h : MayAsk m t mode) : (validate m t mode).2 = none := by
  obtain ⟨h1, h2⟩ := h
  unfold validate
  cases hi : m.iso t with
  | readUncommitted =>
    rcases h2 hi with rfl | rfl <;> rcases h1 with h1 | h1 <;> simp [h1]
  | readCommitted => rcases h1 with h1 | h1 <;> simp [h1]
  | repeatableRead => rcases h1 with h1 | h1 <;> simp [h1]
  | serializable => rfl
  | snapshot => cases mode <;> rfl

theorem enqueue_grants {q : Queue} {t : TxnId} {mode : Mode} (hu : ∀ u, q.upgrading = some u → u = t)
    (hown : ∀ r ∈ q.reqs, r.granted = true → r.txn ≠ t) (hc : ∀ r ∈ q.reqs, r.granted = true → ¬ Conflict r.mode mode) :
    (enqueue q t mode).2 = true ∧ (⟨t, mode, true⟩ : Req) ∈ (enqueue q t mode).1.reqs := by
  have hcomp : compatible q none t mode = some true := by
    unfold compatible
    rw [if_neg, scanOwn_none t mode q.reqs hown]
    · simp only [Option.some.injEq, List.all_eq_true, Bool.or_eq_true, Bool.not_eq_true']
      intro r hr
      cases hg : r.granted with
      | false => exact .inl rfl
      | true => exact .inr ((C10_compatible_iff_no_conflict _ _).2 (hc r hr hg))
    · cases h : q.upgrading with
      | none => simp
      | some u => simp [hu u h]
  unfold enqueue
  rw [hcomp]
  simp

theorem enqueue_grants_own {q : Queue} {t : TxnId} {mode : Mode} (hu : ∀ u, q.upgrading = some u → u = t) {a b : List Req} {r : Req}
    (hq : q.reqs = a ++ r :: b) (hg : r.granted = true) (ht : r.txn = t) (ha : ∀ s ∈ a, s.granted = true → s.txn ≠ t) (ho : upgradeOk r.mode mode = true) :
    (enqueue q t mode).2 = true ∧ (⟨t, mode, true⟩ : Req) ∈ (enqueue q t mode).1.reqs := by
  have hs : ∀ (a : List Req) i, (∀ s ∈ a, s.granted = true → s.txn ≠ t) → scanOwn none t mode i (a ++ r :: b) = .found true := by
    intro a
    induction a with
    | nil => intro i _; simp [scanOwn, hg, ht, ho]
    | cons x xs ih =>
      intro i h
      simp only [List.cons_append, scanOwn]
      rw [if_neg (by simp), if_neg]
      · exact ih _ fun s hs => h s (List.mem_cons_of_mem _ hs)
      · simp only [Bool.and_eq_true, decide_eq_true_eq]
        rintro ⟨h1, h2⟩
        exact h x List.mem_cons_self h1 h2
  have hcomp : compatible q none t mode = some true := by
    unfold compatible
    rw [if_neg, hq, hs a 0 ha]
    cases h : q.upgrading with
    | none => simp
    | some u => simp [hu u h]
  unfold enqueue
  rw [hcomp]
  simp

theorem grantLock_grants {q : Queue} (hi : Inv q) {t : TxnId} {mode : Mode} (hu : ∀ u, q.upgrading = some u → u = t)
    (hc : ∀ r ∈ q.reqs, r.granted = true → r.txn ≠ t → ¬ Conflict r.mode mode) :
    (grantLock q t mode).2 = true ∧ (⟨t, mode, true⟩ : Req) ∈ (grantLock q t mode).1.reqs := by
  unfold grantLock
  split
  · next hn =>
    have hown := findIdx_none hn
    exact enqueue_grants hu hown fun r hr hg => hc r hr hg (hown r hr hg)
  · next i hf =>
    obtain ⟨a, r, b, hq, hl, hg, ht, ha⟩ := findIdx_own hf
    have hri : q.reqs[i]? = some r := by rw [hq, ← hl]; simp
    have hrm : r ∈ q.reqs := by rw [hq]; simp
    rw [hri]
    simp only
    split
    · next hm =>
      refine ⟨rfl, ?_⟩
      have : r = ⟨t, mode, true⟩ := by cases r; simp_all
      exact this ▸ hrm
    · split
      · exact enqueue_grants_own hu hq hg ht ha (by simp_all [upgradeOk])
      · exact enqueue_grants_own hu hq hg ht ha (by simp_all [upgradeOk])
      · rw [if_neg]
        · have he : q.reqs.eraseIdx i = a ++ b := by rw [hq, ← hl]; exact eraseIdx_split a r b
          have hown := own_erased hi hq ht hg ha
          refine enqueue_grants (by simp) ?_ ?_
          · simp only [he]
            exact hown
          · simp only [he]
            intro s hs hsg
            refine hc s ?_ hsg (hown s hs hsg)
            rw [hq]
            rcases List.mem_append.1 hs with hs | hs <;> simp [hs]
        · cases h : q.upgrading with
          | none => simp
          | some u => simp [hu u h]

theorem queueOf_upgrading {K : Type} [DecidableEq K] {qs : AMap K Queue} {k : K} {u : TxnId} (h : (queueOf qs k).upgrading = some u) :
    ∃ q, qs.get k = some q ∧ q.upgrading = some u := by
  unfold queueOf at h
  cases hk : qs.get k with
  | none => rw [hk] at h; simp [Queue.new] at h
  | some q => rw [hk] at h; exact ⟨q, rfl, h⟩

/-- C134 for tables: a transaction that may ask for a lock on a table gets it, and then holds it, if no other transaction holds a lock in conflict with it; whatever lock it has held on
the table itself. Missing: a table on which an upgrade of another transaction is under way (`C134_upgrade_under_way_fails`), and states reached through one of the two upgrades that
let conflicting locks in (`C11_is_to_s_fails`). -/
theorem C134_table_lock_granted_partial (ts : TxnId → TState) (iso : TxnId → Iso) (os : List Op) (m : Mgr) (rs : List Res) (h : run (Mgr.new ts iso) os = some (m, rs))
    (hc : AllChecked (Mgr.new ts iso) os) (t : TxnId) (mode : Mode) (oid : Oid) (hm : MayAsk m t mode)
    (hn : ∀ u a, u ≠ t → HoldsTable m u a oid → ¬ Conflict a mode) (hu : ∀ q u, m.tables.get oid = some q → q.upgrading = some u → u = t) :
    ∃ m', lockTable m t mode oid = (m', .ok true) ∧ HoldsTable m' t mode oid := by
  have hi := allInv_queueOf (tabInv_run os (tabInv_new ts iso) (rowInv_new ts iso) hc h).excl oid
  obtain ⟨g1, g2⟩ := grantLock_grants (t := t) (mode := mode) hi
    (fun u e => by obtain ⟨q, h1, h2⟩ := queueOf_upgrading e; exact hu q u h1 h2)
    (fun r hr hg hne => by
      obtain ⟨q, h1, h2⟩ := queueOf_mem hr
      refine hn r.txn r.mode hne ⟨q, h1, ?_⟩
      cases r; simp_all)
  have hv := validate_mayAsk hm
  have hf := validate_frame m t mode
  unfold lockTable
  rcases hvv : validate m t mode with ⟨m1, e⟩
  rw [hvv] at hv hf
  simp only at hv hf
  subst hv
  simp only [hf.1, g1, if_true]
  exact ⟨_, rfl, _, AMap.get_set_self .., g2⟩

/-- C134 for rows: a transaction that may ask for a lock on a row of a table, and holds a lock on the table that permits it, gets it and then holds it, if no other transaction holds a
lock on the row in conflict with it. Missing: a row on which an upgrade of another transaction is under way. -/
theorem C134_row_lock_granted_partial (ts : TxnId → TState) (iso : TxnId → Iso) (os : List Op) (m : Mgr) (rs : List Res) (h : run (Mgr.new ts iso) os = some (m, rs))
    (t : TxnId) (mode tm : Mode) (oid : Oid) (rid : Rid) (hm : MayAsk m t mode) (ht : HoldsTable m t tm oid) (hp : Permits tm mode)
    (hn : ∀ u a, u ≠ t → HoldsRow m u a rid → ¬ Conflict a mode) (hu : ∀ q u, m.rows.get rid = some q → q.upgrading = some u → u = t) :
    ∃ m', lockRow m t mode oid rid = (m', .ok true) ∧ HoldsRow m' t mode rid := by
  have hi := allInv_queueOf (rowInv_run os (rowInv_new ts iso) h).1 rid
  obtain ⟨g1, g2⟩ := grantLock_grants (t := t) (mode := mode) hi
    (fun u e => by obtain ⟨q, h1, h2⟩ := queueOf_upgrading e; exact hu q u h1 h2)
    (fun r hr hg hne => by
      obtain ⟨q, h1, h2⟩ := queueOf_mem hr
      refine hn r.txn r.mode hne ⟨q, h1, ?_⟩
      cases r; simp_all)
  have hv := validate_mayAsk hm
  have hf := validate_frame m t mode
  unfold lockRow
  rcases hvv : validate m t mode with ⟨m1, e⟩
  rw [hvv] at hv hf
  simp only at hv hf
  subst hv
  have hmode : ¬(mode = .is ∨ mode = .ix ∨ mode = .six) := by
    rcases hp with ⟨rfl, _⟩ | ⟨rfl, _⟩ <;> simp
  have htl : hasTableLockFor m1 t mode oid = true := by
    obtain ⟨q, hq, hr⟩ := ht
    unfold hasTableLockFor
    rw [hf.1, hq]
    simp only [List.any_eq_true]
    refine ⟨_, hr, ?_⟩
    rcases hp with ⟨rfl, rfl | rfl | rfl⟩ | ⟨rfl, rfl | rfl | rfl⟩ <;> simp
  simp only [hmode, htl, if_false, Bool.true_eq_false, hf.2.1, g1, if_true]
  exact ⟨_, rfl, _, AMap.get_set_self .., g2⟩

/-- Transaction 1 holds S and 2 holds IS on a table: 1 gets SIX, and 2 shares a row lock with 1. -/
example : ∃ m rs, run rr [.lockTable 1 .s 7, .lockTable 2 .is 7, .lockRow 1 .s 7 (0, 0)] = some (m, rs) ∧ MayAsk m 1 .six ∧ MayAsk m 2 .s ∧
    (m.tables.get 7).map (·.upgrading) = some none ∧ (m.rows.get (0, 0)).map (·.upgrading) = some none ∧ (lockTable m 1 .six 7).2 = .ok true ∧
    (lockRow m 2 .s 7 (0, 0)).2 = .ok true := by
  refine ⟨_, _, rfl, ⟨.inl (by decide), by decide⟩, ⟨.inl (by decide), by decide⟩, ?_, ?_, ?_, ?_⟩ <;> decide

/-- C134 is false of the code: 1 and 2 hold S, 1 asks for X and is refused, which loses its lock; now IS, which conflicts with nothing that is held, is refused to 3. -/
theorem C134_upgrade_under_way_fails : ∃ m m' rs, run rr [.lockTable 1 .s 7, .lockTable 2 .s 7, .lockTable 1 .x 7] = some (m, rs) ∧ MayAsk m 3 .is ∧
    (∀ u a, HoldsTable m u a 7 → ¬ Conflict a .is) ∧ lockTable m 3 .is 7 = (m', .ok false) := by
  refine ⟨_, _, _, rfl, ⟨.inl (by decide), by decide⟩, ?_, rfl⟩
  rintro u a ⟨q, hq, hr⟩ hc
  cases hq
  have ha : a = .s := by
    have : (⟨u, a, true⟩ : Req) ∈ ([⟨2, .s, true⟩, ⟨1, .x, false⟩] : List Req) := hr
    simp at this
    exact this.2
  subst ha
  exact (C10_compatible_iff_no_conflict .s .is).1 rfl hc

/-- C134 is false of the code also in that a lock once granted need not stay: a transaction that holds X and asks for IS, which X includes, loses X, and another one gets
S. -/
theorem C134_weaker_lock_fails : ∃ m rs, run rr [.lockTable 1 .x 7, .lockTable 1 .is 7, .lockTable 2 .s 7] = some (m, rs) ∧ rs = [.ok true, .ok true, .ok true] ∧
    HoldsTable m 2 .s 7 ∧ ¬ HoldsTable m 1 .x 7 := by
  refine ⟨_, _, rfl, rfl, ⟨_, rfl, by decide⟩, ?_⟩
  rintro ⟨q, hq, hr⟩
  cases hq
  revert hr
  decide

end Verif.Locks

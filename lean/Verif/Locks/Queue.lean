import Verif.Locks.Modes

/-!
# Lock request queues (`LockRequestQueue`, `src/concurrency/lock_manager.rs`)

Every request is an `Arc<Mutex<LockRequest>>`. `parking_lot::Mutex` is not reentrant, so locking a
request whose guard the same call still holds blocks forever. That happens when
`compatible_with_existing_locks(&request.lock())` is called on a request that is in the queue
(lines 737-738 and 834), so blocking forever is an explicit result here.
-/

namespace Verif.Locks

/-- Transaction ids; `INVALID_TXN_ID` is not one of them. -/
abbrev TxnId := Nat

/-- `struct LockRequest` (lock_manager.rs:196-208); the resource is the queue it is in. -/
structure Req where
  txn : TxnId
  mode : Mode
  granted : Bool
  deriving DecidableEq, Repr

/-- `struct LockRequestQueue` (lock_manager.rs:214-222). `upgrading = INVALID_TXN_ID` is `none`; the condition
variable is never waited on and is left out. -/
structure Queue where
  reqs : List Req
  upgrading : Option TxnId
  deriving DecidableEq, Repr

/-- `LockRequestQueue::new` (lock_manager.rs:374-380). -/
def Queue.new : Queue := { reqs := [], upgrading := none }

/-- The `match` on (held mode, requested mode) (lock_manager.rs:399-418). -/
def upgradeOk : Mode → Mode → Bool
  | .is, _ => true
  | .s, .x => true
  | .s, .six => true
  | .ix, .x => true
  | .ix, .six => true
  | .six, .x => true
  | m1, m2 => decide (m1 = m2)

/-- Result of the first loop of `compatible_with_existing_locks`. -/
inductive Scan where
  | found (b : Bool)
  | hang
  | absent
  deriving DecidableEq

/-- First loop of `compatible_with_existing_locks` (lock_manager.rs:394-420). `self` is the position of the
request whose guard the caller holds, if it is in the queue; locking it again blocks forever. -/
def scanOwn (self : Option Nat) (txn : TxnId) (mode : Mode) : Nat → List Req → Scan
  | _, [] => .absent
  | i, r :: rs =>
    if self = some i then .hang
    else if r.granted && decide (r.txn = txn) then .found (upgradeOk r.mode mode)
    else scanOwn self txn mode (i + 1) rs

/-- `compatible_with_existing_locks` (lock_manager.rs:383-434); `none` is blocking forever. The second loop
(424-431) is reached only when the first one passed over the whole queue. -/
def compatible (q : Queue) (self : Option Nat) (txn : TxnId) (mode : Mode) : Option Bool :=
  if q.upgrading.isSome && decide (q.upgrading ≠ some txn) then some false
  else match scanOwn self txn mode 0 q.reqs with
    | .hang => none
    | .found b => some b
    | .absent => some (q.reqs.all fun r => !r.granted || areCompatible r.mode mode)

/-- The end of `grant_lock` (lock_manager.rs:474-488): append the request, granted if compatible. The new
request is not in the queue yet, so its guard does no harm. -/
def enqueue (q : Queue) (txn : TxnId) (mode : Mode) : Queue × Bool :=
  match compatible q none txn mode with
  | some true =>
    ({ reqs := q.reqs ++ [{ txn, mode, granted := true }],
       upgrading := if q.upgrading = some txn then none else q.upgrading }, true)
  | _ => ({ q with reqs := q.reqs ++ [{ txn, mode, granted := false }] }, false)

/-- `grant_lock` (lock_manager.rs:437-489). -/
def grantLock (q : Queue) (txn : TxnId) (mode : Mode) : Queue × Bool :=
  match q.reqs.findIdx? (fun r => r.granted && decide (r.txn = txn)) with
  | none => enqueue q txn mode
  | some i =>
    match q.reqs[i]? with
    | none => enqueue q txn mode
    | some r =>
      if r.mode = mode then (q, true)
      else match r.mode, mode with
        | .is, .s => enqueue q txn mode
        | .ix, .x => enqueue q txn mode
        | _, _ =>
          if q.upgrading.isSome && decide (q.upgrading ≠ some txn) then (q, false)
          else enqueue { reqs := q.reqs.eraseIdx i, upgrading := some txn } txn mode

/-- The loop over waiting requests (lock_manager.rs:734-743 and, for rows and `force_release_txn`, 830-843:
the latter looks at a request again after granting it, which changes nothing). `n` requests remain to
be looked at; `none` is blocking forever. -/
def grantWaiting (q : Queue) (i : Nat) : Nat → Option Queue
  | 0 => some q
  | n + 1 =>
    match q.reqs[i]? with
    | none => some q
    | some r =>
      if r.granted then grantWaiting q (i + 1) n
      else match compatible q (some i) r.txn r.mode with
        | none => none
        | some true => grantWaiting { q with reqs := q.reqs.set i { r with granted := true } } (i + 1) n
        | some false => grantWaiting q (i + 1) n

/-- Result of a release. -/
inductive Rel where
  | released (q : Queue)
  | notHeld
  | hang
  deriving DecidableEq

/-- The queue part of `release_table_lock` (lock_manager.rs:720-746) and `release_row_lock` (761-775). -/
def release (q : Queue) (txn : TxnId) : Rel :=
  match q.reqs.findIdx? (fun r => r.granted && decide (r.txn = txn)) with
  | none => .notHeld
  | some i =>
    match grantWaiting { q with reqs := q.reqs.eraseIdx i } 0 (q.reqs.eraseIdx i).length with
    | none => .hang
    | some q' => .released q'

/-- The queue part of `force_release_txn` (lock_manager.rs:799-803 and 813-817); `none` is blocking forever. -/
def purge (q : Queue) (txn : TxnId) : Option Queue :=
  grantWaiting { q with reqs := q.reqs.filter (fun r => r.txn ≠ txn) } 0
    (q.reqs.filter (fun r => r.txn ≠ txn)).length

/-! ## Exclusion invariant -/

/-- A granted request is followed by no other request of the same transaction and is compatible with every
later granted request. -/
def Inv (q : Queue) : Prop :=
  q.reqs.Pairwise fun r s =>
    r.granted = true → r.txn ≠ s.txn ∧ (s.granted = true → areCompatible r.mode s.mode = true)

theorem inv_new : Inv Queue.new := List.Pairwise.nil

theorem inv_sublist {q : Queue} {l : List Req} {u : Option TxnId} (h : Inv q) (hs : l.Sublist q.reqs) :
    Inv { reqs := l, upgrading := u } := List.Pairwise.sublist hs h

theorem scanOwn_none (txn : TxnId) (mode : Mode) (l : List Req)
    (h : ∀ r ∈ l, r.granted = true → r.txn ≠ txn) : ∀ i, scanOwn none txn mode i l = .absent := by
  induction l with
  | nil => intro i; rfl
  | cons r rs ih =>
    intro i
    have hr := h r (by simp)
    unfold scanOwn
    rw [if_neg (by simp), if_neg]
    · exact ih (fun r' hr' => h r' (List.mem_cons_of_mem _ hr')) _
    · simp only [Bool.and_eq_true, decide_eq_true_eq]
      rintro ⟨h1, h2⟩; exact hr h1 h2

/-- Enqueueing keeps the invariant when the transaction holds nothing. -/
theorem inv_enqueue {q : Queue} (h : Inv q) (txn : TxnId) (mode : Mode)
    (hown : ∀ r ∈ q.reqs, r.granted = true → r.txn ≠ txn) : Inv (enqueue q txn mode).1 := by
  unfold enqueue
  split
  · next hc =>
    unfold compatible at hc
    split at hc
    · simp at hc
    · rw [scanOwn_none txn mode q.reqs hown] at hc
      simp only [Option.some.injEq, List.all_eq_true, Bool.or_eq_true, Bool.not_eq_true'] at hc
      unfold Inv
      simp only
      rw [List.pairwise_append]
      refine ⟨h, by simp, ?_⟩
      intro r hr s hs hg
      simp only [List.mem_singleton] at hs
      subst hs
      refine ⟨hown r hr hg, fun _ => ?_⟩
      rcases hc r hr with h1 | h1
      · rw [hg] at h1; cases h1
      · exact h1
  · unfold Inv
    simp only
    rw [List.pairwise_append]
    refine ⟨h, by simp, ?_⟩
    intro r hr s hs hg
    simp only [List.mem_singleton] at hs
    subst hs
    exact ⟨hown r hr hg, fun hf => by simp at hf⟩

theorem findIdx_own {l : List Req} {txn : TxnId} {i : Nat}
    (h : l.findIdx? (fun r => r.granted && decide (r.txn = txn)) = some i) :
    ∃ a r b, l = a ++ r :: b ∧ a.length = i ∧ r.granted = true ∧ r.txn = txn ∧
      ∀ s ∈ a, s.granted = true → s.txn ≠ txn := by
  induction l generalizing i with
  | nil => simp at h
  | cons x xs ih =>
    rw [List.findIdx?_cons] at h
    by_cases hx : (x.granted && decide (x.txn = txn)) = true
    · simp only [hx, if_true, Option.some.injEq] at h
      subst h
      simp only [Bool.and_eq_true, decide_eq_true_eq] at hx
      exact ⟨[], x, xs, rfl, rfl, hx.1, hx.2, by simp⟩
    · simp only [hx] at h
      simp only [Bool.false_eq_true, if_false] at h
      cases hx2 : xs.findIdx? (fun r => r.granted && decide (r.txn = txn)) with
      | none => rw [hx2] at h; simp at h
      | some j =>
        rw [hx2] at h
        simp at h
        subst h
        obtain ⟨a, r, b, h1, h2, h3, h4, h5⟩ := ih hx2
        refine ⟨x :: a, r, b, by rw [h1]; rfl, by simp [h2], h3, h4, ?_⟩
        intro s hs hg
        rcases List.mem_cons.1 hs with rfl | hs
        · intro he; apply hx; simp [hg, he]
        · exact h5 s hs hg

theorem findIdx_none {l : List Req} {txn : TxnId}
    (h : l.findIdx? (fun r => r.granted && decide (r.txn = txn)) = none) :
    ∀ r ∈ l, r.granted = true → r.txn ≠ txn := by
  rw [List.findIdx?_eq_none_iff] at h
  intro r hr hg he
  have := h r hr
  simp [hg, he] at this

/-- After the transaction's granted request is taken out it holds nothing. -/
theorem own_erased {q : Queue} (h : Inv q) {a : List Req} {r : Req} {b : List Req} {txn : TxnId}
    (hq : q.reqs = a ++ r :: b) (hr : r.txn = txn) (hg : r.granted = true)
    (ha : ∀ s ∈ a, s.granted = true → s.txn ≠ txn) :
    ∀ s ∈ a ++ b, s.granted = true → s.txn ≠ txn := by
  intro s hs hsg
  rcases List.mem_append.1 hs with hs | hs
  · exact ha s hs hsg
  · unfold Inv at h
    rw [hq, List.pairwise_append, List.pairwise_cons] at h
    have := (h.2.1.1 s hs hg).1
    rw [hr] at this
    exact fun he => this he.symm

theorem eraseIdx_split (a : List Req) (r : Req) (b : List Req) : (a ++ r :: b).eraseIdx a.length = a ++ b := by
  induction a with
  | nil => rfl
  | cons x xs ih => simp [ih]

/-- The mode a transaction holds: that of its first granted request. -/
def heldMode (q : Queue) (txn : TxnId) : Option Mode :=
  (q.reqs.find? (fun r => r.granted && decide (r.txn = txn))).map (·.mode)

theorem heldMode_split {a : List Req} {r : Req} {b : List Req} {u : Option TxnId} {txn : TxnId}
    (hr : r.txn = txn) (hg : r.granted = true) (ha : ∀ s ∈ a, s.granted = true → s.txn ≠ txn) :
    heldMode { reqs := a ++ r :: b, upgrading := u } txn = some r.mode := by
  unfold heldMode
  simp only
  rw [List.find?_append, List.find?_eq_none.2, List.find?_cons_of_pos]
  · rfl
  · simp [hg, hr]
  · intro s hs
    simp only [Bool.and_eq_true, decide_eq_true_eq, not_and]
    exact ha s hs

/-- The two upgrades that `grant_lock` lets through without looking at other holders. -/
def UncheckedUpgrade (q : Queue) (txn : TxnId) (mode : Mode) : Prop :=
  (heldMode q txn = some .is ∧ mode = .s) ∨ (heldMode q txn = some .ix ∧ mode = .x)

theorem inv_grantLock {q : Queue} (h : Inv q) (txn : TxnId) (mode : Mode)
    (hu : ¬ UncheckedUpgrade q txn mode) : Inv (grantLock q txn mode).1 := by
  unfold grantLock
  split
  · next hn => exact inv_enqueue h txn mode (findIdx_none hn)
  · next i hi =>
    obtain ⟨a, r, b, hq, hl, hg, ht, ha⟩ := findIdx_own hi
    have hri : q.reqs[i]? = some r := by rw [hq, ← hl]; simp
    rw [hri]
    simp only
    split
    · exact h
    · have hheld : heldMode q txn = some r.mode := by
        have := heldMode_split (u := q.upgrading) (b := b) ht hg ha
        rw [← hq] at this
        exact this
      split
      · exfalso; apply hu; left
        rw [hheld]; simp_all
      · exfalso; apply hu; right
        rw [hheld]; simp_all
      · split
        · exact h
        · have he : q.reqs.eraseIdx i = a ++ b := by rw [hq, ← hl]; exact eraseIdx_split a r b
          apply inv_enqueue
          · apply inv_sublist h
            exact List.eraseIdx_sublist _ _
          · simp only [he]
            exact own_erased h hq ht hg ha

/-- Under the invariant a waiting request in the queue is never found compatible: its transaction has no
granted request before it, so the scan reaches the request itself. -/
theorem compatible_self {q : Queue} (h : Inv q) {i : Nat} {r : Req} (hi : q.reqs[i]? = some r) :
    compatible q (some i) r.txn r.mode ≠ some true := by
  unfold compatible
  split
  · simp
  · have key : ∀ (l : List Req) (k : Nat), k ≤ i → q.reqs.drop k = l →
        scanOwn (some i) r.txn r.mode k l = .hang := by
      intro l
      induction l with
      | nil =>
        intro k hk hd
        exfalso
        have : q.reqs.length ≤ k := by simpa using hd
        have hlt := (List.getElem?_eq_some_iff.1 hi).1
        omega
      | cons x xs ih =>
        intro k hk hd
        unfold scanOwn
        by_cases hki : k = i
        · subst hki; simp
        · rw [if_neg (by intro he; cases he; exact hki rfl), if_neg]
          · apply ih (k + 1) (by omega)
            rw [← List.drop_drop, hd]; rfl
          · simp only [Bool.and_eq_true, decide_eq_true_eq]
            rintro ⟨hxg, hxt⟩
            have hxr : r ∈ xs := by
              have hidx : xs[i - k - 1]? = some r := by
                have h2 : (q.reqs.drop k)[i - k]? = some r := by
                  rw [List.getElem?_drop]; rw [show k + (i - k) = i by omega]; exact hi
                rw [hd] at h2
                rw [show i - k = (i - k - 1) + 1 by omega] at h2
                simpa using h2
              exact List.mem_of_getElem? hidx
            have hp : (x :: xs).Pairwise fun r s =>
                r.granted = true → r.txn ≠ s.txn ∧ (s.granted = true → areCompatible r.mode s.mode = true) := by
              rw [← hd]; exact List.Pairwise.sublist (List.drop_sublist _ _) h
            exact ((List.pairwise_cons.1 hp).1 r hxr hxg).1 hxt
    rw [key q.reqs 0 (by omega) (by simp)]
    simp

theorem grantWaiting_eq {q : Queue} (h : Inv q) (n : Nat) : ∀ i q', grantWaiting q i n = some q' → q' = q := by
  induction n with
  | zero => intro i q' hq; simp [grantWaiting] at hq; exact hq.symm
  | succ n ih =>
    intro i q' hq
    unfold grantWaiting at hq
    split at hq
    · simp at hq; exact hq.symm
    · next r hr =>
      split at hq
      · exact ih _ _ hq
      · split at hq
        · cases hq
        · next hc => exact absurd hc (compatible_self h hr)
        · exact ih _ _ hq

theorem inv_release {q : Queue} (h : Inv q) {txn : TxnId} {q' : Queue}
    (hr : release q txn = .released q') : Inv q' := by
  unfold release at hr
  split at hr
  · cases hr
  · split at hr
    · cases hr
    · next hg =>
      cases hr
      rw [grantWaiting_eq (inv_sublist h (List.eraseIdx_sublist _ _)) _ _ _ hg]
      exact inv_sublist h (List.eraseIdx_sublist _ _)

theorem inv_purge {q : Queue} (h : Inv q) {txn : TxnId} {q' : Queue} (hp : purge q txn = some q') : Inv q' := by
  unfold purge at hp
  have hi := inv_sublist (u := q.upgrading) h (List.filter_sublist (p := fun r => r.txn ≠ txn) (l := q.reqs))
  rw [grantWaiting_eq hi _ _ _ hp]
  exact hi

/-- The invariant is exclusion. -/
theorem inv_excl {q : Queue} (h : Inv q) {r s : Req} (hr : r ∈ q.reqs) (hs : s ∈ q.reqs)
    (hrg : r.granted = true) (hsg : s.granted = true) (hne : r.txn ≠ s.txn) :
    areCompatible r.mode s.mode = true := by
  unfold Inv at h
  generalize q.reqs = l at h hr hs
  induction h with
  | nil => simp at hr
  | cons hx _ ih =>
    rcases List.mem_cons.1 hr with h1 | h1 <;> rcases List.mem_cons.1 hs with h2 | h2
    · exact absurd (by rw [h1, h2]) hne
    · subst h1; exact (hx s h2 hrg).2 hsg
    · subst h2; rw [C10_compatible_symm]; exact (hx r h1 hsg).2 hrg
    · exact ih h1 h2

end Verif.Locks

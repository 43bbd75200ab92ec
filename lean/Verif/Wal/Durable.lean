import Verif.Wal.Props

/-!
# C29: log sequence numbers and the durability of acknowledged commits
-/

namespace Verif.Wal

open Verif.Bytes (Byte)

/-! ## Specification -/

/-- The records handed to the log manager, in order. -/
def appended : List Ev → List Rec
  | [] => []
  | .append r :: es => r :: appended es
  | _ :: es => appended es

/-- The log those records should make: the `i`-th record has LSN `i`. -/
def numbered (rs : List Rec) : List Rec := rs.mapIdx fun i r => r.withLsn i

/-! ## Invariant -/

theorem numbered_snoc (rs : List Rec) (r : Rec) : numbered (rs ++ [r]) = numbered rs ++ [r.withLsn rs.length] := by
  simp [numbered, List.mapIdx_append]

@[simp] theorem length_numbered (rs : List Rec) : (numbered rs).length = rs.length := by simp [numbered]

theorem lsn_numbered (rs : List Rec) : (numbered rs).map (·.lsn) = List.range rs.length := by
  apply List.ext_getElem
  · simp
  · intro i h1 h2
    simp [numbered, Rec.withLsn]

theorem foldl_max_range' (a k m : Nat) (hm : m ≤ a) : (List.range' a (k + 1)).foldl max m = a + k := by
  induction k generalizing a m with
  | zero => simp [List.range', Nat.max_eq_right hm]
  | succ k ih =>
    rw [List.range'_succ, List.foldl_cons, ih (a + 1) _ (by omega)]
    omega

/-- The records in the channel and in the batch are the part of the log not yet written. -/
structure Inv (fsync : Bool) (base rs : List Rec) (s : St) : Prop where
  live : s.phase = .live
  next : s.next = rs.length
  log : s.file ++ (s.batch.getD [] ++ s.queue) = base ++ numbered rs
  written : base.length ≤ s.file.length
  syncedLe : s.synced ≤ s.file.length
  batchMax : ∀ l, s.batch = some l → base.length + s.batchMax + 1 = s.file.length + l.length
  persistent : ∀ p, s.persistent = some p → base.length + p + 1 ≤ s.file.length ∧ (fsync = true → base.length + p + 1 ≤ s.synced)
  acked : ∀ l ∈ s.acked, ∃ p, s.persistent = some p ∧ l ≤ p

theorem inv_init (fsync : Bool) (base : List Rec) : Inv fsync base [] (St.init base) := by
  constructor <;> simp [St.init, numbered]

theorem takeMore_append (n : Nat) (q : List Rec) : (takeMore n q).1 ++ (takeMore n q).2 = q := by
  induction n generalizing q with
  | zero => rfl
  | succ n ih =>
    cases q with
    | nil => rfl
    | cons r q =>
      simp only [takeMore]
      split
      · rfl
      · simp [ih]

theorem maxLsn_batch {base rs file b q : List Rec} (h : file ++ (b ++ q) = base ++ numbered rs) (hw : base.length ≤ file.length) (hb : b ≠ []) :
    base.length + maxLsn b + 1 = file.length + b.length := by
  have hlen := congrArg List.length h
  simp only [List.length_append, length_numbered] at hlen
  have hsub : b.map (·.lsn) = List.range' (file.length - base.length) b.length := by
    have hd : b = ((base ++ numbered rs).drop file.length).take b.length := by
      rw [← h, List.drop_left' rfl, List.take_left' rfl]
    have : b.map (·.lsn) = ((numbered rs).map (·.lsn) |>.drop (file.length - base.length)).take b.length := by
      conv => lhs; rw [hd]
      rw [List.drop_append, List.drop_eq_nil_of_le hw, List.nil_append, ← List.map_drop, ← List.map_take]
    rw [this, lsn_numbered]
    apply List.ext_getElem
    · simp only [List.length_take, List.length_drop, List.length_range, List.length_range']; omega
    · intro i h1 h2
      simp
  have hpos : 0 < b.length := List.length_pos_iff.mpr hb
  obtain ⟨k, hk⟩ : ∃ k, b.length = k + 1 := ⟨b.length - 1, by omega⟩
  rw [maxLsn, hsub, hk, foldl_max_range' _ _ _ (Nat.zero_le _)]
  omega

theorem stop_mono {fsync : Bool} {s s' : St} {e : Ev} (h : s.step fsync e = some s') (hs : s'.stop = false) : s.stop = false := by
  cases e <;> simp only [St.step] at h
  all_goals
    repeat' split at h
    all_goals first
      | contradiction
      | (cases h; exact hs)
      | (cases h; exact absurd hs (by simp))
      | (cases h; revert hs; split <;> exact id)

theorem stop_mono_run {fsync : Bool} {s s' : St} {es : List Ev} (h : s.run fsync es = some s') (hs : s'.stop = false) : s.stop = false := by
  induction es generalizing s with
  | nil => injection h with h; subst h; exact hs
  | cons e es ih =>
    simp only [St.run, Option.bind_eq_some_iff] at h
    obtain ⟨s1, h1, h2⟩ := h
    exact stop_mono h1 (ih h2)

theorem inv_step {fsync : Bool} {base rs : List Rec} {s s' : St} {e : Ev} (hi : Inv fsync base rs s) (h : s.step fsync e = some s')
    (hs : s'.stop = false) : Inv fsync base (rs ++ appended [e]) s' := by
  have hs0 := stop_mono h hs
  obtain ⟨h1, h2, h3, h4, h5, h6, h7, h8⟩ := hi
  cases e with
  | append r =>
    simp only [St.step] at h
    split at h
    · contradiction
    injection h with h; subst h
    constructor
    · exact h1
    · simp [appended, h2]
    · simp only [h1, appended]
      rw [numbered_snoc, ← List.append_assoc base, ← h3, h2]
      simp
    · exact h4
    · exact h5
    · exact h6
    · exact h7
    · exact h8
  | take n =>
    simp only [appended, List.append_nil]
    simp only [St.step] at h
    split at h
    next r q hp hb hst hq =>
      injection h with h; subst h
      have ht := takeMore_append n q
      have h3' : s.file ++ ((r :: (takeMore n q).1) ++ (takeMore n q).2) = base ++ numbered rs := by
        rw [hb, hq] at h3
        simpa [ht] using h3
      constructor
      · exact h1
      · exact h2
      · exact h3'
      · exact h4
      · exact h5
      · rintro l ⟨⟩
        exact maxLsn_batch h3' h4 (by simp)
      · exact h7
      · exact h8
    · contradiction
  | write =>
    simp only [appended, List.append_nil]
    simp only [St.step] at h
    split at h
    next r l hb =>
      injection h with h; subst h
      have hm := h6 _ hb
      constructor
      · exact h1
      · exact h2
      · rw [hb] at h3; simpa using h3
      · simp only [List.length_append]; omega
      · simp only [List.length_append]; omega
      · rintro l' ⟨⟩
        simp only [List.length_append, List.length_cons, List.length_nil] at hm ⊢; omega
      · intro p hp
        obtain ⟨a, b⟩ := h7 p hp
        exact ⟨by simp only [List.length_append]; omega, b⟩
      · exact h8
    · contradiction
  | sync =>
    simp only [appended, List.append_nil]
    simp only [St.step] at h
    split at h
    next hb =>
      injection h with h; subst h
      have hm := h6 _ hb
      simp only [List.length_nil, Nat.add_zero] at hm
      constructor
      · simp [h1]
      · exact h2
      · rw [hb] at h3; simpa using h3
      · exact h4
      · dsimp only; split <;> omega
      · simp
      · rintro p ⟨⟩
        refine ⟨by dsimp only; omega, fun hf => ?_⟩
        rw [hf]; simp only [if_true]; omega
      · intro l hl
        obtain ⟨p, hp, hle⟩ := h8 l hl
        have := (h7 p hp).1
        exact ⟨_, rfl, by omega⟩
    · contradiction
  | ioError =>
    simp only [St.step] at h
    split at h
    · injection h with h; subst h; simp at hs
    · contradiction
  | drain =>
    simp only [St.step] at h
    rw [if_neg (by simp [hs0])] at h
    contradiction
  | ret =>
    simp only [appended, List.append_nil]
    simp only [St.step, hs0, Bool.false_or] at h
    split at h
    · contradiction
    next l hw =>
      split at h
      next hc =>
        injection h with h; subst h
        constructor
        · exact h1
        · exact h2
        · exact h3
        · exact h4
        · exact h5
        · exact h6
        · exact h7
        · intro l' hl'
          rcases List.mem_append.mp hl' with hl' | hl'
          · exact h8 l' hl'
          · rw [List.mem_singleton] at hl'; subst hl'
            cases hp : s.persistent with
            | none => rw [hp] at hc; simp [reached] at hc
            | some p => rw [hp] at hc; exact ⟨p, rfl, by simpa [reached] using hc⟩
      · contradiction
  | shutdown =>
    simp only [St.step] at h
    split at h
    · contradiction
    · injection h with h; subst h; simp at hs

theorem appended_append (es es' : List Ev) : appended (es ++ es') = appended es ++ appended es' := by
  induction es with
  | nil => rfl
  | cons e es ih => cases e <;> simp [appended, ih]

theorem inv_run {fsync : Bool} {base rs : List Rec} {s s' : St} {es : List Ev} (hi : Inv fsync base rs s) (h : s.run fsync es = some s')
    (hs : s'.stop = false) : Inv fsync base (rs ++ appended es) s' := by
  induction es generalizing s rs with
  | nil => injection h with h; subst h; simpa [appended] using hi
  | cons e es ih =>
    simp only [St.run, Option.bind_eq_some_iff] at h
    obtain ⟨s1, h1, h2⟩ := h
    have := ih (inv_step hi h1 (stop_mono_run h2 hs)) h2
    rwa [List.append_assoc, ← appended_append] at this

/-! ## C29 -/

/-- As long as the flush task has not been stopped, the log file, whatever the interleaving of appends and flushes, holds an initial part of
the appended records, the `i`-th of them with LSN `i`. -/
theorem C29_log_in_lsn_order_partial {fsync : Bool} {base : List Rec} {es : List Ev} {s : St} (h : (St.init base).run fsync es = some s)
    (hs : s.stop = false) : base <+: s.file ∧ s.file <+: base ++ numbered (appended es) := by
  have hi := inv_run (inv_init fsync base) h hs
  have hlog := hi.log
  simp only [List.nil_append] at hlog
  refine ⟨?_, _, hlog⟩
  have h1 : s.file <+: base ++ numbered (appended es) := ⟨_, hlog⟩
  exact List.prefix_of_prefix_length_le (List.prefix_append _ _) h1 hi.written

/-- As long as the flush task has not been stopped and syncing is on, whatever a crash now leaves of the log file, reading it gives an initial
part of the appended records, and that part contains every commit that has been acknowledged and all records before it. -/
theorem C29_acknowledged_commits_survive_partial {es : List Ev} {s : St} (h : (St.init []).run true es = some s) (hs : s.stop = false)
    (hr : ∀ r ∈ numbered (appended es), Readable r) {bytes : List Byte} (hb : Survives s bytes) :
    ∃ k, readLog bytes = (numbered (appended es)).take k ∧ ∀ l ∈ s.acked, l < k := by
  have hi := inv_run (inv_init true []) h hs
  have hlog := hi.log
  simp only [List.nil_append] at hlog
  have hpre : s.file = (numbered (appended es)).take s.file.length := by rw [← hlog, List.take_left' rfl]
  have hrf : ∀ r ∈ s.file, Readable r := fun r hm => by
    rw [hpre] at hm
    exact hr r (List.mem_of_mem_take hm)
  obtain ⟨n, hn, rfl⟩ := hb
  obtain ⟨k, hk1, hk2, hk3⟩ := C30_crash_at_any_byte hrf n
  have hle : s.synced ≤ s.file.length := hi.syncedLe
  have hks := hk2 s.synced hle hn
  refine ⟨min k s.file.length, ?_, fun l hl => ?_⟩
  · rw [hk1]
    conv => lhs; rw [hpre]
    rw [List.take_take]
  · obtain ⟨p, hp, hlp⟩ := hi.acked l hl
    obtain ⟨h1, h2⟩ := hi.persistent p hp
    have h2 := h2 rfl
    simp only [List.length_nil, Nat.zero_add] at h1 h2
    omega

/-- A transaction that begins, updates a row and commits. -/
def oneTxn : List Ev :=
  [.append (newTxnRec 7 (2 ^ 64 - 1) .begin), .append (newUpdateRec 7 0 ⟨3, 1⟩ [intV 10] [intV 20]), .append (newTxnRec 7 1 .commit)]

/-- The flush task first flushes the first record, then the other two, and the commit is acknowledged. -/
def oneTxnFlushed : List Ev := oneTxn ++ [.take 0, .write, .sync, .take 5, .write, .write, .sync, .ret]

/-- The hypotheses are met by that history. -/
example : ∃ s, (St.init []).run true oneTxnFlushed = some s ∧ s.stop = false ∧ s.acked = [2] ∧
    (∀ r ∈ numbered (appended oneTxnFlushed), Readable r) :=
  ⟨_, rfl, rfl, rfl, sample_readable⟩

/-- Commits return although their records are not on disk: after a write error the flush task stops, and the waiting commit returns as if
all were well. -/
theorem C29_commit_returns_after_write_error_fails :
    ∃ s, (St.init []).run true (oneTxn ++ [.take 5, .write, .ioError, .ret]) = some s ∧ s.acked = [2] ∧
      s.file.map Rec.view = [(0, 7, .begin)] := ⟨_, rfl, rfl, rfl⟩

/-- After a write error the final flush writes the records that came later, so the log has a hole, and the persistent LSN is beyond it. -/
theorem C29_hole_after_write_error_fails :
    ∃ s, (St.init []).run true ([.append (newTxnRec 7 (2 ^ 64 - 1) .begin), .take 5, .append (newTxnRec 8 (2 ^ 64 - 1) .begin), .ioError,
        .drain, .write, .sync]) = some s ∧ s.persistent = some 1 ∧ s.file.map Rec.view = [(1, 8, .begin)] := ⟨_, rfl, rfl, rfl⟩

/-- Records appended once the flush task has ended get an LSN and are dropped, and a commit among them is acknowledged. -/
theorem C29_commit_after_shutdown_fails :
    ∃ s, (St.init []).run true ([.shutdown, .drain] ++ oneTxn ++ [.ret]) = some s ∧ s.acked = [2] ∧ s.file.length = 0 := ⟨_, rfl, rfl, rfl⟩

/-- After a restart, numbering starts at zero again: the log holds two records with the same LSN. -/
theorem C29_lsns_repeat_after_restart_fails :
    ∃ s, (St.init sample).run true oneTxnFlushed = some s ∧ s.file.map (·.lsn) = [0, 1, 2, 0, 1, 2] := ⟨_, rfl, rfl⟩

/-- Recovery declares the next LSN persistent, so a commit record that gets that LSN is acknowledged before it is written. -/
theorem C29_commit_acknowledged_early_after_recovery_fails :
    ∃ s, (St.init []).afterRecovery.run true [.append (newTxnRec 7 (2 ^ 64 - 1) .commit), .ret] = some s ∧ s.acked = [0] ∧
      s.file.length = 0 ∧ s.stop = false := ⟨_, rfl, rfl, rfl, rfl⟩

/-- With syncing turned off, an acknowledged commit can be lost. -/
theorem C29_no_sync_fails :
    ∃ s, (St.init []).run false oneTxnFlushed = some s ∧ s.acked = [2] ∧ Survives s [] := ⟨_, rfl, rfl, 0, Nat.le_refl _, rfl⟩

end Verif.Wal

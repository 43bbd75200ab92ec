import Verif.Metrics.Lemmas

/-!
# C150: the disk metrics count what happened, under every schedule
-/

namespace Verif.Metrics

open Spec

/-- C150 (counters): however the threads interleave, when all calls have returned every counter has grown by exactly what the calls
should add to it (and wraps around at 2^64). -/
theorem C150_counters {s : Live} {progs : List (List Call)} {sched : List Nat} (hd : ((World.start s progs).run sched).Done)
    (c : Ctr) (hs : s.ctr c < 2 ^ 64) : ((World.start s progs).run sched).live.ctr c = (s.ctr c + total c progs) % 2 ^ 64 := by
  obtain ⟨h1, h2⟩ := run_ctr c sched (World.start s progs) hs
  rw [pending_done c _ hd, pending_start, Nat.add_zero, Nat.mod_eq_of_lt h2] at h1
  exact h1

/-- Two threads, one of which reads two pages while the other writes one and misses the cache. -/
def exProgs : List (List Call) := [[.read 5 4096 true, .read 20000 4096 false], [.write 9 4096, .cache "hot" true, .cache "all" false]]

/-- A schedule that mixes them. -/
def exSched : List Nat := (List.range 60).map fun i => i % 2

instance : Decidable (World.Done w) := inferInstanceAs (Decidable (∀ t ∈ w.threads, t.todo = []))

example : ((World.start Live.new exProgs).run exSched).Done ∧ Live.new.ctr .ioCount < 2 ^ 64
    ∧ ((World.start Live.new exProgs).run exSched).live.ctr .ioCount = 3
    ∧ ((World.start Live.new exProgs).run exSched).live.ctr (.bucket 0) = 2 := by decide +kernel

theorem cache_sum : ∀ cs : List Call, (cs.map (amount .hits)).sum = (cs.map (amount .hot)).sum + (cs.map (amount .warm)).sum + (cs.map (amount .cold)).sum
  | [] => rfl
  | x :: cs => by
    have := cache_sum cs
    have h : amount .hits x = amount .hot x + amount .warm x + amount .cold x := by
      cases x with
      | cache lv hit =>
        cases hit <;> simp only [amount]
        · simp
        · by_cases h1 : lv = "hot"
          · subst h1; decide
          · by_cases h2 : lv = "warm"
            · subst h2; decide
            · by_cases h3 : lv = "cold"
              · subst h3; decide
              · simp [h1, h2, h3]
      | _ => rfl
    simp only [List.map_cons, List.sum_cons, this, h]
    omega

/-- C150 (caches): under every schedule the hits are those of the three levels together. -/
theorem C150_cache {progs : List (List Call)} {sched : List Nat} (hd : ((World.start Live.new progs).run sched).Done)
    (hn : total .hits progs < 2 ^ 64) :
    let s := ((World.start Live.new progs).run sched).live
    s.ctr .hits = s.ctr .hot + s.ctr .warm + s.ctr .cold := by
  have h := fun c => C150_counters hd c (by simp [Live.new])
  have e := cache_sum progs.flatten
  dsimp only
  rw [h, h, h, h]
  simp only [Live.new, Nat.zero_add, total] at hn ⊢
  omega

example : ((World.start Live.new exProgs).run exSched).Done ∧ total .hits exProgs < 2 ^ 64 ∧ total .hits exProgs = 1 := by decide +kernel

/-- C150 (averages): under every schedule the average read latency of a snapshot is the time of all reads over their number, rounded
down, as long as both sums fit 64 bits; likewise for writes. -/
theorem C150_average {progs : List (List Call)} {sched : List Nat} (hd : ((World.start Live.new progs).run sched).Done)
    (h1 : total .readLat progs < 2 ^ 64) (h2 : total .readOps progs < 2 ^ 64) (h3 : total .writeLat progs < 2 ^ 64)
    (h4 : total .writeOps progs < 2 ^ 64) :
    readAverage ((World.start Live.new progs).run sched).live = total .readLat progs / total .readOps progs
    ∧ writeAverage ((World.start Live.new progs).run sched).live = total .writeLat progs / total .writeOps progs := by
  have h := fun c => C150_counters hd c (by simp [Live.new])
  have e : ∀ a n, average a n = a / n := by
    intro a n
    unfold average
    split
    · rfl
    · have : n = 0 := by omega
      subst this; simp
  simp only [readAverage, writeAverage, e, h]
  simp only [Live.new, Nat.zero_add]
  rw [Nat.mod_eq_of_lt h1, Nat.mod_eq_of_lt h2, Nat.mod_eq_of_lt h3, Nat.mod_eq_of_lt h4]
  exact ⟨rfl, rfl⟩

example : readAverage ((World.start Live.new exProgs).run exSched).live = 10002 := by decide +kernel

theorem buckets_filled {progs : List (List Call)} (hb : ∀ l ∈ lats progs, l < 2 ^ 64) (f : Nat → Nat)
    (hf : ∀ i, f i = total (.bucket i) progs) : Filled (lats progs) 0 (((List.range 11).map f).zip bounds) := by
  have hr : (List.range 11).map f = [f 0, f 1, f 2, f 3, f 4, f 5, f 6, f 7, f 8, f 9, f 10] := rfl
  have key : ∀ i lo b, (∀ l ∈ lats progs, InBucket i l ↔ lo ≤ l ∧ l ≤ b) →
      f i = (lats progs).countP (fun l => decide (lo ≤ l ∧ l ≤ b)) := by
    intro i lo b h
    rw [hf, total, bucket_total]
    exact List.countP_congr fun l hl => by simpa using h l hl
  rw [hr]
  simp only [bounds, List.zip_cons_cons, List.zip_nil_right, Filled, and_true]
  refine ⟨by omega, key 0 _ _ ?_, by omega, key 1 _ _ ?_, by omega, key 2 _ _ ?_, by omega, key 3 _ _ ?_, by omega, key 4 _ _ ?_,
    by omega, key 5 _ _ ?_, by omega, key 6 _ _ ?_, by omega, key 7 _ _ ?_, by omega, key 8 _ _ ?_, by omega, key 9 _ _ ?_,
    by simp [M], key 10 _ _ ?_⟩
  all_goals intro l hl; have := hb l hl; simp only [InBucket, M]; omega

/-- C150 (percentiles): when all calls have returned and none of them was a batch or a flush, the latency reported for a target of `t` of
the `n` samples is the least end of a bucket such that at least `t` latencies are no greater, under every schedule. Missing: batches and
flushes, of which it is false (`C150_batch_fails`). -/
theorem C150_percentile_partial {progs : List (List Call)} {sched : List Nat} (hd : ((World.start Live.new progs).run sched).Done)
    (hs : ∀ p ∈ progs, ∀ x ∈ p, Single x) (hb : ∀ l ∈ lats progs, l < 2 ^ 64) (hn : 0 < (lats progs).length) (hn2 : (lats progs).length < 2 ^ 64)
    (target : Nat → Nat) (ht : target (lats progs).length ≤ (lats progs).length) :
    let r := percentile target ((World.start Live.new progs).run sched).live
    let t := target (lats progs).length
    r ∈ bounds ∧ t ≤ (lats progs).countP (fun l => decide (l ≤ r))
      ∧ ∀ b ∈ bounds, b < r → (lats progs).countP (fun l => decide (l ≤ b)) < t := by
  have h := fun c => C150_counters hd c (by simp [Live.new])
  have hcount : total .ioCount progs = (lats progs).length := by
    refine count_total progs.flatten ?_
    intro x hx
    obtain ⟨p, hp, hxp⟩ := List.mem_flatten.1 hx
    exact hs p hp x hxp
  have hio : ((World.start Live.new progs).run sched).live.ctr .ioCount = (lats progs).length := by
    rw [h, hcount]; simp only [Live.new, Nat.zero_add]; exact Nat.mod_eq_of_lt hn2
  have hbk : ∀ i, ((World.start Live.new progs).run sched).live.ctr (.bucket i) = total (.bucket i) progs := by
    intro i
    rw [h]; simp only [Live.new, Nat.zero_add]
    refine Nat.mod_eq_of_lt ?_
    rw [total, bucket_total]
    exact Nat.lt_of_le_of_lt List.countP_le_length hn2
  have hz : ∀ f : Nat → Nat, (((List.range 11).map f).zip bounds).map (·.2) = bounds := fun f => rfl
  have hfill := buckets_filled hb _ hbk
  have hall : (lats progs).countP (fun l => decide (l ≤ M - 1)) = (lats progs).length := by
    rw [List.countP_eq_length]
    intro l hl
    have := hb l hl
    refine decide_eq_true ?_
    simp only [M]; omega
  obtain ⟨r, g1, g2, g3, g4⟩ := scan_spec (lats progs) (target (lats progs).length) _ 0 0 hfill (by simp) (Or.inr rfl)
    ⟨M - 1, by rw [hz]; simp [bounds], by rw [hall]; exact ht⟩
  have hr : percentile target ((World.start Live.new progs).run sched).live = r := by
    rw [percentile, hio, if_neg (by omega), g1]; rfl
  dsimp only
  rw [hr]
  rw [hz] at g2 g4
  exact ⟨g2, g3, g4⟩

/-- The target of the median. -/
def half (n : Nat) : Nat := (n + 1) / 2

example : ((World.start Live.new exProgs).run exSched).Done ∧ (∀ p ∈ exProgs, ∀ x ∈ p, Single x) ∧ (lats exProgs).length = 3
    ∧ half 3 ≤ 3 ∧ percentile half ((World.start Live.new exProgs).run exSched).live = 10000
    ∧ percentile id ((World.start Live.new exProgs).run exSched).live = 100000 := by
  refine ⟨by decide +kernel, ?_, by decide, by decide, by decide +kernel, by decide +kernel⟩
  simp [exProgs, Single]

/-- C150 is false of batches: a batch counts as operations but in no bucket, so that after one batch, however slow, every percentile is 0. -/
theorem C150_batch_fails {n : Nat} (hn : 0 < n ∧ n < 2 ^ 64) (lat bytes : Nat) {sched : List Nat}
    (hd : ((World.start Live.new [[.batchRead n lat bytes]]).run sched).Done) (target : Nat → Nat) (ht : 0 < target n) :
    percentile target ((World.start Live.new [[.batchRead n lat bytes]]).run sched).live = 0 := by
  have h := fun c => C150_counters hd c (by simp [Live.new])
  have hio : ((World.start Live.new [[.batchRead n lat bytes]]).run sched).live.ctr .ioCount = n := by
    rw [h]
    simp only [Live.new, total, List.flatten_cons, List.flatten_nil, List.append_nil, List.map_cons, List.map_nil, List.sum_cons, List.sum_nil, amount]
    omega
  have hbk : ∀ i, ((World.start Live.new [[.batchRead n lat bytes]]).run sched).live.ctr (.bucket i) = 0 := by
    intro i
    rw [h]
    simp [Live.new, total, amount]
  have hmax : ((World.start Live.new [[.batchRead n lat bytes]]).run sched).live.max = 0 := by
    refine run_max (fun m => m = 0) sched _ rfl ?_
    intro t ht l hl
    simp only [World.start, List.map_cons, List.map_nil, List.mem_singleton] at ht
    subst ht
    simp [stores_acts, latOf] at hl
  have hsc : ∀ (bs : List Nat) (zs : List Nat), (∀ z ∈ zs, z = 0) → scan (target n) 0 (zs.zip bs) = none := by
    intro bs
    induction bs with
    | nil => intro zs _; simp [scan]
    | cons b bs ih =>
      intro zs hz
      cases zs with
      | nil => rfl
      | cons z zs =>
        have e := hz z List.mem_cons_self
        subst e
        rw [List.zip_cons_cons, scan, if_neg (by omega)]
        exact ih zs fun x hx => hz x (List.mem_cons_of_mem _ hx)
  rw [percentile, hio, if_neg (by omega), hsc bounds _ ?_]
  · exact hmax
  · intro z hz
    obtain ⟨i, _, rfl⟩ := List.mem_map.1 hz
    exact hbk i

-- Eight pages in two seconds: the median is 0.
example : ((World.start Live.new [[.batchRead 8 2000000000 32768]]).run [0, 0, 0, 0, 0, 0]).Done ∧ 0 < half 8 := by decide +kernel

/-- C150 (extremes): when the calls of one thread have returned, the largest and the least latency are those of its reads and writes (0
and 2^64 - 1 when there was none). Missing: several threads, of which it is false (`C150_max_fails`). -/
theorem C150_extremes_partial {cs : List Call} {sched : List Nat} (hd : ((World.start Live.new [cs]).run sched).Done) :
    let s := ((World.start Live.new [cs]).run sched).live
    (∀ l ∈ lats [cs], l ≤ s.max) ∧ (s.max ∈ lats [cs] ∨ s.max = 0)
    ∧ (∀ l ∈ lats [cs], s.min ≤ l) ∧ (s.min ∈ lats [cs] ∨ s.min = 2 ^ 64 - 1) := by
  have e := run_one sched Live.new 0 (cs.flatMap acts) hd
  have e2 := execAll_calls cs Live.new 0
  have e3 : lats [cs] = cs.filterMap latOf := by simp [lats]
  have e4 : ((World.start Live.new [cs]).run sched).live = (execAll Live.new 0 (cs.flatMap acts)).1 := e
  dsimp only
  rw [e4, e2.1, e2.2, e3]
  obtain ⟨a1, a2, a3⟩ := foldl_max (cs.filterMap latOf) Live.new.max
  obtain ⟨b1, b2, b3⟩ := foldl_min (cs.filterMap latOf) Live.new.min
  exact ⟨a2, a3.symm, b2, b3.symm⟩

/-- C150 (extremes): with any threads and under every schedule, at every moment the largest latency is 0 or one that a call records. -/
theorem C150_max_recorded (progs : List (List Call)) (sched : List Nat) :
    ((World.start Live.new progs).run sched).live.max = 0 ∨ ((World.start Live.new progs).run sched).live.max ∈ lats progs := by
  refine run_max (fun m => m = 0 ∨ m ∈ lats progs) sched _ (Or.inl rfl) ?_
  intro t ht l hl
  obtain ⟨p, hp, rfl⟩ := List.mem_map.1 ht
  rw [stores_calls] at hl
  refine Or.inr ?_
  simp only [lats, List.mem_filterMap] at hl ⊢
  obtain ⟨x, hx, he⟩ := hl
  exact ⟨x, List.mem_flatten.2 ⟨p, hp, hx⟩, he⟩

example : ((World.start Live.new [[.read 5 1 true, .write 9 1, .flush 70 3]]).run (List.replicate 30 0)).Done
    ∧ ((World.start Live.new [[.read 5 1 true, .write 9 1, .flush 70 3]]).run (List.replicate 30 0)).live.max = 9 := by decide +kernel

/-- C150 is false of the largest latency with two threads: both look at it, then the slower one stores its 9 and the faster one its 5. -/
theorem C150_max_fails : ∃ sched, ((World.start Live.new [[.read 5 1 true], [.read 9 1 true]]).run sched).Done
    ∧ ((World.start Live.new [[.read 5 1 true], [.read 9 1 true]]).run sched).live.max = 5 :=
  ⟨List.replicate 6 0 ++ List.replicate 10 1 ++ List.replicate 4 0, by decide +kernel, by decide +kernel⟩

/-- C150 (reset): after a reset the counters of operations, bytes, errors and latencies count what happened since, under every schedule;
those of the caches go on counting. -/
theorem C150_reset {s : Live} (hs : ∀ c, s.ctr c < 2 ^ 64) {progs : List (List Call)} {sched : List Nat}
    (hd : ((World.start s.reset progs).run sched).Done) (c : Ctr) :
    (Resets c → ((World.start s.reset progs).run sched).live.ctr c = total c progs % 2 ^ 64)
    ∧ (¬ Resets c → ((World.start s.reset progs).run sched).live.ctr c = (s.ctr c + total c progs) % 2 ^ 64) := by
  have hlt : s.reset.ctr c < 2 ^ 64 := by
    have := hs c
    cases c <;> simp only [Live.reset] <;> first | exact this | decide
  have h := C150_counters hd c hlt
  rw [h]
  cases c <;> simp [Live.reset, Resets]

example : (∀ c, (World.start Live.new exProgs |>.run exSched).live.ctr c < 2 ^ 64)
    ∧ ((World.start (World.start Live.new exProgs |>.run exSched).live.reset exProgs).run exSched).Done
    ∧ ((World.start (World.start Live.new exProgs |>.run exSched).live.reset exProgs).run exSched).live.ctr .ioCount = 3 := by
  refine ⟨fun c => (run_ctr c exSched (World.start Live.new exProgs) (by simp [World.start, Live.new, M])).2, by decide +kernel, by decide +kernel⟩

/-- C150 is false of the rates after a reset: the bytes start again at 0 but the clock does not. One second after a reset at second `t`, of
`b` bytes written in that second `b / (t + 1)` are reported. -/
theorem C150_rate_fails (s : Live) (hs : ∀ c, s.ctr c < 2 ^ 64) (lat t : Nat) {b : Nat} (hb : b < 2 ^ 64) {sched : List Nat}
    (hd : ((World.start s.reset [[.write lat b]]).run sched).Done) :
    (rates ((World.start s.reset [[.write lat b]]).run sched).live (t + 1)).map (·.1) = some (b / (t + 1)) := by
  have h := (C150_reset hs hd .bytes).1 trivial
  have e : total .bytes [[.write lat b]] = b := by simp [total, amount]
  rw [e, Nat.mod_eq_of_lt hb] at h
  simp [rates, h]

/-! ### Health -/

/-- C150 (health): the score is between 30 and 100, and 100 exactly when an operation takes 10 ms or less on average, at least four of
five look-ups hit a cache (or there were none) and no error was counted. -/
theorem C150_health (s : Live) : 30 ≤ health s ∧ health s ≤ 100
    ∧ (health s = 100 ↔ (s.ctr .ioLat / s.ctr .ioCount ≤ 10000000 ∧ 4 * (s.ctr .hits + s.ctr .misses) ≤ 5 * s.ctr .hits ∧ s.ctr .errors = 0)) := by
  have e : average (s.ctr .ioLat) (s.ctr .ioCount) = s.ctr .ioLat / s.ctr .ioCount := by
    unfold average
    split
    · rfl
    · have : s.ctr .ioCount = 0 := by omega
      rw [this]; simp
  unfold health
  simp only [e]
  generalize s.ctr .ioLat / s.ctr .ioCount = a
  generalize s.ctr .hits = h
  generalize s.ctr .misses = m
  generalize s.ctr .errors = x
  have hmin : ∀ y, y ≤ 100 → Nat.min y 100 = y := fun y hy => Nat.min_eq_left hy
  repeat' split
  all_goals (rw [hmin _ (by omega)]; omega)

/-- C150 (health): more errors and slower operations never raise the score. -/
theorem C150_health_mono {s s' : Live} (ha : s.ctr .ioLat / s.ctr .ioCount ≤ s'.ctr .ioLat / s'.ctr .ioCount)
    (hh : s.ctr .hits = s'.ctr .hits) (hm : s.ctr .misses = s'.ctr .misses) (he : s.ctr .errors ≤ s'.ctr .errors) : health s' ≤ health s := by
  have e : ∀ s : Live, average (s.ctr .ioLat) (s.ctr .ioCount) = s.ctr .ioLat / s.ctr .ioCount := by
    intro s
    unfold average
    split
    · rfl
    · have : s.ctr .ioCount = 0 := by omega
      rw [this]; simp
  have hmin : ∀ y z, y ≤ z → Nat.min y 100 ≤ Nat.min z 100 := by
    intro y z h
    exact Nat.le_min.2 ⟨Nat.le_trans (Nat.min_le_left _ _) h, Nat.min_le_right _ _⟩
  unfold health
  simp only [e, ← hh, ← hm]
  generalize s.ctr .ioLat / s.ctr .ioCount = a at *
  generalize s'.ctr .ioLat / s'.ctr .ioCount = a' at *
  apply hmin
  have h1 : (if a' > 50000000 then 100 - 20 else if a' > 10000000 then 100 - 10 else 100)
      ≤ (if a > 50000000 then 100 - 20 else if a > 10000000 then 100 - 10 else 100) := by
    repeat' split
    all_goals omega
  generalize (if a' > 50000000 then 100 - 20 else if a' > 10000000 then 100 - 10 else 100) = p' at *
  generalize (if a > 50000000 then 100 - 20 else if a > 10000000 then 100 - 10 else 100) = p at *
  have h2 : (if s.ctr .hits + s.ctr .misses > 0 then
        (if 2 * s.ctr .hits < s.ctr .hits + s.ctr .misses then p' - 20 else if 5 * s.ctr .hits < 4 * (s.ctr .hits + s.ctr .misses) then p' - 10 else p') else p')
      ≤ (if s.ctr .hits + s.ctr .misses > 0 then
        (if 2 * s.ctr .hits < s.ctr .hits + s.ctr .misses then p - 20 else if 5 * s.ctr .hits < 4 * (s.ctr .hits + s.ctr .misses) then p - 10 else p) else p) := by
    split
    · split
      · omega
      · split <;> omega
    · exact h1
  revert h2
  generalize (if s.ctr .hits + s.ctr .misses > 0 then
        (if 2 * s.ctr .hits < s.ctr .hits + s.ctr .misses then p' - 20 else if 5 * s.ctr .hits < 4 * (s.ctr .hits + s.ctr .misses) then p' - 10 else p') else p') = q'
  generalize (if s.ctr .hits + s.ctr .misses > 0 then
        (if 2 * s.ctr .hits < s.ctr .hits + s.ctr .misses then p - 20 else if 5 * s.ctr .hits < 4 * (s.ctr .hits + s.ctr .misses) then p - 10 else p) else p) = q
  intro h2
  repeat' split
  all_goals omega

-- A new collector is in full health, and one slow operation with a hundred and one errors and only misses is at 30.
example : health Live.new = 100 := by decide
example : health ⟨fun c => match c with | .ioLat => 60000000 | .ioCount => 1 | .misses => 1 | .errors => 101 | _ => 0, 0, 0⟩ = 30 := by decide

/-- The calls of reads of pages that were not cached. -/
def uncached (rs : List (Nat × Nat)) : List Call := rs.flatMap fun r => readCalls r.1 r.2 .disk

/-- The calls of reads that failed. -/
def failed (rs : List (Nat × Nat)) : List Call := rs.flatMap fun r => readCalls r.1 r.2 .failed

theorem uncached_sum : ∀ rs : List (Nat × Nat), ((uncached rs).map (amount .errors)).sum = rs.length
    ∧ ((uncached rs).map (amount .misses)).sum = rs.length ∧ ((uncached rs).map (amount .hits)).sum = 0
  | [] => by simp [uncached]
  | r :: rs => by
    obtain ⟨h1, h2, h3⟩ := uncached_sum rs
    simp only [uncached, List.flatMap_cons, List.map_append, List.sum_append] at h1 h2 h3 ⊢
    rw [h1, h2, h3]
    simp [readCalls, amount]
    omega

theorem failed_sum : ∀ rs : List (Nat × Nat), ((failed rs).map (amount .errors)).sum = 0
  | [] => rfl
  | r :: rs => by
    have h := failed_sum rs
    simp only [failed, List.flatMap_cons, List.map_append, List.sum_append] at h ⊢
    rw [h]
    simp [readCalls, amount]

/-- C150 is false of the errors of reads: every page read from the disk without any error counts as one, so that more than a hundred such
reads make `health_check` report a sick disk, however fast they were. -/
theorem C150_errors_fails {rs : List (Nat × Nat)} (hn : 100 < rs.length ∧ rs.length < 2 ^ 64) {sched : List Nat}
    (hd : ((World.start Live.new [uncached rs]).run sched).Done) :
    ((World.start Live.new [uncached rs]).run sched).live.ctr .errors = rs.length
    ∧ healthCheck ((World.start Live.new [uncached rs]).run sched).live = false := by
  have h := fun c => C150_counters hd c (by simp [Live.new])
  obtain ⟨h1, h2, h3⟩ := uncached_sum rs
  have t : ∀ c, total c [uncached rs] = ((uncached rs).map (amount c)).sum := fun c => by simp [total]
  have e1 : ((World.start Live.new [uncached rs]).run sched).live.ctr .errors = rs.length := by
    rw [h, t, h1]; simp only [Live.new]; omega
  have e2 : ((World.start Live.new [uncached rs]).run sched).live.ctr .misses = rs.length := by
    rw [h, t, h2]; simp only [Live.new]; omega
  have e3 : ((World.start Live.new [uncached rs]).run sched).live.ctr .hits = 0 := by
    rw [h, t, h3]; simp [Live.new]
  refine ⟨e1, ?_⟩
  simp only [healthCheck, decide_eq_false_iff_not, health, e1, e2, e3, Nat.not_lt]
  refine Nat.le_trans (Nat.min_le_left _ _) ?_
  rw [if_pos (by omega : rs.length > 100), if_pos (by omega : 0 + rs.length > 0), if_pos (by omega : 2 * 0 < 0 + rs.length)]
  split
  · omega
  · split <;> omega

/-- A thread that runs alone and long enough is done. -/
theorem one_done : ∀ (as : List Act) (s : Live) (r : Nat), ((⟨s, [⟨r, as⟩]⟩ : World).run (List.replicate as.length 0)).Done
  | [], s, r => by simp [World.run, World.Done]
  | a :: as, s, r => one_done as (exec s r a).1 (exec s r a).2

-- A hundred and one reads of 1 µs.
example : ∃ sched, ((World.start Live.new [uncached (List.replicate 101 (1000, 4096))]).run sched).Done
    ∧ 100 < (List.replicate 101 (1000, 4096)).length := ⟨_, one_done _ _ _, by decide⟩

/-- C150 is false of the errors of reads the other way, too: a read that fails counts as none. -/
theorem C150_failed_fails {rs : List (Nat × Nat)} {sched : List Nat} (hd : ((World.start Live.new [failed rs]).run sched).Done) :
    ((World.start Live.new [failed rs]).run sched).live.ctr .errors = 0 := by
  have h := C150_counters hd .errors (by simp [Live.new])
  have t : total .errors [failed rs] = ((failed rs).map (amount .errors)).sum := by simp [total]
  rw [h, t, failed_sum]; simp [Live.new]

end Verif.Metrics

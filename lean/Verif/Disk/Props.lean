import Verif.Disk.Keep

/-!
# Properties C88-C92: the disk manager
-/

namespace Verif.Disk.Props

open Verif.Disk Verif.Disk.Spec

theorem calm_ok : calm.Ok := fun _ l => List.Perm.refl l

theorem holds_eq (f : File) (ws : List (Nat × Data)) (p : Nat) : holds f ws p = putAll f.get ws p := rfl

theorem flush_of_call {c : Cfg} {e : Env} {s : State} (h : (call c e s .flush).2 = .ok []) : flush c e s = ((call c e s .flush).1, .ok ()) := by
  have : (flush c e s).2 = .ok () := by
    cases hx : (flush c e s).2 with
    | ok u => rfl
    | _ => simp only [call, hx] at h; cases h
  rw [← this]; rfl

/-- The state after calls that all succeeded and a flush: page `p` of the file holds what was written last. -/
theorem flushed {c : Cfg} {e : Env} {f : File} {ops : List Op} (he : e.Ok) (hb : 0 < c.batch) (hr : Room c)
    (hok : AllOk ops (run c e (opened f) ops).2) (hf : (call c e (run c e (opened f) ops).1 .flush).2 = .ok []) :
    Moving (putAll f.get (writes c.size ops)) (fun q => q ∈ (writes c.size ops).map (·.1)) (call c e (run c e (opened f) ops).1 .flush).1 [] ∧
      (c.fsync ≠ .never → (call c e (run c e (opened f) ops).1 .flush).1.synced = (call c e (run c e (opened f) ops).1 .flush).1.file ∧
        ∀ p, (call c e (run c e (opened f) ops).1 .flush).1.unsynced p = []) := by
  obtain ⟨h0, h1, h2⟩ := inv_opened (c := c) hb f
  have h3 := (h0.run he hb hr h1 h2 hok).1
  have h4 := h3.flush he (flush_of_call hf)
  refine ⟨⟨h4.1.1, h4.1.2, h4.1.3, h4.1.4, h4.1.5, fun p hp => h4.1.6 p (.inl hp)⟩, h4.2⟩

/-! ## C88: a page reads as it was last written -/

/-- C88, the part that holds: without the cache and without work stealing, a page that was written, in a history in which every write succeeded, and then flushed reads as what was last
written to it, whatever other pages the calls since then wrote and whatever went wrong with those, if the read itself meets no I/O error. -/
theorem C88_after_flush_partial (c : Cfg) (e : Env) (f : File) (before after : List Op) (p : Nat) (he : e.Ok) (hc : c.cached = false) (hs : c.stealing = false) (hb : 0 < c.batch)
    (hr : Room c) (hok : AllOk before (run c e (opened f) before).2) (hf : (call c e (run c e (opened f) before).1 .flush).2 = .ok [])
    (hp : p ∈ (writes c.size before).map (·.1)) (hn : p ∉ (writes c.size after).map (·.1))
    (hio : e.io (run c e (call c e (run c e (opened f) before).1 .flush).1 after).1.time = true) :
    (call c e (run c e (call c e (run c e (opened f) before).1 .flush).1 after).1 (.read p)).2 = .ok [holds f (writes c.size before) p] := by
  obtain ⟨h1, _⟩ := flushed he hb hr hok hf
  have hv : (call c e (run c e (opened f) before).1 .flush).1.file.get p = holds f (writes c.size before) p := h1.val p
  have hpg : p < (call c e (run c e (opened f) before).1 .flush).1.file.pages := (h1.there p hp).elim (fun h => (nomatch h)) id
  have hbuf := h1.buf
  generalize (call c e (run c e (opened f) before).1 .flush).1 = s at *
  let P : Preds := ⟨fun q d => q = p → d = holds f (writes c.size before) p, fun _ _ => True, fun _ _ => True, p + 1, 0, fun _ _ _ => trivial, fun _ _ _ => trivial, Nat.zero_le _⟩
  have h : Cand P s :=
    ⟨fun q e => e ▸ hv, fun _ => trivial, fun _ _ _ => trivial, by rw [hbuf]; exact fun _ h => (nomatch h), fun _ _ _ => trivial, fun _ _ _ => trivial, fun _ _ _ => trivial, hpg, Nat.zero_le _⟩
  have h2 := h.run (ops := after) he fun x hx e => absurd (e ▸ List.mem_map_of_mem (f := (·.1)) hx) hn
  have h3 : (run c e s after).1.file.get p = holds f (writes c.size before) p := h2.file p rfl
  have h4 : p < (run c e s after).1.file.pages := h2.fn
  simp [call, read, hc, hs, hio, h4, h3, Out.map]

/-- A file of three pages of one byte each. -/
def tiny : File := ⟨3, fun _ => [0]⟩

/-- Pages of one byte, no cache, no work stealing. -/
def plain : Cfg := { default with size := 1, cached := false, stealing := false }

example : (call plain calm (run plain calm (call plain calm (run plain calm (opened tiny) [.write 1 [7], .write 2 [8], .write 1 [9]]).1 .flush).1 [.write 2 [5], .read 2]).1 (.read 1)).2
    = .ok [[9]] :=
  C88_after_flush_partial plain calm tiny [.write 1 [7], .write 2 [8], .write 1 [9]] [.write 2 [5], .read 2] 1 calm_ok rfl rfl (by decide) (by unfold Room; decide)
    (by unfold AllOk; decide +kernel) (by decide +kernel) (by decide) (by decide) rfl

/-- C88 fails: with the configuration the database runs with, a page that was read between two writes still reads as the first. The read copied it into the warm cache, the second write
goes to the cold one only, and reads ask the warm cache first. -/
theorem C88_promoted_fails (f : File) (p : Nat) (a b : Data) (ha : a.length = 4096) (hb : b.length = 4096) :
    (run default calm (opened f) [.write p a, .read p, .write p b, .read p]).2 = [.ok [], .ok [a], .ok [], .ok [a]] := by
  by_cases h : hash b = hash a <;>
  simp [run, call, write, read, bufferWrite, stage, shouldFlush, store, duplicate, lookup, access, evict, put, opened, default, calm, ha, hb, Out.map, done, flushIfDue, trigger, bufLen, State.tick, putBuf, h]

/-- C88 fails: a page overwritten with bytes that another page was written with still reads as before: the cache takes the new bytes for a duplicate and keeps the old ones. -/
theorem C88_duplicate_fails (f : File) (p q : Nat) (a b : Data) (hpq : p ≠ q) (ha : a.length = 4096) (hb : b.length = 4096) (hh : hash a ≠ hash b) :
    (run default calm (opened f) [.write q b, .write p a, .write p b, .read p]).2 = [.ok [], .ok [], .ok [], .ok [a]] := by
  have h1 := Ne.symm hpq
  have h2 := Ne.symm hh
  have h3 : (p == q) = false := by simpa using hpq
  simp [run, call, write, read, bufferWrite, stage, shouldFlush, store, duplicate, lookup, access, evict, put, opened, default, calm, ha, hb, Out.map, done, flushIfDue, trigger, bufLen, State.tick, putBuf, hpq, h1, hh,
    h2, h3, List.lookup]

/-- The hypotheses of `C88_duplicate_fails` are met: a page of zeros and a page of ones. -/
example : (List.replicate 4096 (0 : Fin 256)).length = 4096 ∧ (List.replicate 4096 (1 : Fin 256)).length = 4096 ∧ hash (List.replicate 4096 0) ≠ hash (List.replicate 4096 1) := by
  decide +kernel

/-- C88 fails: without the cache a page reads as what the file has, not as what waits in the write buffer. -/
theorem C88_buffered_fails (f : File) (p : Nat) (a : Data) (ha : a.length = 4096) (hp : p < f.pages) :
    (run { default with cached := false, stealing := false } calm (opened f) [.write p a, .read p]).2 = [.ok [], .ok [f.get p]] := by
  simp [run, call, write, read, bufferWrite, stage, shouldFlush, opened, default, calm, ha, Out.map, done, flushIfDue, trigger, bufLen, State.tick, putBuf, hp]

example : ((⟨1, fun _ => List.replicate 4096 0⟩ : File).get 0) ≠ List.replicate 4096 1 ∧ 0 < (⟨1, fun _ => List.replicate 4096 0⟩ : File).pages := by decide +kernel

/-! ## C89: what was written before a flush survives a crash -/

/-- C89, the part that holds: if every write succeeded, then a flush, then after whatever calls (that may fail at any I/O, as in a crash) and a crash each page holds what it held at the
flush, or something written to it since. The buffer must have room for the pages that gather in it and the fsync policy must not be `Never`. -/
theorem C89_survives_partial (c : Cfg) (e : Env) (f : File) (before after : List Op) (g : File) (p : Nat) (he : e.Ok) (hb : 0 < c.batch) (hr : Room c) (hy : c.fsync ≠ .never)
    (hok : AllOk before (run c e (opened f) before).2) (hf : (call c e (run c e (opened f) before).1 .flush).2 = .ok [])
    (hg : Survives (run c e (call c e (run c e (opened f) before).1 .flush).1 after).1 g) :
    (g.get p = holds f (writes c.size before) p ∨ (p, g.get p) ∈ writes c.size after) ∧ (p ∈ (writes c.size before).map (·.1) → p < g.pages) := by
  obtain ⟨h1, h2⟩ := flushed he hb hr hok hf
  obtain ⟨h2, h3⟩ := h2 hy
  generalize (call c e (run c e (opened f) before).1 .flush).1 = s at *
  have hv : ∀ q, s.file.get q = holds f (writes c.size before) q := h1.val
  let k : Nat := if p ∈ (writes c.size before).map (·.1) then p + 1 else 0
  have hk : k ≤ s.file.pages := by
    simp only [k]
    split
    · next hp => exact (h1.there p hp).elim (fun h => (nomatch h)) id
    · exact Nat.zero_le _
  let K : Nat → Data → Prop := fun q d => d = holds f (writes c.size before) q ∨ (q, d) ∈ writes c.size after
  let P : Preds := ⟨K, K, fun _ _ => True, k, k, fun _ _ h => h, fun _ _ _ => trivial, Nat.le_refl _⟩
  have h : Cand P s :=
    ⟨fun q => .inl (hv q), fun q => .inl (h2 ▸ hv q), fun q d hd => (nomatch (h3 q ▸ hd : d ∈ [])), by rw [h1.buf]; exact fun _ h => (nomatch h), fun _ _ _ => trivial, fun _ _ _ => trivial,
      fun _ _ _ => trivial, hk, by rw [h2]; exact hk⟩
  have h4 := h.run (c := c) (ops := after) he fun x hx => .inr hx
  constructor
  · rcases hg.2 p with h5 | h5
    · rw [h5]; exact h4.synced p
    · exact h4.unsynced p _ h5
  · intro hp
    have h5 : k ≤ (run c e s after).1.synced.pages := h4.sn
    have h6 : k = p + 1 := if_pos hp
    have := hg.1
    omega

example : Survives (run plain calm (call plain calm (run plain calm (opened tiny) [.write 1 [7], .write 2 [8], .write 1 [9]]).1 .flush).1 [.write 2 [5], .read 2]).1
    ⟨3, fun p => if p = 1 then [9] else if p = 2 then [8] else [0]⟩ := by
  refine ⟨by decide +kernel, fun p => ?_⟩
  match p with
  | 0 => left; decide +kernel
  | 1 => left; decide +kernel
  | 2 => left; decide +kernel
  | p + 3 => left; rfl

section faultless

variable {c : Cfg} {e : Env} {s : State} (hio : ∀ t, e.io t = true)
include hio

theorem sync_true : (sync e s).2 = true := by unfold sync; rw [if_pos (hio _)]

theorem durability_true : (durability c e s).2 = true := by
  unfold durability
  split
  · rfl
  · rfl
  · split
    · rfl
    · split
      · exact sync_true hio
      · rfl
    · exact sync_true hio
  · split
    · simp only [syncLog, hio]; exact sync_true hio
    · exact sync_true hio

theorem writeEach_true {l : List (Nat × Data)} : (writeEach e s l).2 = true := by
  induction l generalizing s with
  | nil => rfl
  | cons x l ih => simp only [writeEach, writeFile, hio]; exact ih

theorem writeOut_true {l : List (Nat × Data)} : (writeOut c e s l).2 = true := by
  have h1 := writeEach_true (s := s) (l := l) hio
  unfold writeOut
  split
  · next e => rw [e] at h1; cases h1
  · split
    · rfl
    · exact durability_true hio

theorem out_true {l : List (Nat × Data)} : (if l.isEmpty then (s, true) else writeOut c e s l).2 = true := by
  split
  · rfl
  · exact writeOut_true hio

theorem drain_some : ∃ l, (drain c e s).2 = some l := by
  have h1 := durability_true (c := c) (s := { s.tick with buf := [], bytes := 0, dirty := 0 }) hio
  unfold drain
  dsimp only
  split
  · exact ⟨_, rfl⟩
  · split
    · exact ⟨_, rfl⟩
    · next e => rw [e] at h1; cases h1

theorem flushWrites_true : (flushWrites c e s).2 = true := by
  obtain ⟨l, hl⟩ := drain_some (c := c) (s := s) hio
  unfold flushWrites
  split
  · next e => rw [e] at hl; cases hl
  next s1 l1 _ =>
  have h1 := out_true (c := c) (s := s1) (l := l1) hio
  split
  · next e => rw [e] at h1; cases h1
  · split
    · rfl
    · exact sync_true hio

theorem flushIfDue_true : (flushIfDue c e s).2 = true := by
  unfold flushIfDue
  split
  · exact flushWrites_true hio
  · rfl

theorem flush_true : (flush c e s).2 = .ok () := by
  have h1 := flushWrites_true (c := c) (s := s) hio
  unfold flush
  split
  · next e => rw [e] at h1; cases h1
  · split
    · simp [done, sync_true hio]
    · simp [done, sync_true hio]
    · rfl

end faultless

theorem run_append (c : Cfg) (e : Env) (s : State) (a b : List Op) :
    run c e s (a ++ b) = ((run c e (run c e s a).1 b).1, (run c e s a).2 ++ (run c e (run c e s a).1 b).2) := by
  induction a generalizing s with
  | nil => rfl
  | cons o a ih => simp only [List.cons_append, run, ih]

/-- Pages `0` to `n - 1` wait in the buffer, page `k` of the file is as it was. -/
structure Waiting (c : Cfg) (f : File) (k n : Nat) (s : State) : Prop where
  keys : s.buf.map (·.1) = List.range n
  bytes : s.bytes = c.size * n
  dirty : s.dirty = n
  old : s.file.get k = f.get k

theorem bufLen_absent {l : List (Nat × Data)} {p : Nat} (h : p ∉ l.map (·.1)) : bufLen l p = 0 ∧ l.lookup p = none := by
  have : l.lookup p = none := by
    cases hl : l.lookup p with
    | none => rfl
    | some x => exact absurd (lookup_isSome.mp (by rw [hl]; rfl)) h
  exact ⟨by rw [bufLen, this], this⟩

theorem waiting_step {c : Cfg} {f : File} {k n : Nat} {s : State} {d : Data} (hd : d.length = c.size) (h1 : c.size * k ≤ c.maxBytes) (h3 : k < c.threshold) (h4 : k < c.batch) (hn : n < k)
    (h : Waiting c f k n s) : (call c calm s (.write n d)).2 = .ok [] ∧ Waiting c f k (n + 1) (call c calm s (.write n d)).1 := by
  obtain ⟨hb, hl⟩ := bufLen_absent (l := s.buf) (p := n) (by rw [h.keys]; simp)
  have hmul : c.size * (n + 1) ≤ c.maxBytes := Nat.le_trans (Nat.mul_le_mul_left _ hn) h1
  have hfit : ¬ s.bytes + (d.length - bufLen s.buf n) > c.maxBytes := by rw [hb, h.bytes, hd]; rw [Nat.mul_succ] at hmul; omega
  have hst : bufferWrite c calm s n d = (State.tick { s with buf := putBuf s.buf n d, bytes := s.bytes + (d.length - bufLen s.buf n), dirty := s.dirty + 1 }, some []) := by
    have hx : ¬ s.dirty + 1 ≥ c.threshold := by rw [h.dirty]; omega
    unfold bufferWrite stage
    rw [if_neg hfit, hl]
    dsimp only [shouldFlush]
    simp [hx, calm]
  have hw : Waiting c f k (n + 1) (State.tick { s with buf := putBuf s.buf n d, bytes := s.bytes + (d.length - bufLen s.buf n), dirty := s.dirty + 1 }) := by
    refine ⟨?_, ?_, ?_, h.old⟩
    · show (putBuf s.buf n d).map (·.1) = _
      rw [putBuf_keys, h.keys, if_neg (by simp), List.range_succ]
    · show s.bytes + (d.length - bufLen s.buf n) = _
      rw [hb, h.bytes, hd, Nat.mul_succ]; omega
    · show s.dirty + 1 = _
      rw [h.dirty]
  generalize State.tick { s with buf := putBuf s.buf n d, bytes := s.bytes + (d.length - bufLen s.buf n), dirty := s.dirty + 1 } = s1 at *
  have hsame : Same s1 (if c.cached = true then store calm s1 n d else s1) := by
    split
    · exact same_store
    · exact .refl s1
  have hw2 : Waiting c f k (n + 1) (if c.cached = true then store calm s1 n d else s1) :=
    ⟨by rw [hsame.buf]; exact hw.1, by rw [hsame.bytes]; exact hw.2, by rw [hsame.dirty]; exact hw.3, by rw [hsame.file]; exact hw.4⟩
  simp only [call, write, hd, hst]
  generalize (if c.cached = true then store calm s1 n d else s1) = s2 at *
  have hdue : flushIfDue c calm s2 = (s2.tick, true) := by
    have hx : ¬ s2.dirty ≥ c.threshold := by rw [hw2.dirty]; omega
    have hy : ¬ s2.tick.dirty ≥ c.batch := by show ¬ s2.dirty ≥ _; rw [hw2.dirty]; omega
    unfold flushIfDue trigger shouldFlush
    simp only [hx, calm, decide_false, Bool.or_self, hy]
  simp only [ne_eq, not_true_eq_false, if_false, List.isEmpty_nil, if_true, hdue, done, Out.map, true_and]
  exact ⟨hw2.1, hw2.2, hw2.3, hw2.4⟩

/-- C89 fails: when the write buffer holds fewer pages than it takes to set off a flush, the first page that does not fit is lost, although its write and the flush behind it
report success. It is not in the file, and no later call brings it back. -/
theorem C89_full_fails (c : Cfg) (f : File) (d : Data) (k : Nat) (hd : d.length = c.size) (h1 : c.size * k ≤ c.maxBytes) (h2 : c.maxBytes < c.size * (k + 1)) (h3 : k < c.threshold)
    (h4 : k < c.batch) :
    (∀ a ∈ (run c calm (opened f) ((List.range (k + 1)).map (Op.write · d) ++ [.flush])).2, a = .ok []) ∧
      (run c calm (opened f) ((List.range (k + 1)).map (Op.write · d) ++ [.flush])).1.file.get k = f.get k := by
  have hio : ∀ t, calm.io t = true := fun _ => rfl
  have key : ∀ n ≤ k, (∀ a ∈ (run c calm (opened f) ((List.range n).map (Op.write · d))).2, a = .ok []) ∧ Waiting c f k n (run c calm (opened f) ((List.range n).map (Op.write · d))).1 := by
    intro n
    induction n with
    | zero => exact fun _ => ⟨fun a ha => (nomatch ha), ⟨rfl, rfl, rfl, rfl⟩⟩
    | succ n ih =>
      intro hn
      obtain ⟨i1, i2⟩ := ih (by omega)
      rw [List.range_succ, List.map_append, run_append]
      have hs := waiting_step hd h1 h3 h4 (by omega) i2
      simp only [List.map_cons, List.map_nil, run]
      refine ⟨fun a ha => ?_, hs.2⟩
      rcases List.mem_append.mp ha with ha | ha
      · exact i1 a ha
      · rw [List.mem_singleton.mp ha]; exact hs.1
  obtain ⟨k1, k2⟩ := key k (Nat.le_refl k)
  rw [List.range_succ, List.map_append, List.append_assoc, run_append]
  generalize (run c calm (opened f) ((List.range k).map (Op.write · d))).1 = s at *
  generalize (run c calm (opened f) ((List.range k).map (Op.write · d))).2 = as at *
  obtain ⟨hb, hl⟩ := bufLen_absent (l := s.buf) (p := k) (by rw [k2.keys]; simp)
  have hfull : s.bytes + (d.length - bufLen s.buf k) > c.maxBytes := by rw [hb, k2.bytes, hd]; rw [Nat.mul_succ] at h2; omega
  have hbw : bufferWrite c calm s k d = drain c calm s := by unfold bufferWrite stage; rw [if_pos hfull]
  let P : Preds := ⟨fun q x => q = k → x = f.get k, fun _ _ => True, fun _ _ => True, 0, 0, fun _ _ _ => trivial, fun _ _ _ => trivial, Nat.le_refl _⟩
  have hcand : Cand P s :=
    ⟨fun q e => e ▸ k2.old, fun _ => trivial, fun _ _ _ => trivial, fun x hx e => by
      have := List.mem_map_of_mem (f := (·.1)) hx
      rw [k2.keys, e] at this
      simp at this, fun _ _ _ => trivial, fun _ _ _ => trivial, fun _ _ _ => trivial, Nat.zero_le _, Nat.zero_le _⟩
  have hw : (call c calm s (.write k d)).2 = .ok [] ∧ Cand P (call c calm s (.write k d)).1 := by
    obtain ⟨l, hl⟩ := drain_some (c := c) (s := s) hio
    have hc := hcand.drain (c := c) (e := calm) calm_ok
    simp only [call, write, hd, hbw]
    generalize drain c calm s = r at *
    obtain ⟨s1, o⟩ := r
    dsimp only at hl hc
    subst hl
    dsimp only
    have hc1 : Cand P (if c.cached = true then store calm s1 k d else s1) := by
      split
      · exact hc.1.store trivial
      · exact hc.1
    have ho := out_true (c := c) (s := if c.cached = true then store calm s1 k d else s1) (l := l) hio
    have hc2 := hc1.out (c := c) (e := calm) (hc.2 l rfl)
    simp only [ne_eq, not_true_eq_false, if_false]
    split
    · next e => rw [e] at ho; cases ho
    · next s2 e =>
      rw [e] at hc2
      simp only [done, flushIfDue_true hio, if_true, Out.map, true_and]
      exact hc2.flushIfDue calm_ok
  simp only [List.map_cons, List.map_nil, List.cons_append, List.nil_append, run]
  constructor
  · intro a ha
    rcases List.mem_append.mp ha with ha | ha
    · exact k1 a ha
    · simp only [List.mem_cons, List.not_mem_nil, or_false] at ha
      rcases ha with ha | ha
      · rw [ha]; exact hw.1
      · rw [ha]; simp only [call, flush_true hio, Out.map]
  · exact (hw.2.flush calm_ok).file k rfl

/-- A megabyte of write buffer and a flush every 1000 pages. -/
example : (4096 * 256 ≤ 1048576 ∧ 1048576 < 4096 * (256 + 1)) ∧ 256 < 1000 := by decide

/-- C89 fails: after a flush that met an I/O error the pages it had drained are gone: the next flush reports success and the page is as before. -/
theorem C89_error_fails (f : File) (p : Nat) (d : Data) (hd : d.length = 4096) :
    (run default { calm with io := fun t => t ≠ 4 } (opened f) [.write p d, .flush, .flush]).2 = [.ok [], .err, .ok []] ∧
      (run default { calm with io := fun t => t ≠ 4 } (opened f) [.write p d, .flush, .flush]).1.file.get p = f.get p := by
  simp [run, call, write, bufferWrite, stage, shouldFlush, store, duplicate, access, evict, put, opened, default, calm, hd, Out.map, done, flushIfDue, trigger, bufLen, State.tick, putBuf,
    flush, flushWrites, drain, durability, sync, writeOut, writeEach, writeFile, File.get, File.put]

/-- C89 fails: with the policy `Never` a page that was flushed may be as before after a crash. -/
theorem C89_never_fails (f : File) (p : Nat) (d : Data) (hd : d.length = 4096) :
    (run { default with fsync := .never } calm (opened f) [.write p d, .flush]).2 = [.ok [], .ok []] ∧
      Survives (run { default with fsync := .never } calm (opened f) [.write p d, .flush]).1 f := by
  constructor
  · simp [run, call, write, bufferWrite, stage, shouldFlush, store, duplicate, access, evict, put, opened, default, calm, hd, Out.map, done, flushIfDue, trigger, bufLen, State.tick, putBuf,
      flush, flushWrites, drain, durability, writeOut, writeEach, writeFile]
  · refine ⟨?_, fun q => .inl ?_⟩ <;>
    simp [run, call, write, bufferWrite, stage, shouldFlush, store, duplicate, access, evict, put, opened, default, calm, hd, done, flushIfDue, trigger, bufLen, State.tick, putBuf,
      flush, flushWrites, drain, durability, writeOut, writeEach, writeFile]

/-! ## C90: every call comes back -/

theorem returned_map {α β : Type} {g : α → β} {o : Out α} (h : Returned o) : Returned (o.map g) := by cases o <;> first | trivial | exact h

theorem returned_done {r : State × Bool} : Returned (done r).2 := by
  obtain ⟨a, b⟩ := r
  cases b <;> trivial

theorem returned_write {c : Cfg} {e : Env} {s : State} {p : Nat} {d : Data} : Returned (write c e s p d).2 := by
  unfold write
  split
  · trivial
  split
  · trivial
  dsimp only
  split
  · trivial
  · exact returned_done

theorem returned_writeBatch {c : Cfg} {e : Env} {s : State} {l : List (Nat × Data)} (hb : 0 < c.batch) : Returned (writeBatch c e s l).2 := by
  unfold writeBatch
  rw [if_neg (by omega)]
  split
  · trivial
  · exact returned_done

theorem returned_flush {c : Cfg} {e : Env} {s : State} : Returned (flush c e s).2 := by
  unfold flush
  split
  · trivial
  · split
    · exact returned_done
    · exact returned_done
    · trivial

/-- C90, a part: writes, batch writes and flushes come back, in every state and whatever the configuration, if the batch size is not 0. -/
theorem C90_writes_partial (c : Cfg) (e : Env) (s : State) (o : Op) (hb : 0 < c.batch) (ho : reads o = false) (hn : o ≠ .flushAll) : Returned (call c e s o).2 := by
  cases o with
  | write p d => exact returned_map returned_write
  | writeBatch l => exact returned_map (returned_writeBatch hb)
  | flush => exact returned_map returned_flush
  | flushAll => exact absurd rfl hn
  | _ => cases ho

theorem returned_read {c : Cfg} {e : Env} {s : State} {p : Nat} (hs : c.stealing = false) : Returned (read c e s p).2 := by
  unfold read
  split
  · trivial
  · rw [hs]
    simp only [Bool.false_eq_true, if_false]
    split <;> trivial

theorem returned_readEach {c : Cfg} {e : Env} {s : State} {l : List Nat} (hs : c.stealing = false) : Returned (readEach c e s l).2 := by
  induction l generalizing s with
  | nil => trivial
  | cons p l ih =>
    have h1 := returned_read (e := e) (s := s) (p := p) hs
    simp only [readEach]
    split
    · next s' _ _ =>
      have h2 := ih (s := s')
      split
      · trivial
      · trivial
      · next e => rw [e] at h2; exact h2
      · next e => rw [e] at h2; exact h2
    · trivial
    · next e => rw [e] at h1; exact h1
    · next e => rw [e] at h1; exact h1

theorem returned_readChunks {c : Cfg} {e : Env} {s : State} {l : List (List Nat)} (hs : c.stealing = false) : Returned (readChunks c e s l).2 := by
  induction l generalizing s with
  | nil => trivial
  | cons k l ih =>
    have h1 := returned_readEach (e := e) (s := s) (l := k) hs
    simp only [readChunks, hs, Bool.false_eq_true, false_and, if_false]
    split
    · next s' _ _ =>
      have h2 := ih (s := s')
      split
      · trivial
      · trivial
      · next e => rw [e] at h2; exact h2
      · next e => rw [e] at h2; exact h2
    · trivial
    · next e => rw [e] at h1; exact h1
    · next e => rw [e] at h1; exact h1

/-- C90, a part: without work stealing every call comes back, in every state. -/
theorem C90_direct_partial (c : Cfg) (e : Env) (s : State) (o : Op) (hb : 0 < c.batch) (hs : c.stealing = false) : Returned (call c e s o).2 := by
  cases o with
  | write p d => exact returned_map returned_write
  | writeBatch l => exact returned_map (returned_writeBatch hb)
  | flush => exact returned_map returned_flush
  | read p => exact returned_map (returned_read hs)
  | readBatch l =>
    simp only [call, readBatch]
    rw [if_neg (by omega)]
    exact returned_readChunks hs
  | flushAll =>
    refine returned_map ?_
    unfold flushAll
    split
    · trivial
    · rw [hs]
      simp only [Bool.false_eq_true, false_and, if_false]
      split
      · trivial
      · exact returned_done

/-- C90, a part: the flush of a shutdown comes back, also with work stealing, after calls that all succeeded. -/
theorem C90_shutdown_partial (c : Cfg) (e : Env) (f : File) (ops : List Op) (he : e.Ok) (hb : 0 < c.batch) (hr : Room c) (hok : AllOk ops (run c e (opened f) ops).2) :
    Returned (call c e (run c e (opened f) ops).1 .flushAll).2 := by
  obtain ⟨h0, h1, h2⟩ := inv_opened (c := c) hb f
  obtain ⟨h3, _, h4⟩ := h0.run he hb hr h1 h2 hok
  generalize (run c e (opened f) ops).1 = s at *
  refine returned_map ?_
  unfold flushAll
  split
  · trivial
  next s1 l e1 =>
  have hl : l.length = s.buf.length := by
    have hp := he s.time s.buf
    unfold drain at e1
    dsimp only at e1
    split at e1
    · cases e1; exact hp.length_eq
    · split at e1
      · cases e1; exact hp.length_eq
      · cases e1
  rw [if_neg (by rw [hl, ← h3.dirty]; omega)]
  split
  · trivial
  · exact returned_done

example : Returned (call { default with size := 1 } calm (run { default with size := 1 } calm (opened tiny) [.write 0 [1], .writeBatch [(1, [2]), (2, [3])]]).1 .flushAll).2 :=
  C90_shutdown_partial { default with size := 1 } calm tiny [.write 0 [1], .writeBatch [(1, [2]), (2, [3])]] calm_ok (by decide) (by unfold Room; decide) (by unfold AllOk; decide +kernel)

/-- C90 fails: with work stealing, as the database runs, the first read of any page of a file just opened never comes back. -/
theorem C90_read_fails (c : Cfg) (e : Env) (f : File) (p : Nat) (hs : c.stealing = true) : (call c e (opened f) (.read p)).2 = .hang := by
  have : (lookup e (opened f) p).2 = none := rfl
  simp only [call, read]
  by_cases hc : c.cached = true
  · rw [if_pos hc]
    split
    · next e => rw [e] at this; cases this
    · simp [hs, Out.map]
  · rw [if_neg hc]
    simp [hs, Out.map]

example : default.stealing = true := rfl

/-- C90 fails: with work stealing a batch read of two pages never comes back, even if both are cached. -/
theorem C90_batch_read_fails (e : Env) (s : State) (p q : Nat) : (call default e s (.readBatch [p, q])).2 = .hang := by
  simp [call, readBatch, default, chunks, readChunks]

/-- C90 fails: after a batch write of 65 pages that a page of a wrong size follows, a shutdown never comes back. -/
theorem C90_shutdown_fails : (run default calm (opened empty) [.writeBatch ((List.range 65).map (fun i => (i, List.replicate 4096 0)) ++ [(65, [])]), .flushAll]).2 = [.err, .hang] := by
  decide +kernel

/-! ## C91: a read gives only what was written to that page -/

theorem cand_opened (f : File) (ws : List (Nat × Data)) :
    Cand ⟨fun q d => d = f.get q ∨ (q, d) ∈ ws, fun q d => d = f.get q ∨ (q, d) ∈ ws, fun q d => d = f.get q ∨ (q, d) ∈ ws, 0, 0, fun _ _ h => h, fun _ _ h => h, Nat.le_refl _⟩ (opened f) :=
  ⟨fun _ => .inl rfl, fun _ => .inl rfl, fun _ _ h => (nomatch h), fun _ h => (nomatch h), fun _ _ h => (nomatch h), fun _ _ h => (nomatch h), fun _ _ h => (nomatch h), Nat.zero_le _,
    Nat.zero_le _⟩

/-- C91: in every configuration, after any calls, with any I/O errors, evictions and flushes, a read gives what the file had at that page when it was opened, or something an earlier call
wrote to that very page. -/
theorem C91_read_integrity (c : Cfg) (e : Env) (f : File) (ops : List Op) (p : Nat) (d : Data) (he : e.Ok) (h : (call c e (run c e (opened f) ops).1 (.read p)).2 = .ok [d]) :
    d = f.get p ∨ (p, d) ∈ writes c.size ops := by
  have h1 := (cand_opened f (writes c.size ops)).run (c := c) (ops := ops) he fun w hw => .inr hw
  have h2 := (h1.call (o := .read p) he fun w hw => (nomatch hw)).2 _ h
  exact h2.2 (p, d) List.mem_cons_self

/-- C91 for batches: as many pages as asked for, each as in `C91_read_integrity`. -/
theorem C91_batch_integrity (c : Cfg) (e : Env) (f : File) (ops : List Op) (ps : List Nat) (ds : List Data) (he : e.Ok)
    (h : (call c e (run c e (opened f) ops).1 (.readBatch ps)).2 = .ok ds) :
    ds.length = ps.length ∧ ∀ x ∈ ps.zip ds, x.2 = f.get x.1 ∨ x ∈ writes c.size ops := by
  have h1 := (cand_opened f (writes c.size ops)).run (c := c) (ops := ops) he fun w hw => .inr hw
  exact (h1.call (o := .readBatch ps) he fun w hw => (nomatch hw)).2 _ h

/-- The file after a crash holds only such contents too. -/
theorem C91_crash_integrity (c : Cfg) (e : Env) (f g : File) (ops : List Op) (p : Nat) (he : e.Ok) (h : Survives (run c e (opened f) ops).1 g) :
    g.get p = f.get p ∨ (p, g.get p) ∈ writes c.size ops := by
  have h1 := (cand_opened f (writes c.size ops)).run (c := c) (ops := ops) he fun w hw => .inr hw
  rcases h.2 p with h2 | h2
  · rw [h2]; exact h1.synced p
  · exact h1.unsynced p _ h2

example : (call plain calm (run plain calm (opened tiny) [.write 1 [7], .flush, .write 1 [9]]).1 (.read 1)).2 = .ok [[7]] := by decide +kernel

/-! ## C92: a batch read is the reads of its pages -/

theorem readEach_run {c : Cfg} {e : Env} {s : State} {l : List Nat} :
    (∀ ds, (readEach c e s l).2 = .ok ds → run c e s (l.map .read) = ((readEach c e s l).1, ds.map fun d => .ok [d])) ∧
      (∀ ds : List Data, (run c e s (l.map .read)).2 = (ds.map fun d => .ok [d]) → (readEach c e s l).2 = .ok ds) := by
  induction l generalizing s with
  | nil =>
    refine ⟨fun ds h => by cases h; rfl, fun ds h => ?_⟩
    cases ds with
    | nil => rfl
    | cons d ds => cases h
  | cons p l ih =>
    simp only [readEach, List.map_cons, run, call]
    cases hr : read c e s p with
    | mk s1 o =>
      cases o with
      | ok d =>
        obtain ⟨i1, i2⟩ := ih (s := s1)
        dsimp only
        cases hq : readEach c e s1 l with
        | mk s2 q =>
          rw [hq] at i1 i2
          constructor
          · intro ds h
            cases q with
            | ok es =>
              cases h
              rw [i1 es rfl]
              rfl
            | _ => cases h
          · intro ds h
            cases ds with
            | nil => cases h
            | cons x ds =>
              simp only [Out.map, List.map_cons, List.cons.injEq, Out.ok.injEq, and_true] at h
              have h3 := i2 ds h.2
              dsimp only at h3
              subst h3
              rw [h.1]
      | _ => exact ⟨fun ds h => (nomatch h), fun ds h => by cases ds <;> cases h⟩

theorem readChunks_each {c : Cfg} {e : Env} {s : State} {ks : List (List Nat)} (hs : c.stealing = false) : readChunks c e s ks = readEach c e s ks.flatten := by
  have hap : ∀ (a b : List Nat) (s : State), readEach c e s (a ++ b) = match readEach c e s a with
      | (s, .ok ds) => match readEach c e s b with
        | (s, .ok es) => (s, .ok (ds ++ es))
        | (s, .err) => (s, .err)
        | (s, .hang) => (s, .hang)
        | (s, .panic) => (s, .panic)
      | (s, .err) => (s, .err)
      | (s, .hang) => (s, .hang)
      | (s, .panic) => (s, .panic) := by
    intro a b
    induction a with
    | nil =>
      intro s
      simp only [List.nil_append, readEach]
      cases readEach c e s b with
      | mk s' o => cases o <;> rfl
    | cons p a ih =>
      intro s
      simp only [List.cons_append, readEach]
      cases read c e s p with
      | mk s1 o =>
        cases o with
        | ok d =>
          dsimp only
          rw [ih]
          cases readEach c e s1 a with
          | mk s2 q =>
            cases q with
            | ok ds =>
              dsimp only
              cases readEach c e s2 b with
              | mk s3 r => cases r <;> rfl
            | _ => rfl
        | _ => rfl
  induction ks generalizing s with
  | nil => rfl
  | cons k ks ih =>
    simp only [readChunks, hs, Bool.false_eq_true, false_and, if_false, List.flatten_cons]
    rw [hap]
    cases readEach c e s k with
    | mk s1 o =>
      cases o with
      | ok ds => dsimp only; rw [ih]; cases readEach c e s1 ks.flatten with | mk s2 q => cases q <;> rfl
      | _ => rfl

/-- C92, the part that holds: without work stealing and with a batch size that is not 0, a batch read succeeds exactly when reading its pages one after another does, gives the same pages
in the same order and leaves the manager in the same state. -/
theorem C92_batch_is_reads_partial (c : Cfg) (e : Env) (s : State) (ps : List Nat) (ds : List Data) (hb : 0 < c.batch) (hs : c.stealing = false) :
    ((call c e s (.readBatch ps)).2 = .ok ds ↔ (run c e s (ps.map .read)).2 = ds.map fun d => .ok [d]) ∧
      ((call c e s (.readBatch ps)).2 = .ok ds → (call c e s (.readBatch ps)).1 = (run c e s (ps.map .read)).1) := by
  simp only [call, readBatch]
  rw [if_neg (by omega), readChunks_each hs, chunks_flatten hb (Nat.le_refl _)]
  obtain ⟨h1, h2⟩ := readEach_run (c := c) (e := e) (s := s) (l := ps)
  exact ⟨⟨fun h => by rw [h1 ds h], h2 ds⟩, fun h => by rw [h1 ds h]⟩

example : (call plain calm (run plain calm (opened tiny) [.write 1 [7], .flush]).1 (.readBatch [0, 1, 1])).2 = .ok [[0], [7], [7]] := by decide +kernel

/-- C92 fails: with a batch size of 0 every batch read panics, also where the single reads succeed. -/
theorem C92_zero_fails (c : Cfg) (e : Env) (s : State) (ps : List Nat) (hb : c.batch = 0) : (call c e s (.readBatch ps)).2 = .panic := by
  simp [call, readBatch, hb]

/-- C92 fails: with work stealing two pages that read one by one (both are cached) do not come back from a batch read. -/
theorem C92_stealing_fails (a b : Data) (f : File) (ha : a.length = 4096) (hb : b.length = 4096) (hh : hash a ≠ hash b) :
    (run default calm (opened f) [.write 0 a, .write 1 b, .read 0, .read 1, .readBatch [0, 1]]).2 = [.ok [], .ok [], .ok [a], .ok [b], .hang] := by
  have h2 := Ne.symm hh
  simp [run, call, write, read, bufferWrite, stage, shouldFlush, store, duplicate, lookup, access, evict, put, opened, default, calm, ha, hb, Out.map, done, flushIfDue, trigger, bufLen, State.tick, putBuf, h2,
    List.lookup, readBatch, chunks, readChunks]

end Verif.Disk.Props

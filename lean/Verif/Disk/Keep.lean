import Verif.Disk.Cand

/-!
# Nothing written is lost while every call succeeds
-/

namespace Verif.Disk

/-- File and write buffer are the same. -/
structure Same (s s' : State) : Prop where
  file : s'.file = s.file
  buf : s'.buf = s.buf
  bytes : s'.bytes = s.bytes
  dirty : s'.dirty = s.dirty

variable {c : Cfg} {e : Env} {s s' : State}

theorem Same.refl (s : State) : Same s s := ⟨rfl, rfl, rfl, rfl⟩

theorem Same.trans {a b d : State} (h : Same a b) (h' : Same b d) : Same a d :=
  ⟨h'.file.trans h.file, h'.buf.trans h.buf, h'.bytes.trans h.bytes, h'.dirty.trans h.dirty⟩

theorem same_tick : Same s s.tick := ⟨rfl, rfl, rfl, rfl⟩

theorem same_sync : Same s (sync e s).1 := by
  unfold sync
  split <;> exact ⟨rfl, rfl, rfl, rfl⟩

theorem same_evict : Same s (evict e s) := ⟨rfl, rfl, rfl, rfl⟩

theorem same_lookup {p : Nat} : Same s (lookup e s p).1 := by
  unfold lookup
  dsimp only
  split
  · exact ⟨rfl, rfl, rfl, rfl⟩
  split
  · exact ⟨rfl, rfl, rfl, rfl⟩
  split <;> exact ⟨rfl, rfl, rfl, rfl⟩

theorem same_store {p : Nat} {d : Data} : Same s (store e s p d) := by
  unfold store
  split
  · exact same_tick
  split
  · exact same_tick
  dsimp only
  split
  · exact ⟨rfl, rfl, rfl, rfl⟩
  split <;> exact ⟨rfl, rfl, rfl, rfl⟩

theorem same_durability : Same s (durability c e s).1 := by
  unfold durability
  split
  · exact .refl s
  · exact .refl s
  · split
    · exact .refl s
    · split
      · exact same_tick.trans same_sync
      · exact same_tick
    · exact same_sync
  · split
    · simp only [syncLog]
      split
      · next e => have e1 := congrArg Prod.fst e; subst e1; exact same_tick.trans same_sync
      · next e => have e1 := congrArg Prod.fst e; subst e1; exact same_tick
    · exact same_sync

theorem same_read {p : Nat} : Same s (read c e s p).1 := by
  unfold read
  have h1 : Same s (if c.cached = true then lookup e s p else (s, none)).1 := by
    split
    · exact same_lookup
    · exact .refl s
  split
  · next e => rw [e] at h1; exact h1
  next s' e' =>
  rw [e'] at h1
  split
  · exact h1
  split
  · dsimp only
    split
    · exact h1.trans (same_tick.trans same_store)
    · exact h1.trans same_tick
  · exact h1.trans same_tick

theorem same_readEach {l : List Nat} : Same s (readEach c e s l).1 := by
  induction l generalizing s with
  | nil => exact .refl s
  | cons p l ih =>
    have h1 := same_read (c := c) (e := e) (s := s) (p := p)
    simp only [readEach]
    split
    · next s' d e' =>
      rw [e'] at h1
      have h2 := h1.trans ih
      split
      all_goals next e'' => rw [e''] at h2; exact h2
    all_goals next e' => rw [e'] at h1; exact h1

theorem same_readChunks {l : List (List Nat)} : Same s (readChunks c e s l).1 := by
  induction l generalizing s with
  | nil => exact .refl s
  | cons p l ih =>
    have h1 := same_readEach (c := c) (e := e) (s := s) (l := p)
    simp only [readChunks]
    split
    · exact .refl s
    split
    · next s' d e' =>
      rw [e'] at h1
      have h2 := h1.trans ih
      split
      all_goals next e'' => rw [e''] at h2; exact h2
    all_goals next e' => rw [e'] at h1; exact h1

theorem same_call {o : Op} (h : Spec.reads o = true) : Same s (call c e s o).1 := by
  cases o with
  | read p => exact same_read
  | readBatch l =>
    simp only [call, readBatch]
    split
    · exact .refl s
    · exact same_readChunks
  | _ => cases h

/-! ## Lists with distinct keys -/

theorem lookup_isSome {l : List (Nat × Data)} {p : Nat} : (l.lookup p).isSome = true ↔ p ∈ l.map (·.1) := by
  induction l with
  | nil => simp
  | cons x l ih =>
    obtain ⟨q, d⟩ := x
    rw [List.lookup_cons]
    by_cases h : p = q
    · subst h; simp
    · rw [show (p == q) = false from by simpa using h]
      simp only [List.map_cons, List.mem_cons, h, false_or]
      exact ih

theorem lookup_mem {l : List (Nat × Data)} (h : (l.map (·.1)).Nodup) {p : Nat} {d : Data} : l.lookup p = some d ↔ (p, d) ∈ l := by
  induction l with
  | nil => simp
  | cons x l ih =>
    obtain ⟨q, z⟩ := x
    rw [List.map_cons, List.nodup_cons] at h
    rw [List.lookup_cons]
    by_cases hq : p = q
    · subst hq
      simp only [beq_self_eq_true, Option.some.injEq, List.mem_cons, Prod.mk.injEq, true_and]
      constructor
      · exact fun e => .inl e.symm
      · rintro (e | e)
        · exact e.symm
        · exact absurd (List.mem_map_of_mem (f := (·.1)) e) h.1
    · rw [show (p == q) = false from by simpa using hq]
      simp only [List.mem_cons, Prod.mk.injEq, hq, false_and, false_or]
      exact ih h.2

theorem lookup_perm {l m : List (Nat × Data)} (hp : l.Perm m) (h : (m.map (·.1)).Nodup) (p : Nat) : l.lookup p = m.lookup p := by
  have hl : (l.map (·.1)).Nodup := (hp.map _).nodup_iff.mpr h
  apply Option.ext
  intro d
  rw [lookup_mem hl, lookup_mem h, hp.mem_iff]

theorem putBuf_lookup {l : List (Nat × Data)} {p : Nat} {d : Data} (q : Nat) : (putBuf l p d).lookup q = if q = p then some d else l.lookup q := by
  induction l with
  | nil =>
    simp only [putBuf, List.lookup_cons, List.lookup_nil]
    split
    · next h => rw [if_pos (by simpa using h)]
    · next h => rw [if_neg (by simpa using h)]
  | cons x l ih =>
    obtain ⟨r, z⟩ := x
    simp only [putBuf]
    split
    · next h =>
      subst h
      rw [List.lookup_cons, List.lookup_cons]
      by_cases hq : q = r
      · simp [hq]
      · rw [show (q == r) = false from by simpa using hq, if_neg hq]
    · next h =>
      rw [List.lookup_cons, List.lookup_cons, ih]
      by_cases hq : q = r
      · subst hq; simp [h]
      · rw [show (q == r) = false from by simpa using hq]

theorem putBuf_keys {l : List (Nat × Data)} {p : Nat} {d : Data} : (putBuf l p d).map (·.1) = if p ∈ l.map (·.1) then l.map (·.1) else l.map (·.1) ++ [p] := by
  induction l with
  | nil => rfl
  | cons x l ih =>
    obtain ⟨r, z⟩ := x
    simp only [putBuf]
    by_cases h : r = p
    · simp [h]
    · rw [if_neg h, List.map_cons, ih, List.map_cons]
      by_cases hm : p ∈ l.map (·.1)
      · rw [if_pos hm, if_pos (List.mem_cons_of_mem _ hm)]
      · rw [if_neg hm, if_neg (by rw [List.mem_cons]; exact fun h' => h'.elim (fun e => h e.symm) hm)]
        rfl

/-! ## The invariant -/

theorem done_ok {r : State × Bool} (h : done r = (s', .ok ())) : r = (s', true) := by
  obtain ⟨a, b⟩ := r
  cases b <;> cases h
  rfl

/-- Page `p` holds `v p`, in the buffer or in the file, and the pages of `w` are there. -/
structure Inv (c : Cfg) (v : Nat → Data) (w : Nat → Prop) (s : State) : Prop where
  nodup : (s.buf.map (·.1)).Nodup
  len : ∀ x ∈ s.buf, x.2.length = c.size
  bytes : s.bytes = c.size * s.buf.length
  dirty : s.dirty = s.buf.length
  val : ∀ p, (s.buf.lookup p).getD (s.file.get p) = v p
  there : ∀ p, w p → p ∈ s.buf.map (·.1) ∨ p < s.file.pages

/-- The buffer is below the flush threshold. -/
def Low (c : Cfg) (s : State) : Prop := s.dirty < c.threshold ∨ s.dirty = 0

/-- The pages of `l` are on their way from the empty buffer to the file. -/
structure Moving (v : Nat → Data) (w : Nat → Prop) (s : State) (l : List (Nat × Data)) : Prop where
  nodup : (l.map (·.1)).Nodup
  buf : s.buf = []
  bytes : s.bytes = 0
  dirty : s.dirty = 0
  val : ∀ p, (l.lookup p).getD (s.file.get p) = v p
  there : ∀ p, w p → p ∈ l.map (·.1) ∨ p < s.file.pages

variable {v : Nat → Data} {w : Nat → Prop}

theorem Inv.same (h : Inv c v w s) (hs : Same s s') : Inv c v w s' := by
  obtain ⟨h1, h2, h3, h4⟩ := hs
  exact ⟨h2 ▸ h.1, h2 ▸ h.2, by rw [h3, h2]; exact h.3, by rw [h4, h2]; exact h.4, by rw [h1, h2]; exact h.5, by rw [h1, h2]; exact h.6⟩

theorem Low.same (h : Low c s) (hs : Same s s') : Low c s' := by unfold Low; rw [hs.dirty]; exact h

theorem Moving.same {l : List (Nat × Data)} (h : Moving v w s l) (hs : Same s s') : Moving v w s' l := by
  obtain ⟨h1, h2, h3, h4⟩ := hs
  exact ⟨h.1, by rw [h2]; exact h.2, by rw [h3]; exact h.3, by rw [h4]; exact h.4, by rw [h1]; exact h.5, by rw [h1]; exact h.6⟩

theorem Moving.inv (h : Moving v w s []) : Inv c v w s ∧ Low c s :=
  ⟨⟨by rw [h.buf]; exact List.nodup_nil, by rw [h.buf]; exact fun x hx => (nomatch hx), by rw [h.buf, h.bytes]; rfl, by rw [h.buf, h.dirty]; rfl,
    by rw [h.buf]; exact h.val, by rw [h.buf]; exact h.there⟩, .inr h.dirty⟩

theorem Inv.drain {l : List (Nat × Data)} (he : e.Ok) (h : Inv c v w s) (hd : drain c e s = (s', some l)) : Moving v w s' l := by
  have hp := he s.time s.buf
  have h0 : Moving v w { s.tick with buf := [], bytes := 0, dirty := 0 } (e.order s.time s.buf) := by
    refine ⟨(hp.map _).nodup_iff.mpr h.nodup, rfl, rfl, rfl, fun p => ?_, fun p hw => ?_⟩
    · rw [lookup_perm hp h.nodup]; exact h.val p
    · rw [(hp.map _).mem_iff]; exact h.there p hw
  unfold Disk.drain at hd
  dsimp only at hd
  split at hd
  · cases hd; exact h0
  · have hs := same_durability (c := c) (e := e) (s := { s.tick with buf := [], bytes := 0, dirty := 0 })
    split at hd
    · next e' => rw [e'] at hs; cases hd; exact h0.same hs
    · cases hd

theorem writeFile_ok {p : Nat} {d : Data} (h : writeFile e s p d = (s', true)) : s'.file = s.file.put p d ∧ s'.buf = s.buf ∧ s'.bytes = s.bytes ∧ s'.dirty = s.dirty := by
  unfold writeFile at h
  split at h
  · cases h; exact ⟨rfl, rfl, rfl, rfl⟩
  · cases h

theorem Moving.step {p : Nat} {d : Data} {l : List (Nat × Data)} (h : Moving v w s ((p, d) :: l)) (hw : writeFile e s p d = (s', true)) : Moving v w s' l := by
  obtain ⟨h1, h2, h3, h4⟩ := writeFile_ok hw
  have hn := h.nodup
  rw [List.map_cons, List.nodup_cons] at hn
  refine ⟨hn.2, by rw [h2]; exact h.buf, by rw [h3]; exact h.bytes, by rw [h4]; exact h.dirty, fun q => ?_, fun q hq => ?_⟩
  · have hv := h.val q
    rw [List.lookup_cons] at hv
    rw [h1]
    by_cases hq : q = p
    · subst hq
      have : l.lookup q = none := by
        cases hl : l.lookup q with
        | none => rfl
        | some x => exact absurd (lookup_isSome.mp (by rw [hl]; rfl)) hn.1
      simp only [beq_self_eq_true, Option.getD_some] at hv
      rw [this, ← hv]
      simp [File.get, File.put]
    · rw [show (q == p) = false from by simpa using hq] at hv
      simpa [File.get, File.put, hq] using hv
  · rw [h1]
    simp only [File.put]
    rcases h.there q hq with hm | hm
    · rcases List.mem_cons.mp hm with hm | hm
      · right; dsimp only at hm; omega
      · exact .inl hm
    · right; omega

theorem Moving.writeEach {l : List (Nat × Data)} (h : Moving v w s l) (hw : writeEach e s l = (s', true)) : Moving v w s' [] := by
  induction l generalizing s with
  | nil => cases hw; exact h
  | cons x l ih =>
    obtain ⟨p, d⟩ := x
    simp only [Disk.writeEach] at hw
    split at hw
    · next e => exact ih (h.step e) hw
    · cases hw

theorem Moving.writeOut {l : List (Nat × Data)} (h : Moving v w s l) (hw : writeOut c e s l = (s', true)) : Moving v w s' [] := by
  unfold Disk.writeOut at hw
  split at hw
  · cases hw
  · next s1 e' =>
    have h1 := h.writeEach e'
    split at hw
    · cases hw; exact h1
    · have hs := same_durability (c := c) (e := e) (s := s1)
      rw [hw] at hs
      exact h1.same hs

theorem Moving.out {l : List (Nat × Data)} (h : Moving v w s l) (hw : (if l.isEmpty then (s, true) else Disk.writeOut c e s l) = (s', true)) : Moving v w s' [] := by
  split at hw
  · next hl => cases hw; rw [List.isEmpty_iff] at hl; rw [hl] at h; exact h
  · exact h.writeOut hw

theorem sync_ok (h : sync e s = (s', true)) : s'.synced = s'.file ∧ ∀ p, s'.unsynced p = [] := by
  unfold Disk.sync at h
  split at h
  · cases h; exact ⟨rfl, fun _ => rfl⟩
  · cases h

theorem Inv.flushWrites (he : e.Ok) (h : Inv c v w s) (hf : flushWrites c e s = (s', true)) :
    Moving v w s' [] ∧ (c.fsync ≠ .never → s'.synced = s'.file ∧ ∀ p, s'.unsynced p = []) := by
  unfold Disk.flushWrites at hf
  split at hf
  · cases hf
  next s1 l e1 =>
  split at hf
  · cases hf
  next s2 e2 =>
  have h2 := (h.drain he e1).out e2
  split at hf
  · next hn => cases hf; exact ⟨h2, fun h => absurd hn h⟩
  · have hs := same_sync (e := e) (s := s2)
    rw [hf] at hs
    exact ⟨h2.same hs, fun _ => sync_ok hf⟩

/-- After the call the buffer is low and below the batch size. -/
theorem Inv.flushIfDue (he : e.Ok) (hb : 0 < c.batch) (h : Inv c v w s) (hf : flushIfDue c e s = (s', true)) : Inv c v w s' ∧ Low c s' ∧ s'.dirty < c.batch := by
  unfold Disk.flushIfDue at hf
  have ht : (trigger c e s).1 = s.tick := trigger_state
  split at hf
  · next e' =>
    rw [e'] at ht
    dsimp only at ht
    subst ht
    have h1 := (h.same same_tick).flushWrites he hf
    have h2 := h1.1.inv (c := c)
    exact ⟨h2.1, h2.2, by rw [h1.1.dirty]; exact hb⟩
  · next e' =>
    cases hf
    unfold trigger shouldFlush at e'
    split at e'
    · cases e'
    next e2 =>
    have e3 := congrArg Prod.snd e2
    have e4 := congrArg Prod.snd e'
    have e5 := congrArg Prod.fst e2
    have e6 := congrArg Prod.fst e'
    dsimp only at e3 e4 e5 e6
    subst e5
    subst e6
    simp only [Bool.or_eq_false_iff, decide_eq_false_iff_not] at e3 e4
    have hd : s.tick.dirty = s.dirty := rfl
    exact ⟨h.same same_tick, .inl (by omega), by omega⟩

theorem putBuf_length {l : List (Nat × Data)} {p : Nat} {d : Data} : (putBuf l p d).length = if p ∈ l.map (·.1) then l.length else l.length + 1 := by
  have := congrArg List.length (putBuf_keys (l := l) (p := p) (d := d))
  rw [List.length_map] at this
  rw [this]
  split <;> simp

/-- What the pages hold after one more write. -/
def put1 (v : Nat → Data) (p : Nat) (d : Data) : Nat → Data := fun q => if q = p then d else v q

theorem Inv.stage {p : Nat} {d : Data} (hr : Spec.Room c) (hd : d.length = c.size) (h : Inv c v w s) (hl : Low c s) :
    ∃ s', stage c s p d = (s', true) ∧ Inv c (put1 v p d) (fun q => q = p ∨ w q) s' := by
  have hlen : ∀ x, s.buf.lookup p = some x → x.length = c.size := fun x hx => h.len (p, x) ((lookup_mem h.nodup).mp hx)
  have hmul : c.size * (s.buf.length + 1) ≤ c.maxBytes := by
    refine Nat.le_trans (Nat.mul_le_mul_left _ ?_) hr
    rw [← h.dirty]
    rcases hl with hl | hl <;> omega
  have hdelta : s.bytes + (d.length - bufLen s.buf p) = c.size * (putBuf s.buf p d).length := by
    rw [h.bytes, putBuf_length, bufLen]
    cases hx : s.buf.lookup p with
    | none =>
      rw [if_neg (by rw [← lookup_isSome, hx]; simp)]
      simp only [hd, Nat.mul_succ]; omega
    | some x =>
      rw [if_pos (by rw [← lookup_isSome, hx]; rfl)]
      simp only [hd, hlen x hx]; omega
  have hfit : ¬ s.bytes + (d.length - bufLen s.buf p) > c.maxBytes := by
    rw [hdelta, putBuf_length]
    have : (if p ∈ s.buf.map (·.1) then s.buf.length else s.buf.length + 1) ≤ s.buf.length + 1 := by split <;> omega
    have := Nat.le_trans (Nat.mul_le_mul_left c.size this) hmul
    omega
  refine ⟨_, by unfold Disk.stage; rw [if_neg hfit], ?_⟩
  refine ⟨?_, ?_, hdelta, ?_, fun q => ?_, fun q hq => ?_⟩
  · dsimp only
    rw [putBuf_keys]
    split
    · exact h.nodup
    · next hm => exact List.nodup_append.mpr ⟨h.nodup, by simp, by intro a ha b hb e; rw [List.mem_singleton] at hb; exact hm (hb ▸ e ▸ ha)⟩
  · intro x hx
    rcases mem_putBuf hx with hx | hx
    · rw [hx]; exact hd
    · exact h.len x hx
  · dsimp only
    rw [putBuf_length, h.dirty]
    by_cases hm : p ∈ s.buf.map (·.1)
    · rw [if_pos hm, if_pos (lookup_isSome.mpr hm)]
    · rw [if_neg hm, if_neg (by rw [lookup_isSome]; exact hm)]
  · dsimp only
    rw [putBuf_lookup, put1]
    split
    · rfl
    · exact h.val q
  · dsimp only
    rw [putBuf_keys]
    rcases hq with rfl | hq
    · left; split
      · assumption
      · simp
    · rcases h.there q hq with hm | hm
      · left; split
        · exact hm
        · exact List.mem_append_left _ hm
      · exact .inr hm

/-- A page handed to the buffer and the pages drained by it. -/
theorem Inv.bufferWrite {p : Nat} {d : Data} {l : List (Nat × Data)} (he : e.Ok) (hr : Spec.Room c) (hd : d.length = c.size) (h : Inv c v w s) (hl : Low c s)
    (hb : bufferWrite c e s p d = (s', some l)) :
    (l = [] ∧ Inv c (put1 v p d) (fun q => q = p ∨ w q) s' ∧ Low c s') ∨ Moving (put1 v p d) (fun q => q = p ∨ w q) s' l := by
  obtain ⟨s1, e1, h1⟩ := h.stage (p := p) hr hd hl
  unfold Disk.bufferWrite at hb
  rw [e1] at hb
  dsimp only [shouldFlush] at hb
  split at hb
  · next e2 =>
    have e3 := congrArg Prod.fst e2
    dsimp only at e3
    subst e3
    exact .inr ((h1.same same_tick).drain he hb)
  · next e2 =>
    have e3 := congrArg Prod.fst e2
    have e4 := congrArg Prod.snd e2
    dsimp only at e3 e4
    subst e3
    cases hb
    simp only [Bool.or_eq_false_iff, decide_eq_false_iff_not] at e4
    exact .inl ⟨rfl, h1.same same_tick, .inl (by have : s1.tick.dirty = s1.dirty := rfl; omega)⟩

theorem out_ok {l : List (Nat × Data)} (hs : (l = [] ∧ Inv c v w s ∧ Low c s) ∨ Moving v w s l) (hw : (if l.isEmpty then (s, true) else writeOut c e s l) = (s', true)) :
    Inv c v w s' ∧ Low c s' := by
  rcases hs with ⟨rfl, hs⟩ | hs
  · cases hw; exact hs
  · exact (hs.out hw).inv

theorem Inv.write {p : Nat} {d : Data} (he : e.Ok) (hb : 0 < c.batch) (hr : Spec.Room c) (h : Inv c v w s) (hl : Low c s) (hw : write c e s p d = (s', .ok ())) :
    d.length = c.size ∧ Inv c (put1 v p d) (fun q => q = p ∨ w q) s' ∧ Low c s' ∧ s'.dirty < c.batch := by
  unfold Disk.write at hw
  split at hw
  · cases hw
  next hlen =>
  have hlen := Decidable.not_not.mp hlen
  refine ⟨hlen, ?_⟩
  split at hw
  · cases hw
  next s1 l e1 =>
  have h1 := h.bufferWrite he hr hlen hl e1
  dsimp only at hw
  have hst : Same s1 (if c.cached = true then store e s1 p d else s1) := by
    split
    · exact same_store
    · exact .refl s1
  have h2 : (l = [] ∧ Inv c (put1 v p d) (fun q => q = p ∨ w q) (if c.cached = true then store e s1 p d else s1) ∧ Low c (if c.cached = true then store e s1 p d else s1)) ∨
      Moving (put1 v p d) (fun q => q = p ∨ w q) (if c.cached = true then store e s1 p d else s1) l := by
    rcases h1 with ⟨a, b, k⟩ | h1
    · exact .inl ⟨a, b.same hst, k.same hst⟩
    · exact .inr (h1.same hst)
  split at hw
  · cases hw
  next s2 e2 =>
  have h3 := out_ok h2 e2
  have hf := done_ok hw
  exact h3.1.flushIfDue he hb hf

/-- What the pages hold after more writes. -/
def putAll (v : Nat → Data) (ws : List (Nat × Data)) : Nat → Data := fun p => ws.foldl (fun x w => if w.1 = p then w.2 else x) (v p)

theorem putAll_cons {p : Nat} {d : Data} {ws : List (Nat × Data)} : putAll v ((p, d) :: ws) = putAll (put1 v p d) ws := by
  funext q
  simp only [putAll, List.foldl_cons, put1]
  by_cases h : p = q
  · simp [h]
  · simp [h, Ne.symm h]

theorem putAll_append {a b : List (Nat × Data)} : putAll v (a ++ b) = putAll (putAll v a) b := by
  funext q
  simp only [putAll, List.foldl_append]

theorem Inv.weaken {w' : Nat → Prop} (h : Inv c v w s) (hw : ∀ p, w' p → w p) : Inv c v w' s := ⟨h.1, h.2, h.3, h.4, h.5, fun p hp => h.6 p (hw p hp)⟩

theorem Inv.writeChunk {l : List (Nat × Data)} (he : e.Ok) (hr : Spec.Room c) (h : Inv c v w s) (hl : Low c s) (hw : writeChunk c e s l = (s', true)) :
    Inv c (putAll v l) (fun q => q ∈ l.map (·.1) ∨ w q) s' ∧ Low c s' := by
  induction l generalizing s v w with
  | nil => cases hw; exact ⟨h.weaken (by simp), hl⟩
  | cons x l ih =>
    obtain ⟨p, d⟩ := x
    simp only [Disk.writeChunk] at hw
    split at hw
    · cases hw
    next hlen =>
    have hlen := Decidable.not_not.mp hlen
    split at hw
    · cases hw
    next s1 out e1 =>
    split at hw
    · cases hw
    next s2 e2 =>
    have h2 := out_ok (h.bufferWrite he hr hlen hl e1) e2
    have hst : Same s2 (if c.cached = true then store e s2 p d else s2) := by
      split
      · exact same_store
      · exact .refl s2
    have h3 := ih (h2.1.same hst) (h2.2.same hst) hw
    rw [putAll_cons]
    refine ⟨h3.1.weaken fun q hq => ?_, h3.2⟩
    rw [List.map_cons, List.mem_cons] at hq
    rcases hq with (hq | hq) | hq
    · exact .inr (.inl hq)
    · exact .inl hq
    · exact .inr (.inr hq)

theorem Inv.writeChunks {ks : List (List (Nat × Data))} (he : e.Ok) (hr : Spec.Room c) (h : Inv c v w s) (hl : Low c s) (hw : writeChunks c e s ks = (s', true)) :
    (∀ x ∈ ks.flatten, x.2.length = c.size) ∧ Inv c (putAll v ks.flatten) (fun q => q ∈ ks.flatten.map (·.1) ∨ w q) s' ∧ Low c s' := by
  induction ks generalizing s v w with
  | nil => cases hw; exact ⟨fun x hx => (nomatch hx), h.weaken (by simp), hl⟩
  | cons k ks ih =>
    simp only [Disk.writeChunks] at hw
    split at hw
    · cases hw
    next s1 e1 =>
    have h1 := h.writeChunk he hr hl e1
    have hg : ∀ x ∈ k, x.2.length = c.size := writeChunk_good (by rw [e1])
    obtain ⟨h2, h3, h4⟩ := ih h1.1 h1.2 hw
    rw [List.flatten_cons, putAll_append]
    refine ⟨fun x hx => (List.mem_append.mp hx).elim (hg x) (h2 x), h3.weaken fun q hq => ?_, h4⟩
    rw [List.map_append, List.mem_append] at hq
    rcases hq with (hq | hq) | hq
    · exact .inr (.inl hq)
    · exact .inl hq
    · exact .inr (.inr hq)

theorem Inv.writeBatch {l : List (Nat × Data)} (he : e.Ok) (hr : Spec.Room c) (h : Inv c v w s) (hl : Low c s) (hw : writeBatch c e s l = (s', .ok ())) :
    (∀ x ∈ l, x.2.length = c.size) ∧ Inv c (putAll v l) (fun q => q ∈ l.map (·.1) ∨ w q) s' ∧ Low c s' ∧ s'.dirty < c.batch := by
  unfold Disk.writeBatch at hw
  split at hw
  · cases hw
  next hb =>
  split at hw
  · cases hw
  next s1 e1 =>
  obtain ⟨h1, h2, h3⟩ := h.writeChunks he hr hl e1
  rw [chunks_flatten (by omega) (Nat.le_refl _)] at h1 h2
  refine ⟨h1, ?_⟩
  have hf := done_ok hw
  exact h2.flushIfDue he (by omega) hf

theorem Inv.flush (he : e.Ok) (h : Inv c v w s) (hf : flush c e s = (s', .ok ())) : Moving v w s' [] ∧ (c.fsync ≠ .never → s'.synced = s'.file ∧ ∀ p, s'.unsynced p = []) := by
  unfold Disk.flush at hf
  split at hf
  · cases hf
  next s1 e1 =>
  obtain ⟨h1, h2⟩ := h.flushWrites he e1
  have hs := same_sync (e := e) (s := s1)
  split at hf
  · have := done_ok hf
    rw [this] at hs
    exact ⟨h1.same hs, fun _ => sync_ok this⟩
  · have := done_ok hf
    rw [this] at hs
    exact ⟨h1.same hs, fun _ => sync_ok this⟩
  · cases hf; exact ⟨h1, h2⟩

theorem Inv.flushAll (he : e.Ok) (h : Inv c v w s) (hf : flushAll c e s = (s', .ok ())) : Moving v w s' [] ∧ s'.synced = s'.file ∧ ∀ p, s'.unsynced p = [] := by
  unfold Disk.flushAll at hf
  split at hf
  · cases hf
  next s1 l e1 =>
  split at hf
  · cases hf
  split at hf
  · cases hf
  next s2 e2 =>
  have h2 := (h.drain he e1).out e2
  have h3 := done_ok hf
  have hs := same_sync (e := e) (s := s2)
  rw [h3] at hs
  exact ⟨h2.same hs, sync_ok h3⟩

theorem takeWhile_all {α : Type} {p : α → Bool} {l : List α} (h : ∀ x ∈ l, p x = true) : l.takeWhile p = l := by
  have := takeWhile_append_of_all (m := []) h
  simpa using this

/-- One call that succeeded or only read. -/
theorem Inv.call {o : Op} (he : e.Ok) (hb : 0 < c.batch) (hr : Spec.Room c) (h : Inv c v w s) (hl : Low c s) (hd : s.dirty < c.batch)
    (ho : Spec.reads o = true ∨ (call c e s o).2 = .ok []) :
    Inv c (putAll v (Spec.written c.size o)) (fun q => q ∈ (Spec.written c.size o).map (·.1) ∨ w q) (call c e s o).1 ∧ Low c (call c e s o).1 ∧ (call c e s o).1.dirty < c.batch := by
  have hmap : ∀ {x : Out Unit}, (x.map fun _ => ([] : List Data)) = .ok [] → x = .ok () := by intro x h; cases x <;> cases h; rfl
  rcases ho with ho | ho
  · have hs := same_call (c := c) (e := e) (s := s) ho
    have hw : Spec.written c.size o = [] := by cases o <;> first | rfl | cases ho
    rw [hw]
    exact ⟨(h.same hs).weaken (by simp), hl.same hs, by rw [hs.dirty]; exact hd⟩
  · cases o with
    | write p d =>
      have hx : Disk.write c e s p d = ((Disk.write c e s p d).1, .ok ()) := by rw [← hmap ho]
      obtain ⟨h1, h2, h3⟩ := h.write he hb hr hl hx
      have hw : Spec.written c.size (.write p d) = [(p, d)] := by simp [Spec.written, h1]
      rw [hw]
      refine ⟨?_, h3⟩
      have := h2.weaken (w' := fun q => q ∈ ([(p, d)] : List (Nat × Data)).map (·.1) ∨ w q) (by simp)
      rw [putAll_cons]
      exact this
    | writeBatch l =>
      have hx : Disk.writeBatch c e s l = ((Disk.writeBatch c e s l).1, .ok ()) := by rw [← hmap ho]
      obtain ⟨h1, h2, h3⟩ := h.writeBatch he hr hl hx
      have hw : Spec.written c.size (.writeBatch l) = l := takeWhile_all (by simpa using h1)
      rw [hw]
      exact ⟨h2, h3⟩
    | read p => have hs := same_call (c := c) (e := e) (s := s) (o := .read p) rfl; exact ⟨(h.same hs).weaken (by simp [Spec.written]), hl.same hs, by rw [hs.dirty]; exact hd⟩
    | readBatch p => have hs := same_call (c := c) (e := e) (s := s) (o := .readBatch p) rfl; exact ⟨(h.same hs).weaken (by simp [Spec.written]), hl.same hs, by rw [hs.dirty]; exact hd⟩
    | flush =>
      have hx : Disk.flush c e s = ((Disk.flush c e s).1, .ok ()) := by rw [← hmap ho]
      obtain ⟨h1, _⟩ := h.flush he hx
      have h2 := h1.inv (c := c)
      exact ⟨h2.1.weaken (by simp [Spec.written]), h2.2, by show (Disk.flush c e s).1.dirty < _; rw [h1.dirty]; exact hb⟩
    | flushAll =>
      have hx : Disk.flushAll c e s = ((Disk.flushAll c e s).1, .ok ()) := by rw [← hmap ho]
      obtain ⟨h1, _⟩ := h.flushAll he hx
      have h2 := h1.inv (c := c)
      exact ⟨h2.1.weaken (by simp [Spec.written]), h2.2, by show (Disk.flushAll c e s).1.dirty < _; rw [h1.dirty]; exact hb⟩

theorem Inv.run {ops : List Op} (he : e.Ok) (hb : 0 < c.batch) (hr : Spec.Room c) (h : Inv c v w s) (hl : Low c s) (hd : s.dirty < c.batch)
    (ho : Spec.AllOk ops (run c e s ops).2) :
    Inv c (putAll v (Spec.writes c.size ops)) (fun q => q ∈ (Spec.writes c.size ops).map (·.1) ∨ w q) (run c e s ops).1 ∧ Low c (run c e s ops).1 ∧ (run c e s ops).1.dirty < c.batch := by
  induction ops generalizing s v w with
  | nil => exact ⟨h.weaken (by simp [Spec.writes]), hl, hd⟩
  | cons o os ih =>
    simp only [Disk.run] at ho ⊢
    have h1 := h.call he hb hr hl hd (ho (o, (Disk.call c e s o).2) (by simp))
    have h2 := ih h1.1 h1.2.1 h1.2.2 fun x hx => ho x (by rw [List.zip_cons_cons]; exact List.mem_cons_of_mem _ hx)
    rw [show Spec.writes c.size (o :: os) = Spec.written c.size o ++ Spec.writes c.size os from by rw [Spec.writes, List.flatMap_cons]; rfl, putAll_append]
    refine ⟨h2.1.weaken fun q hq => ?_, h2.2⟩
    rw [List.map_append, List.mem_append] at hq
    rcases hq with (hq | hq) | hq
    · exact .inr (.inl hq)
    · exact .inl hq
    · exact .inr (.inr hq)

theorem inv_opened (hb : 0 < c.batch) (f : File) : Inv c f.get (fun _ => False) (opened f) ∧ Low c (opened f) ∧ (opened f).dirty < c.batch :=
  ⟨⟨List.nodup_nil, fun x hx => (nomatch hx), rfl, rfl, fun _ => rfl, fun _ h => h.elim⟩, .inr rfl, hb⟩

end Verif.Disk

import Verif.Disk.Spec

/-!
# Which contents can be where

Every content in the file, the buffer and the caches satisfies a predicate, as long as what is written does.
-/

namespace Verif.Disk

/-- What holds of the contents in file and buffer (`K`), of the synced ones (`S`) and of those in the caches (`C`), and how many pages the file and the synced file have at least. -/
structure Preds where
  K : Nat → Data → Prop
  S : Nat → Data → Prop
  C : Nat → Data → Prop
  n : Nat
  m : Nat
  ks : ∀ p d, K p d → S p d
  kc : ∀ p d, K p d → C p d
  mn : m ≤ n

structure Cand (P : Preds) (s : State) : Prop where
  file : ∀ p, P.K p (s.file.get p)
  synced : ∀ p, P.S p (s.synced.get p)
  unsynced : ∀ p, ∀ d ∈ s.unsynced p, P.S p d
  buf : ∀ x ∈ s.buf, P.K x.1 x.2
  hot : ∀ p d, s.hot p = some d → P.C p d
  warm : ∀ p d, s.warm p = some d → P.C p d
  cold : ∀ p d, s.cold p = some d → P.C p d
  fn : P.n ≤ s.file.pages
  sn : P.m ≤ s.synced.pages

variable {P : Preds} {c : Cfg} {e : Env} {s : State}

theorem Cand.tick (h : Cand P s) : Cand P s.tick := ⟨h.1, h.2, h.3, h.4, h.5, h.6, h.7, h.8, h.9⟩

theorem Cand.put {p : Nat} {d : Data} (h : Cand P s) (hd : P.K p d) : Cand P (writeFile e s p d).1 := by
  unfold writeFile
  split
  · refine ⟨?_, h.2, ?_, h.4, h.5, h.6, h.7, ?_, h.9⟩
    · intro q
      simp only [File.get, File.put]
      split
      · next e => subst e; exact hd
      · exact h.file q
    · intro q x hx
      simp only at hx
      split at hx
      · next e =>
        rcases List.mem_cons.mp hx with hx | hx
        · rw [hx, e]; exact P.ks p d hd
        · exact h.unsynced q x hx
      · exact h.unsynced q x hx
    · have := h.fn; simp only [File.put]; omega
  · exact h.tick

theorem Cand.sync (h : Cand P s) : Cand P (sync e s).1 := by
  unfold Disk.sync
  split
  · exact ⟨h.1, fun p => P.ks p _ (h.1 p), fun _ _ hx => (nomatch hx), h.4, h.5, h.6, h.7, h.8, Nat.le_trans P.mn h.8⟩
  · exact h.tick

theorem Cand.evict (h : Cand P s) : Cand P (evict e s) := by
  refine ⟨h.1, h.2, h.3, h.4, ?_, ?_, ?_, h.8, h.9⟩ <;> intro p d hd <;> simp only [Disk.evict] at hd <;> split at hd
  · exact h.hot p d hd
  · cases hd
  · exact h.warm p d hd
  · cases hd
  · exact h.cold p d hd
  · cases hd

theorem Cand.access (h : Cand P s) (p : Nat) : Cand P (access s p) := ⟨h.1, h.2, h.3, h.4, h.5, h.6, h.7, h.8, h.9⟩

theorem put_some {m : Nat → Option Data} {p q : Nat} {d x : Data} (hm : ∀ p d, m p = some d → P.C p d) (hd : P.C p d) (hx : put m p d q = some x) : P.C q x := by
  unfold put at hx
  split at hx
  · next e => cases hx; rw [e]; exact hd
  · exact hm q x hx

theorem Cand.lookup (h : Cand P s) (p : Nat) : Cand P (lookup e s p).1 ∧ ∀ d, (lookup e s p).2 = some d → P.C p d := by
  have h' := h.access p
  unfold Disk.lookup
  dsimp only
  split
  · next d hd => exact ⟨h'.evict, fun x hx => by cases hx; exact h'.hot p d hd⟩
  · split
    · next d hd =>
      have hc := h'.warm p d hd
      exact ⟨Cand.evict ⟨h'.1, h'.2, h'.3, h'.4, fun q x => put_some h'.hot hc, h'.6, h'.7, h'.8, h'.9⟩, fun x hx => by cases hx; exact hc⟩
    · split
      · next d hd =>
        have hc := h'.cold p d hd
        exact ⟨Cand.evict ⟨h'.1, h'.2, h'.3, h'.4, h'.5, fun q x => put_some h'.warm hc, h'.7, h'.8, h'.9⟩, fun x hx => by cases hx; exact hc⟩
      · exact ⟨h'.evict, fun x hx => by cases hx⟩

theorem Cand.store {p : Nat} {d : Data} (h : Cand P s) (hd : P.C p d) : Cand P (store e s p d) := by
  unfold Disk.store
  split
  · exact h.tick
  split
  · exact h.tick
  dsimp only
  refine Cand.evict (Cand.access ?_ p)
  split
  · exact ⟨h.1, h.2, h.3, h.4, fun q x => put_some h.hot hd, h.6, h.7, h.8, h.9⟩
  split
  · exact ⟨h.1, h.2, h.3, h.4, h.5, fun q x => put_some h.warm hd, h.7, h.8, h.9⟩
  · exact ⟨h.1, h.2, h.3, h.4, h.5, h.6, fun q x => put_some h.cold hd, h.8, h.9⟩

theorem Cand.durability (h : Cand P s) : Cand P (durability c e s).1 := by
  unfold Disk.durability
  split
  · exact h
  · exact h
  · split
    · exact h
    · split
      · exact h.tick.sync
      · exact h.tick
    · exact h.sync
  · split
    · simp only [syncLog]
      split
      · next e => have e1 := congrArg Prod.fst e; subst e1; exact h.tick.sync
      · next e => have e1 := congrArg Prod.fst e; subst e1; exact h.tick
    · exact h.sync

theorem mem_putBuf {l : List (Nat × Data)} {p : Nat} {d : Data} {x : Nat × Data} (h : x ∈ putBuf l p d) : x = (p, d) ∨ x ∈ l := by
  induction l with
  | nil => simpa [putBuf] using h
  | cons y l ih =>
    obtain ⟨q, z⟩ := y
    simp only [putBuf] at h
    split at h
    · rcases List.mem_cons.mp h with h | h
      · exact .inl h
      · exact .inr (List.mem_cons_of_mem _ h)
    · rcases List.mem_cons.mp h with h | h
      · exact .inr (by simp [h])
      · rcases ih h with h | h
        · exact .inl h
        · exact .inr (List.mem_cons_of_mem _ h)

theorem Cand.stage {p : Nat} {d : Data} (h : Cand P s) (hd : P.K p d) : Cand P (stage c s p d).1 := by
  unfold Disk.stage
  split
  · exact h
  · refine ⟨h.1, h.2, h.3, ?_, h.5, h.6, h.7, h.8, h.9⟩
    intro x hx
    rcases mem_putBuf hx with hx | hx
    · rw [hx]; exact hd
    · exact h.buf x hx

theorem Cand.drain (he : e.Ok) (h : Cand P s) : Cand P (drain c e s).1 ∧ ∀ l, (drain c e s).2 = some l → ∀ x ∈ l, P.K x.1 x.2 := by
  have h0 : Cand P { s.tick with buf := [], bytes := 0, dirty := 0 } := ⟨h.1, h.2, h.3, fun x hx => (nomatch hx), h.5, h.6, h.7, h.8, h.9⟩
  have hl : ∀ x ∈ e.order s.time s.buf, P.K x.1 x.2 := fun x hx => h.buf x ((he s.time s.buf).mem_iff.mp hx)
  have h1 := h0.durability (c := c) (e := e)
  unfold Disk.drain
  dsimp only
  split
  · exact ⟨h0, fun l e => by cases e; exact hl⟩
  · split
    · next s' e => rw [e] at h1; exact ⟨h1, fun l e => by cases e; exact hl⟩
    · next s' e => rw [e] at h1; exact ⟨h1, fun l e => by cases e⟩

theorem Cand.bufferWrite {p : Nat} {d : Data} (he : e.Ok) (h : Cand P s) (hd : P.K p d) :
    Cand P (bufferWrite c e s p d).1 ∧ ∀ l, (bufferWrite c e s p d).2 = some l → ∀ x ∈ l, P.K x.1 x.2 := by
  have h1 := h.stage (c := c) hd
  unfold Disk.bufferWrite
  split
  · next s' e => rw [e] at h1; exact h1.drain he
  · next s' e =>
    rw [e] at h1
    simp only [shouldFlush]
    split
    · next e => have e1 := congrArg Prod.fst e; subst e1; exact h1.tick.drain he
    · next e => have e1 := congrArg Prod.fst e; subst e1; exact ⟨h1.tick, fun l e x hx => by cases e; cases hx⟩

theorem Cand.writeEach {l : List (Nat × Data)} (h : Cand P s) (hl : ∀ x ∈ l, P.K x.1 x.2) : Cand P (writeEach e s l).1 := by
  induction l generalizing s with
  | nil => exact h
  | cons x l ih =>
    obtain ⟨p, d⟩ := x
    have h1 := h.put (e := e) (hl (p, d) List.mem_cons_self)
    simp only [Disk.writeEach]
    split
    · next s' e => rw [e] at h1; exact ih h1 fun x hx => hl x (List.mem_cons_of_mem _ hx)
    · next s' e => rw [e] at h1; exact h1

theorem Cand.writeOut {l : List (Nat × Data)} (h : Cand P s) (hl : ∀ x ∈ l, P.K x.1 x.2) : Cand P (writeOut c e s l).1 := by
  have h1 := h.writeEach (e := e) hl
  unfold Disk.writeOut
  split
  · next s' e => rw [e] at h1; exact h1
  · next s' e =>
    rw [e] at h1
    split
    · exact h1
    · exact h1.durability

theorem Cand.out {l : List (Nat × Data)} (h : Cand P s) (hl : ∀ x ∈ l, P.K x.1 x.2) : Cand P (if l.isEmpty then (s, true) else Disk.writeOut c e s l).1 := by
  split
  · exact h
  · exact h.writeOut hl

theorem Cand.flushWrites (he : e.Ok) (h : Cand P s) : Cand P (flushWrites c e s).1 := by
  have h1 := h.drain (c := c) he
  unfold Disk.flushWrites
  split
  · next s' e => rw [e] at h1; exact h1.1
  · next s' l e' =>
    rw [e'] at h1
    have h2 := h1.1.out (c := c) (e := e) (h1.2 l rfl)
    split
    · next e => rw [e] at h2; exact h2
    · next e =>
      rw [e] at h2
      split
      · exact h2
      · exact h2.sync

theorem trigger_state : (trigger c e s).1 = s.tick := by
  unfold trigger shouldFlush
  split
  · next e => exact (congrArg Prod.fst e).symm
  · next e => exact (congrArg Prod.fst e).symm

theorem Cand.flushIfDue (he : e.Ok) (h : Cand P s) : Cand P (flushIfDue c e s).1 := by
  have h1 : Cand P (trigger c e s).1 := by rw [trigger_state]; exact h.tick
  unfold Disk.flushIfDue
  split
  · next e => rw [e] at h1; exact h1.flushWrites he
  · next e => rw [e] at h1; exact h1

theorem Cand.write {p : Nat} {d : Data} (he : e.Ok) (h : Cand P s) (hd : d.length = c.size → P.K p d) : Cand P (write c e s p d).1 := by
  unfold Disk.write
  split
  · exact h
  next hlen =>
  have hd := hd (Decidable.not_not.mp hlen)
  have h1 := h.bufferWrite (c := c) he hd
  split
  · next e => rw [e] at h1; exact h1.1
  next s' l e' =>
  rw [e'] at h1
  dsimp only
  have h2 : Cand P (if c.cached = true then Disk.store e s' p d else s') := by
    split
    · exact h1.1.store (P.kc p d hd)
    · exact h1.1
  have h3 := h2.out (c := c) (e := e) (h1.2 l rfl)
  split
  · next e => rw [e] at h3; exact h3
  · next e => rw [e] at h3; exact h3.flushIfDue he

theorem Cand.read {p : Nat} (h : Cand P s) : Cand P (read c e s p).1 ∧ ∀ d, (read c e s p).2 = .ok d → P.C p d := by
  unfold Disk.read
  have h1 : Cand P (if c.cached = true then Disk.lookup e s p else (s, none)).1 ∧ ∀ d, (if c.cached = true then Disk.lookup e s p else (s, none)).2 = some d → P.C p d := by
    split
    · exact h.lookup p
    · exact ⟨h, fun d e => by cases e⟩
  split
  · next e => rw [e] at h1; exact ⟨h1.1, fun d e => by cases e; exact h1.2 _ rfl⟩
  next s' e' =>
  rw [e'] at h1
  split
  · exact ⟨h1.1, fun d e => by cases e⟩
  split
  · dsimp only
    have hc := P.kc p _ (h1.1.file p)
    refine ⟨?_, fun d e => by cases e; exact hc⟩
    split
    · exact h1.1.tick.store hc
    · exact h1.1.tick
  · exact ⟨h1.1.tick, fun d e => by cases e⟩

theorem Cand.flush (he : e.Ok) (h : Cand P s) : Cand P (flush c e s).1 := by
  have h1 := h.flushWrites (c := c) he
  unfold Disk.flush
  split
  · next e => rw [e] at h1; exact h1
  next e =>
  rw [e] at h1
  split
  · exact h1.sync
  · exact h1.sync
  · exact h1

theorem Cand.flushAll (he : e.Ok) (h : Cand P s) : Cand P (flushAll c e s).1 := by
  have h1 := h.drain (c := c) he
  unfold Disk.flushAll
  split
  · next e => rw [e] at h1; exact h1.1
  next s' l e' =>
  rw [e'] at h1
  split
  · exact h1.1
  have h2 := h1.1.out (c := c) (e := e) (h1.2 l rfl)
  split
  · next e => rw [e] at h2; exact h2
  · next e => rw [e] at h2; exact h2.sync

/-- The pages of a batch up to the first of a wrong size. -/
def good (size : Nat) (l : List (Nat × Data)) : List (Nat × Data) := l.takeWhile fun x => x.2.length = size

theorem Cand.writeChunk {l : List (Nat × Data)} (he : e.Ok) (h : Cand P s) (hl : ∀ x ∈ good c.size l, P.K x.1 x.2) : Cand P (writeChunk c e s l).1 := by
  induction l generalizing s with
  | nil => exact h
  | cons x l ih =>
    obtain ⟨p, d⟩ := x
    simp only [Disk.writeChunk]
    split
    · exact h
    next hlen =>
    have hlen := Decidable.not_not.mp hlen
    simp only [good, List.takeWhile_cons, hlen, decide_true, if_true] at hl
    have hd := hl (p, d) List.mem_cons_self
    have h1 := h.bufferWrite (c := c) he hd
    split
    · next e => rw [e] at h1; exact h1.1
    next s' out e' =>
    rw [e'] at h1
    have h2 := h1.1.out (c := c) (e := e) (h1.2 out rfl)
    split
    · next e => rw [e] at h2; exact h2
    next s'' e'' =>
    rw [e''] at h2
    refine ih ?_ fun x hx => hl x (List.mem_cons_of_mem _ hx)
    split
    · exact h2.store (P.kc p d hd)
    · exact h2

theorem takeWhile_append_of_all {α : Type} {p : α → Bool} {l m : List α} (h : ∀ x ∈ l, p x = true) : (l ++ m).takeWhile p = l ++ m.takeWhile p := by
  induction l with
  | nil => rfl
  | cons a l ih => simp [List.takeWhile_cons, h a List.mem_cons_self, ih fun x hx => h x (List.mem_cons_of_mem _ hx)]

theorem takeWhile_subset {α : Type} {p : α → Bool} {l m : List α} {x : α} (h : x ∈ l.takeWhile p) : x ∈ (l ++ m).takeWhile p := by
  induction l with
  | nil => cases h
  | cons a l ih =>
    simp only [List.takeWhile_cons] at h
    split at h
    · next ha =>
      rw [List.cons_append, List.takeWhile_cons, if_pos ha]
      rcases List.mem_cons.mp h with h | h
      · exact h ▸ List.mem_cons_self
      · exact List.mem_cons_of_mem _ (ih h)
    · cases h

/-- A chunk that was written held pages of the right size only. -/
theorem writeChunk_good {l : List (Nat × Data)} (h : (writeChunk c e s l).2 = true) : ∀ x ∈ l, x.2.length = c.size := by
  induction l generalizing s with
  | nil => exact fun x hx => (nomatch hx)
  | cons x l ih =>
    obtain ⟨p, d⟩ := x
    simp only [Disk.writeChunk] at h
    split at h
    · cases h
    next hlen =>
    split at h
    · cases h
    split at h
    · cases h
    intro x hx
    rcases List.mem_cons.mp hx with hx | hx
    · rw [hx]; exact Decidable.not_not.mp hlen
    · exact ih h x hx

theorem Cand.writeChunks {ks : List (List (Nat × Data))} (he : e.Ok) (h : Cand P s) (hl : ∀ x ∈ good c.size ks.flatten, P.K x.1 x.2) :
    Cand P (writeChunks c e s ks).1 := by
  induction ks generalizing s with
  | nil => exact h
  | cons k ks ih =>
    rw [List.flatten_cons] at hl
    have h1 := h.writeChunk (l := k) he fun x hx => hl x (takeWhile_subset hx)
    simp only [Disk.writeChunks]
    split
    · next e => rw [e] at h1; exact h1
    · next s' e' =>
      rw [e'] at h1
      have hg : ∀ x ∈ k, x.2.length = c.size := writeChunk_good (by rw [e'])
      refine ih h1 fun x hx => hl x ?_
      rw [good, takeWhile_append_of_all (by simpa using hg)]
      exact List.mem_append_right _ hx

theorem chunks_flatten {α : Type} {k : Nat} (hk : 0 < k) {m : Nat} {l : List α} (h : l.length ≤ m) : (chunks k m l).flatten = l := by
  induction m generalizing l with
  | zero => cases l with
    | nil => rfl
    | cons a l => simp at h
  | succ m ih =>
    cases l with
    | nil => rfl
    | cons a l =>
      simp only [chunks, List.flatten_cons]
      rw [ih (by simp only [List.length_drop, List.length_cons] at h ⊢; omega), List.take_append_drop]

theorem Cand.writeBatch {l : List (Nat × Data)} (he : e.Ok) (h : Cand P s) (hl : ∀ x ∈ good c.size l, P.K x.1 x.2) : Cand P (writeBatch c e s l).1 := by
  unfold Disk.writeBatch
  split
  · exact h
  next hb =>
  have h1 := h.writeChunks (c := c) (ks := chunks c.batch l.length l) he (by rw [chunks_flatten (by omega) (Nat.le_refl _)]; exact hl)
  split
  · next e => rw [e] at h1; exact h1
  · next e => rw [e] at h1; exact h1.flushIfDue he

/-- The pages of a read, one by one. -/
theorem Cand.readEach {l : List Nat} (h : Cand P s) :
    Cand P (readEach c e s l).1 ∧ ∀ ds, (readEach c e s l).2 = .ok ds → ds.length = l.length ∧ ∀ x ∈ l.zip ds, P.C x.1 x.2 := by
  induction l generalizing s with
  | nil => exact ⟨h, fun ds e => by cases e; exact ⟨rfl, fun x hx => (nomatch hx)⟩⟩
  | cons p l ih =>
    have h1 := h.read (c := c) (e := e) (p := p)
    simp only [Disk.readEach]
    split
    · next s' d e' =>
      rw [e'] at h1
      have h2 := ih h1.1
      split
      · next e'' =>
        rw [e''] at h2
        refine ⟨h2.1, fun ds e => ?_⟩
        cases e
        obtain ⟨ha, hb⟩ := h2.2 _ rfl
        refine ⟨by simp [ha], fun x hx => ?_⟩
        simp only [List.zip_cons_cons, List.mem_cons] at hx
        rcases hx with hx | hx
        · rw [hx]; exact h1.2 d rfl
        · exact hb x hx
      all_goals next e'' => rw [e''] at h2; exact ⟨h2.1, fun ds e => by cases e⟩
    all_goals next e' => rw [e'] at h1; exact ⟨h1.1, fun ds e => by cases e⟩

theorem zip_append_mem {α β : Type} {a b : List α} {x y : List β} {z : α × β} (h : x.length = a.length) (hz : z ∈ (a ++ b).zip (x ++ y)) : z ∈ a.zip x ∨ z ∈ b.zip y := by
  rw [List.zip_append h.symm] at hz
  exact List.mem_append.mp hz

theorem Cand.readChunks {ks : List (List Nat)} (h : Cand P s) :
    Cand P (readChunks c e s ks).1 ∧ ∀ ds, (readChunks c e s ks).2 = .ok ds → ds.length = ks.flatten.length ∧ ∀ x ∈ ks.flatten.zip ds, P.C x.1 x.2 := by
  induction ks generalizing s with
  | nil => exact ⟨h, fun ds e => by cases e; exact ⟨rfl, fun x hx => (nomatch hx)⟩⟩
  | cons k ks ih =>
    simp only [Disk.readChunks]
    split
    · exact ⟨h, fun ds e => by cases e⟩
    have h1 := h.readEach (c := c) (e := e) (l := k)
    split
    · next s' d e' =>
      rw [e'] at h1
      have h2 := ih h1.1
      split
      · next e'' =>
        rw [e''] at h2
        refine ⟨h2.1, fun ds e => ?_⟩
        cases e
        obtain ⟨ha, hb⟩ := h2.2 _ rfl
        obtain ⟨hc, hd⟩ := h1.2 _ rfl
        rw [List.flatten_cons]
        refine ⟨by rw [List.length_append, List.length_append, hc, ha], fun x hx => ?_⟩
        rcases zip_append_mem hc hx with hx | hx
        · exact hd x hx
        · exact hb x hx
      all_goals next e'' => rw [e''] at h2; exact ⟨h2.1, fun ds e => by cases e⟩
    all_goals next e' => rw [e'] at h1; exact ⟨h1.1, fun ds e => by cases e⟩

/-- The pages a call reads. -/
def asked : Op → List Nat
  | .read p => [p]
  | .readBatch l => l
  | _ => []

theorem Cand.call {o : Op} (he : e.Ok) (h : Cand P s) (hw : ∀ w ∈ Spec.written c.size o, P.K w.1 w.2) :
    Cand P (call c e s o).1 ∧ ∀ ds, (call c e s o).2 = .ok ds → ds.length = (asked o).length ∧ ∀ x ∈ (asked o).zip ds, P.C x.1 x.2 := by
  have hmap : ∀ {x : Out Unit} {ds : List Data}, (x.map fun _ => []) = .ok ds → ds = [] := by intro x ds h; cases x <;> cases h; rfl
  cases o with
  | write p d =>
    refine ⟨h.write he fun hl => hw (p, d) (by simp [Spec.written, hl]), fun ds e => ?_⟩
    rw [hmap e]; exact ⟨rfl, fun x hx => (nomatch hx)⟩
  | writeBatch l =>
    refine ⟨h.writeBatch he hw, fun ds e => ?_⟩
    rw [hmap e]; exact ⟨rfl, fun x hx => (nomatch hx)⟩
  | read p =>
    have h1 := h.read (c := c) (e := e) (p := p)
    refine ⟨h1.1, fun ds e' => ?_⟩
    simp only [Disk.call] at e'
    cases hr : (Disk.read c e s p).2 with
    | ok d =>
      rw [hr] at e'
      cases e'
      exact ⟨rfl, fun x hx => by rcases List.mem_singleton.mp hx with rfl; exact h1.2 d hr⟩
    | _ => rw [hr] at e'; cases e'
  | readBatch l =>
    simp only [Disk.call, Disk.readBatch]
    split
    · exact ⟨h, fun ds e => by cases e⟩
    · next hb =>
      have h1 := h.readChunks (c := c) (e := e) (ks := chunks c.batch l.length l)
      rw [chunks_flatten (by omega) (Nat.le_refl _)] at h1
      exact h1
  | flush =>
    refine ⟨h.flush he, fun ds e => ?_⟩
    rw [hmap e]; exact ⟨rfl, fun x hx => (nomatch hx)⟩
  | flushAll =>
    refine ⟨h.flushAll he, fun ds e => ?_⟩
    rw [hmap e]; exact ⟨rfl, fun x hx => (nomatch hx)⟩

theorem Cand.run {ops : List Op} (he : e.Ok) (h : Cand P s) (hw : ∀ w ∈ Spec.writes c.size ops, P.K w.1 w.2) : Cand P (run c e s ops).1 := by
  induction ops generalizing s with
  | nil => exact h
  | cons o os ih =>
    rw [Spec.writes, List.flatMap_cons] at hw
    exact ih (h.call he fun w hm => hw w (List.mem_append_left _ hm)).1 fun w hm => hw w (List.mem_append_right _ hm)

end Verif.Disk

import Verif.Cache.Lfu

/-!
# Heap-based LFU cache (`src/storage/disk/async_disk/cache/heap_lfu.rs`), property C05

`BinaryHeap<Reverse<(u64, K)>>` is modelled by its documented behaviour: a multiset whose `peek`/`pop`
give the least `(frequency, key)` pair. It is kept here as a sorted list. Keys are natural numbers (the
code is generic in an ordered key type; page ids are its instance).
-/

namespace Verif.HeapLfu

open LfuSpec (Op Out)

set_option linter.unusedSectionVars false

variable {V : Type}

/-! ## Model -/

/-- `struct HeapLFUCache` (heap_lfu.rs:248-258). -/
structure Cache (V : Type) where
  capacity : Nat
  data : AMap Nat V
  freqs : AMap Nat Nat
  heap : List (Nat × Nat)

/-- `HeapLFUCache::new` (heap_lfu.rs:277-284). -/
def new (capacity : Nat) : Cache V := { capacity, data := [], freqs := [], heap := [] }

/-- The order of `(u64, K)` tuples used by the heap. -/
def before (a b : Nat × Nat) : Bool := a.1 < b.1 || (a.1 == b.1 && a.2 ≤ b.2)

/-- `freq_heap.push(Reverse((frequency, key)))` (heap_lfu.rs:333-335). -/
def push (x : Nat × Nat) : List (Nat × Nat) → List (Nat × Nat)
  | [] => [x]
  | y :: ys => if before x y then x :: y :: ys else y :: push x ys

/-- `pop_lfu_internal` (heap_lfu.rs:339-354): pops until the top agrees with `frequencies`. -/
def popInternal (freqs : AMap Nat Nat) : List (Nat × Nat) → Option (Nat × Nat) × List (Nat × Nat)
  | [] => (none, [])
  | (f, k) :: rest =>
    if freqs.get k = some f then (some (k, f), rest) else popInternal freqs rest

/-- `pop_lfu` (heap_lfu.rs:447-456). -/
def popLfu (c : Cache V) : Cache V × Option (Nat × V) :=
  match popInternal c.freqs c.heap with
  | (none, h) => ({ c with heap := h }, none)
  | (some (k, _), h) =>
    match c.data.get k with
    | none => ({ c with heap := h }, none)
    | some v => ({ c with heap := h, data := c.data.erase k, freqs := c.freqs.erase k }, some (k, v))

/-- `ensure_capacity` (heap_lfu.rs:358-364). -/
def ensureCapacity (c : Cache V) : Cache V :=
  if c.data.length ≥ c.capacity then (popLfu c).1 else c

/-- `insert` (heap_lfu.rs:372-387). -/
def insert (c : Cache V) (k : Nat) (v : V) : Cache V × Option V :=
  match c.data.get k with
  | some old => ({ c with data := c.data.set k v }, some old)
  | none =>
    let c := ensureCapacity c
    ({ c with data := c.data.set k v, freqs := c.freqs.set k 1, heap := push (1, k) c.heap }, none)

/-- `get` (heap_lfu.rs:389-404). -/
def get (c : Cache V) (k : Nat) : Cache V × Option V :=
  if c.data.has k then
    match c.freqs.get k with
    | none => (c, none)
    | some f =>
      ({ c with freqs := c.freqs.set k (f + 1), heap := push (f + 1, k) c.heap }, c.data.get k)
  else (c, none)

/-- `remove` (heap_lfu.rs:430-439). -/
def remove (c : Cache V) (k : Nat) : Cache V × Option V :=
  match c.data.get k with
  | none => (c, none)
  | some v => ({ c with data := c.data.erase k, freqs := c.freqs.erase k }, some v)

/-- `peek_lfu` (heap_lfu.rs:458-479); `m` is the iteration order of `frequencies`. -/
def peekLfu (c : Cache V) (m : AMap Nat Nat) : Option (Nat × V) :=
  match (m.map (·.2)).min? with
  | none => none
  | some f =>
    match m.find? (fun p => p.2 == f) with
    | none => none
    | some (k, _) => (c.data.get k).map fun v => (k, v)

/-- `increment_frequency` (heap_lfu.rs:485-494). -/
def increment (c : Cache V) (k : Nat) : Cache V × Option Nat :=
  match c.freqs.get k with
  | none => (c, none)
  | some f => ({ c with freqs := c.freqs.set k (f + 1), heap := push (f + 1, k) c.heap }, some (f + 1))

/-- `reset_frequency` (heap_lfu.rs:496-505). -/
def reset (c : Cache V) (k : Nat) : Cache V × Option Nat :=
  match c.freqs.get k with
  | none => (c, none)
  | some f => ({ c with freqs := c.freqs.set k 1, heap := push (1, k) c.heap }, some f)

/-- One call; `m` is the order in which `frequencies` is iterated during the call. -/
def step (c : Cache V) (m : AMap Nat Nat) : Op Nat V → Cache V × Out Nat V
  | .insert k v => let p := insert c k v; (p.1, .val p.2)
  | .get k => let p := get c k; (p.1, .val p.2)
  | .contains k => (c, .bool (c.data.has k))
  | .len => (c, .nat c.data.length)
  | .clear => ({ c with data := [], freqs := [], heap := [] }, .unit)
  | .remove k => let p := remove c k; (p.1, .val p.2)
  | .popLfu => let p := popLfu c; (p.1, .entry p.2)
  | .peekLfu => (c, .entry (peekLfu c m))
  | .frequency k => (c, .freq (c.freqs.get k))
  | .reset k => let p := reset c k; (p.1, .freq p.2)
  | .increment k => let p := increment c k; (p.1, .freq p.2)

/-- Runs, with an arbitrary iteration order of `frequencies` at each call. -/
inductive Runs : Cache V → List (Op Nat V) → List (Out Nat V) → Cache V → Prop where
  | nil (c) : Runs c [] [] c
  | cons {c : Cache V} {m : AMap Nat Nat} {o os outs c'} : c.freqs.Perm m →
      Runs (step c m o).1 os outs c' → Runs c (o :: os) ((step c m o).2 :: outs) c'

/-! ## Refinement -/

/-- The abstract state: a value and a count for each key of `data`. -/
def abs (c : Cache V) : LfuSpec.State Nat V := fun k =>
  match c.data.get k, c.freqs.get k with
  | some v, some f => some (v, f)
  | _, _ => none

def Sorted (h : List (Nat × Nat)) : Prop := h.Pairwise (fun a b => a.1 ≤ b.1)

structure Inv (c : Cache V) : Prop where
  wfd : c.data.WF
  wff : c.freqs.WF
  same : ∀ k, (c.data.get k).isSome = (c.freqs.get k).isSome
  heap : ∀ k f, c.freqs.get k = some f → (f, k) ∈ c.heap
  sorted : Sorted c.heap

theorem mem_push {x y : Nat × Nat} {h : List (Nat × Nat)} : y ∈ push x h ↔ y = x ∨ y ∈ h := by
  induction h with
  | nil => simp [push]
  | cons z zs ih =>
    simp only [push]
    split
    · simp
    · simp only [List.mem_cons, ih]
      constructor
      · rintro (h | h | h) <;> simp [h]
      · rintro (h | h | h) <;> simp [h]

theorem sorted_push {x : Nat × Nat} {h : List (Nat × Nat)} (hs : Sorted h) : Sorted (push x h) := by
  induction h with
  | nil => simp [push, Sorted]
  | cons z zs ih =>
    simp only [push]
    have hs' := List.pairwise_cons.1 hs
    split
    · next hb =>
      have hxz : x.1 ≤ z.1 := by
        unfold before at hb; simp at hb; omega
      refine List.pairwise_cons.2 ⟨?_, hs⟩
      intro a ha
      rcases List.mem_cons.1 ha with rfl | ha
      · exact hxz
      · exact Nat.le_trans hxz (hs'.1 a ha)
    · next hb =>
      have hzx : z.1 ≤ x.1 := by
        unfold before at hb; simp at hb; omega
      refine List.pairwise_cons.2 ⟨?_, ih hs'.2⟩
      intro a ha
      rcases mem_push.1 ha with rfl | ha
      · exact hzx
      · exact hs'.1 a ha

theorem popInternal_spec (freqs : AMap Nat Nat) (h : List (Nat × Nat)) (hs : Sorted h)
    (hh : ∀ k f, freqs.get k = some f → (f, k) ∈ h) :
    ((popInternal freqs h).1 = none → ∀ k, freqs.get k = none) ∧
    (∀ k f, (popInternal freqs h).1 = some (k, f) →
      freqs.get k = some f ∧ (∀ k' f', freqs.get k' = some f' → f ≤ f')) ∧
    Sorted (popInternal freqs h).2 ∧
    (∀ k f, (popInternal freqs h).1.map (·.1) ≠ some k → freqs.get k = some f →
      (f, k) ∈ (popInternal freqs h).2) := by
  induction h with
  | nil =>
    refine ⟨?_, by simp [popInternal], by simp [popInternal, Sorted], ?_⟩
    · intro _ k
      cases hk : freqs.get k with
      | none => rfl
      | some f => have := hh k f hk; simp at this
    · intro k f _ hk; have := hh k f hk; simp at this
  | cons x rest ih =>
    obtain ⟨f, k⟩ := x
    have hs' := List.pairwise_cons.1 hs
    simp only [popInternal]
    by_cases hk : freqs.get k = some f
    · simp only [if_pos hk]
      refine ⟨by simp, ?_, hs'.2, ?_⟩
      · intro k1 f1 heq
        simp at heq; obtain ⟨rfl, rfl⟩ := heq
        refine ⟨hk, ?_⟩
        intro k' f' hk'
        rcases List.mem_cons.1 (hh k' f' hk') with h | h
        · simp at h; omega
        · exact hs'.1 _ h
      · intro k' f' hne hk'
        rcases List.mem_cons.1 (hh k' f' hk') with h | h
        · simp at h hne; exact absurd h.2.symm hne
        · exact h
    · simp only [if_neg hk]
      apply ih hs'.2
      intro k' f' hk'
      rcases List.mem_cons.1 (hh k' f' hk') with h | h
      · simp at h; obtain ⟨rfl, rfl⟩ := h; exact absurd hk' hk
      · exact h

theorem abs_size {c : Cache V} (h : Inv c) : LfuSpec.Size (abs c) c.data.length := by
  obtain ⟨l, nd, hl, hlen⟩ := isCount_get h.wfd
  refine ⟨l, nd, ?_, hlen⟩
  intro k
  rw [hl]
  have := h.same k
  unfold abs
  cases hd : c.data.get k <;> cases hf : c.freqs.get k <;> simp_all

theorem abs_none {c : Cache V} (h : Inv c) (k : Nat) : abs c k = none ↔ c.data.get k = none := by
  have := h.same k
  unfold abs
  cases hd : c.data.get k <;> cases hf : c.freqs.get k <;> simp_all

theorem abs_some {c : Cache V} (k : Nat) (v : V) (f : Nat) :
    abs c k = some (v, f) ↔ c.data.get k = some v ∧ c.freqs.get k = some f := by
  unfold abs
  cases hd : c.data.get k <;> cases hf : c.freqs.get k <;> simp_all

/-- Erasing a key from both maps. -/
theorem inv_erase {c : Cache V} (h : Inv c) (k : Nat) {hp : List (Nat × Nat)} (hs : Sorted hp)
    (hh : ∀ k' f, k' ≠ k → c.freqs.get k' = some f → (f, k') ∈ hp) :
    Inv { c with heap := hp, data := c.data.erase k, freqs := c.freqs.erase k } ∧
    abs { c with heap := hp, data := c.data.erase k, freqs := c.freqs.erase k } =
      LfuSpec.upd (abs c) k none := by
  refine ⟨⟨AMap.wf_erase h.wfd _, AMap.wf_erase h.wff _, ?_, ?_, hs⟩, ?_⟩
  · intro k'; simp only [AMap.get_erase]; split
    · rfl
    · exact h.same k'
  · intro k' f hg; simp only [AMap.get_erase] at hg; split at hg
    · cases hg
    · next hne => exact hh k' f (Ne.symm hne) hg
  · funext k'
    unfold LfuSpec.upd abs
    simp only [AMap.get_erase]
    by_cases hk : k = k'
    · subst hk; simp
    · simp only [if_neg hk, if_neg (Ne.symm hk)]

/-- Setting both the value and the count of a key, with the matching heap entry pushed. -/
theorem inv_set {c : Cache V} (h : Inv c) (k : Nat) (v : V) (f : Nat) :
    Inv { c with heap := push (f, k) c.heap, data := c.data.set k v, freqs := c.freqs.set k f } ∧
    abs { c with heap := push (f, k) c.heap, data := c.data.set k v, freqs := c.freqs.set k f } =
      LfuSpec.upd (abs c) k (some (v, f)) := by
  refine ⟨⟨AMap.wf_set h.wfd _ _, AMap.wf_set h.wff _ _, ?_, ?_, sorted_push h.sorted⟩, ?_⟩
  · intro k'; simp only [AMap.get_set]; split
    · rfl
    · exact h.same k'
  · intro k' f' hg; simp only [AMap.get_set] at hg
    rw [mem_push]
    split at hg
    · next he => simp at hg; left; rw [he, hg]
    · right; exact h.heap k' f' hg
  · funext k'
    unfold LfuSpec.upd abs
    simp only [AMap.get_set]
    by_cases hk : k = k'
    · subst hk; simp
    · simp only [if_neg hk, if_neg (Ne.symm hk)]

/-- Setting only the count. -/
theorem inv_setFreq {c : Cache V} (h : Inv c) {k : Nat} {v : V} (f : Nat)
    (hk : c.data.get k = some v) :
    Inv { c with heap := push (f, k) c.heap, freqs := c.freqs.set k f } ∧
    abs { c with heap := push (f, k) c.heap, freqs := c.freqs.set k f } =
      LfuSpec.upd (abs c) k (some (v, f)) := by
  refine ⟨⟨h.wfd, AMap.wf_set h.wff _ _, ?_, ?_, sorted_push h.sorted⟩, ?_⟩
  · intro k'; simp only [AMap.get_set]; split
    · next he => rw [← he, hk]; rfl
    · exact h.same k'
  · intro k' f' hg; simp only [AMap.get_set] at hg
    rw [mem_push]
    split at hg
    · next he => simp at hg; left; rw [he, hg]
    · right; exact h.heap k' f' hg
  · funext k'
    unfold LfuSpec.upd abs
    simp only [AMap.get_set]
    by_cases he : k = k'
    · subst he; simp [hk]
    · simp only [if_neg he, if_neg (Ne.symm he)]

theorem pop_sim {c : Cache V} (h : Inv c) :
    ((popLfu c).2 = none ∧ (∀ k, abs c k = none) ∧ abs (popLfu c).1 = abs c ∧ Inv (popLfu c).1 ∧
      (popLfu c).1.data = c.data ∧ (popLfu c).1.capacity = c.capacity) ∨
    (∃ k v, (popLfu c).2 = some (k, v) ∧ LfuSpec.Least (abs c) k v ∧
      abs (popLfu c).1 = LfuSpec.upd (abs c) k none ∧ Inv (popLfu c).1 ∧
      (popLfu c).1.data = c.data.erase k ∧ (popLfu c).1.capacity = c.capacity) := by
  obtain ⟨h1, h2, h3, h4⟩ := popInternal_spec c.freqs c.heap h.sorted h.heap
  unfold popLfu
  generalize hp : popInternal c.freqs c.heap = p at h1 h2 h3 h4
  obtain ⟨r, hp'⟩ := p
  cases r with
  | none =>
    left
    have hall := h1 rfl
    refine ⟨rfl, ?_, ?_, ?_, rfl, rfl⟩
    · intro k; unfold abs; rw [hall k]; cases c.data.get k <;> rfl
    · rfl
    · exact ⟨h.wfd, h.wff, h.same, fun k f hg => by simp [hall k] at hg, h3⟩
  | some kf =>
    obtain ⟨k, f⟩ := kf
    right
    obtain ⟨hk, hmin⟩ := h2 k f rfl
    have hd : ∃ v, c.data.get k = some v := by
      have := h.same k; rw [hk] at this
      cases hd : c.data.get k with
      | none => rw [hd] at this; cases this
      | some v => exact ⟨v, rfl⟩
    obtain ⟨v, hv⟩ := hd
    simp only [hv]
    have := inv_erase h k h3 (fun k' f' hne hg => h4 k' f' (by simp; exact Ne.symm hne) hg)
    refine ⟨k, v, rfl, ⟨f, (abs_some _ _ _).2 ⟨hv, hk⟩, ?_⟩, this.2, this.1, rfl, trivial⟩
    intro k' v' f' hg
    exact hmin k' f' ((abs_some _ _ _).1 hg).2

theorem step_sim {c : Cache V} (h : Inv c) (hcap : 1 ≤ c.capacity) (hle : c.data.length ≤ c.capacity)
    {m : AMap Nat Nat} (hm : c.freqs.Perm m) (o : Op Nat V) :
    LfuSpec.Step c.capacity (abs c) o (step c m o).2 (abs (step c m o).1) ∧
    Inv (step c m o).1 ∧ (step c m o).1.capacity = c.capacity ∧
    (step c m o).1.data.length ≤ c.capacity := by
  have hsize := abs_size h
  cases o with
  | insert k v =>
    simp only [step, insert]
    cases hk : c.data.get k with
    | some old =>
      have hs := h.same k
      rw [hk] at hs
      cases hf : c.freqs.get k with
      | none => rw [hf] at hs; cases hs
      | some f =>
        have ha := (abs_some k old f).2 ⟨hk, hf⟩
        have habs : abs { c with data := c.data.set k v } = LfuSpec.upd (abs c) k (some (v, f)) := by
          funext k'
          unfold LfuSpec.upd abs
          simp only [AMap.get_set]
          by_cases he : k = k'
          · subst he; simp [hf]
          · simp only [if_neg he, if_neg (Ne.symm he)]
        simp only [habs]
        refine ⟨.insertPresent k v old f ha, ⟨AMap.wf_set h.wfd _ _, h.wff, ?_, h.heap, h.sorted⟩, trivial, ?_⟩
        · intro k'; simp only [AMap.get_set]; split
          · next he => rw [← he, hf]; rfl
          · exact h.same k'
        · rw [AMap.length_set_of_mem ((AMap.mem_keys_iff _ _).2 ⟨_, hk⟩)]; exact hle
    | none =>
      have ha := (abs_none h k).2 hk
      simp only [ensureCapacity]
      by_cases hfull : c.data.length ≥ c.capacity
      · simp only [if_pos hfull]
        rcases pop_sim h with ⟨_, hall, _⟩ | ⟨vk, vv, _, hleast, hab, hinv, hdata, hc⟩
        · exfalso
          have hz : LfuSpec.Size (abs c) 0 := ⟨[], by simp, by simp [hall], rfl⟩
          have := isCount_unique hsize hz
          omega
        · obtain ⟨hi, hab2⟩ := inv_set hinv k v 1
          simp only [hab2, hab]
          refine ⟨.insertFull k v _ vk vv ha hsize (by omega) hfull hleast, hi, hc, ?_⟩
          rw [hdata]
          have hnk : k ∉ AMap.keys (c.data.erase vk) := by
            rw [← AMap.get_eq_none_iff, AMap.get_erase]; split
            · rfl
            · exact hk
          rw [AMap.length_set_of_not_mem hnk]
          obtain ⟨f, hf, _⟩ := hleast
          have hd := ((abs_some _ _ _).1 hf).1
          have := AMap.length_erase_of_mem h.wfd ((AMap.mem_keys_iff _ _).2 ⟨_, hd⟩)
          omega
      · simp only [if_neg hfull]
        obtain ⟨hi, hab2⟩ := inv_set h k v 1
        simp only [hab2]
        refine ⟨.insertRoom k v _ ha hsize (by omega), hi, trivial, ?_⟩
        rw [AMap.length_set_of_not_mem ((AMap.get_eq_none_iff _ _).1 hk)]
        omega
  | get k =>
    simp only [step, get, AMap.has]
    rcases Option.eq_none_or_eq_some (c.data.get k) with hk | ⟨v, hk⟩
    · simp only [hk]; exact ⟨.getMiss k ((abs_none h k).2 hk), h, rfl, hle⟩
    · have hs := h.same k
      rw [hk] at hs
      cases hf : c.freqs.get k with
      | none => rw [hf] at hs; cases hs
      | some f =>
        obtain ⟨hi, hab⟩ := inv_setFreq h (f + 1) hk
        simp only [hk, Option.isSome_some, if_true, hab]
        exact ⟨.getHit k v f ((abs_some _ _ _).2 ⟨hk, hf⟩), hi, trivial, hle⟩
  | contains k =>
    refine ⟨?_, h, rfl, hle⟩
    have : c.data.has k = (abs c k).isSome := by
      have h2 := abs_none h k
      unfold AMap.has
      cases hk : c.data.get k <;> cases ha : abs c k <;> simp_all
    simp only [step, this]
    exact .contains k
  | len => exact ⟨.len _ hsize, h, rfl, hle⟩
  | clear =>
    refine ⟨?_, ?_, rfl, by simp [step]⟩
    · have : abs ({ c with data := [], freqs := [], heap := [] } : Cache V) = fun _ => none := by
        funext k; simp [abs]
      simp only [step, this]
      exact .clear
    · constructor <;> simp [step, Sorted]
  | remove k =>
    simp only [step, remove]
    cases hk : c.data.get k with
    | none =>
      have ha := (abs_none h k).2 hk
      have : LfuSpec.upd (abs c) k none = abs c := by
        funext k'; unfold LfuSpec.upd; split
        · next he => rw [he, ha]
        · rfl
      refine ⟨?_, h, rfl, hle⟩
      have hs := LfuSpec.Step.remove (cap := c.capacity) (s := abs c) k
      rw [this, ha] at hs
      exact hs
    | some v =>
      obtain ⟨hi, hab⟩ := inv_erase h k h.sorted (fun k' f _ hg => h.heap k' f hg)
      have hs' := h.same k
      rw [hk] at hs'
      cases hf : c.freqs.get k with
      | none => rw [hf] at hs'; cases hs'
      | some f =>
        have ha := (abs_some k v f).2 ⟨hk, hf⟩
        have hs := LfuSpec.Step.remove (cap := c.capacity) (s := abs c) k
        rw [ha] at hs
        simp only [hab]
        exact ⟨hs, hi, trivial, Nat.le_trans (AMap.length_erase_le _ _) hle⟩
  | popLfu =>
    simp only [step]
    rcases pop_sim h with ⟨h1, h2, h3, h4, h5, h6⟩ | ⟨k, v, h1, h2, h3, h4, h5, h6⟩
    · rw [h1, h3, h5]; exact ⟨.popEmpty h2, h4, h6, hle⟩
    · rw [h1, h3, h5]
      exact ⟨.pop k v h2, h4, h6, Nat.le_trans (AMap.length_erase_le _ _) hle⟩
  | peekLfu =>
    refine ⟨?_, h, rfl, hle⟩
    simp only [step, peekLfu]
    cases hmin : (m.map (·.2)).min? with
    | none =>
      have hm0 : m = [] := by simpa using hmin
      simp only
      apply LfuSpec.Step.peekEmpty
      intro k
      have : c.freqs.get k = none := by rw [AMap.get_perm hm h.wff k, hm0]; rfl
      unfold abs; rw [this]; cases c.data.get k <;> rfl
    | some f =>
      rw [List.min?_eq_some_iff] at hmin
      obtain ⟨p, hp, hpf⟩ := List.mem_map.1 hmin.1
      have hs : (m.find? (fun p => p.2 == f)).isSome := by
        rw [List.find?_isSome]; exact ⟨p, hp, by simp [hpf]⟩
      cases hfind : m.find? (fun p => p.2 == f) with
      | none => rw [hfind] at hs; cases hs
      | some q =>
        obtain ⟨k, f'⟩ := q
        have h1 := List.find?_some hfind
        have h2 : (k, f') ∈ m := List.mem_of_find?_eq_some hfind
        simp only [beq_iff_eq] at h1
        subst h1
        have hf : c.freqs.get k = some f' := by
          rw [AMap.get_perm hm h.wff k]; exact AMap.get_of_mem (AMap.wf_perm hm h.wff) h2
        have hsm := h.same k
        rw [hf] at hsm
        cases hd : c.data.get k with
        | none => rw [hd] at hsm; cases hsm
        | some v =>
          simp only [hfind, hd, Option.map_some]
          apply LfuSpec.Step.peek
          refine ⟨f', (abs_some _ _ _).2 ⟨hd, hf⟩, ?_⟩
          intro k' v' f'' hg
          have hg' := ((abs_some _ _ _).1 hg).2
          rw [AMap.get_perm hm h.wff k'] at hg'
          exact hmin.2 _ (List.mem_map_of_mem (f := (·.2)) (AMap.mem_of_get hg'))
  | frequency k =>
    refine ⟨?_, h, rfl, hle⟩
    have : c.freqs.get k = (abs c k).map (·.2) := by
      have h2 := h.same k
      unfold abs
      cases hd : c.data.get k <;> cases hf : c.freqs.get k <;> simp_all
    simp only [step, this]
    exact .frequency k
  | reset k =>
    simp only [step, reset]
    have hs := h.same k
    cases hf : c.freqs.get k with
    | none =>
      have hd : c.data.get k = none := by rw [hf] at hs; cases hd : c.data.get k <;> simp_all
      exact ⟨.resetMiss k ((abs_none h k).2 hd), h, rfl, hle⟩
    | some f =>
      cases hd : c.data.get k with
      | none => rw [hf, hd] at hs; cases hs
      | some v =>
        obtain ⟨hi, hab⟩ := inv_setFreq h 1 hd
        simp only [hab]
        exact ⟨.reset k v f ((abs_some _ _ _).2 ⟨hd, hf⟩), hi, trivial, hle⟩
  | increment k =>
    simp only [step, increment]
    have hs := h.same k
    cases hf : c.freqs.get k with
    | none =>
      have hd : c.data.get k = none := by rw [hf] at hs; cases hd : c.data.get k <;> simp_all
      exact ⟨.incrementMiss k ((abs_none h k).2 hd), h, rfl, hle⟩
    | some f =>
      cases hd : c.data.get k with
      | none => rw [hf, hd] at hs; cases hs
      | some v =>
        obtain ⟨hi, hab⟩ := inv_setFreq h (f + 1) hd
        simp only [hab]
        exact ⟨.increment k v f ((abs_some _ _ _).2 ⟨hd, hf⟩), hi, trivial, hle⟩

theorem run_sim {c c' : Cache V} {os outs} (hr : Runs c os outs c') : Inv c → 1 ≤ c.capacity →
    c.data.length ≤ c.capacity →
    LfuSpec.Run c.capacity (abs c) os outs (abs c') ∧ c'.data.length ≤ c.capacity := by
  induction hr with
  | nil c => intro h _ hle; exact ⟨.nil _, hle⟩
  | @cons c m o os outs c' hp _ ih =>
    intro h hc hle
    obtain ⟨h1, h2, h3, h4⟩ := step_sim h hc hle hp o
    have := ih h2 (by rw [h3]; exact hc) (by rw [h3]; exact h4)
    rw [h3] at this
    exact ⟨.cons h1 this.1, this.2⟩

theorem inv_new (cap : Nat) : Inv (new cap : Cache V) := by
  constructor <;> simp [new, Sorted]

/-! ## Property -/

/-- **C05** (partial: capacity at least 1; for capacity 0 see `C05_heap_lfu_capacity_zero_fails`).
For every call sequence and iteration order the results are results an LFU cache may give. -/
theorem C05_heap_lfu_refines_spec_partial (cap : Nat) (hcap : 1 ≤ cap) (os : List (Op Nat V))
    (outs : List (Out Nat V)) (c : Cache V) (hr : Runs (new cap) os outs c) :
    ∃ s, LfuSpec.Run cap (fun _ => none) os outs s := by
  have := run_sim hr (inv_new cap) hcap (by simp [new])
  exact ⟨_, this.1⟩

/-- **C05** (partial: capacity at least 1). The capacity is never exceeded. -/
theorem C05_heap_lfu_capacity_partial (cap : Nat) (hcap : 1 ≤ cap) (os : List (Op Nat V))
    (outs : List (Out Nat V)) (c : Cache V) (hr : Runs (new cap) os outs c) : c.data.length ≤ cap :=
  (run_sim hr (inv_new cap) hcap (by simp [new])).2

/-- The run that never reorders the map. -/
def run (c : Cache V) : List (Op Nat V) → Cache V × List (Out Nat V)
  | [] => (c, [])
  | o :: os => let p := step c c.freqs o; let q := run p.1 os; (q.1, p.2 :: q.2)

theorem runs_run (os : List (Op Nat V)) : ∀ c : Cache V, Runs c os (run c os).2 (run c os).1 := by
  induction os with
  | nil => intro c; exact .nil c
  | cons o os ih => intro c; exact .cons (List.Perm.refl _) (ih _)

/-- **C05 is false for capacity 0**: a cache of capacity 0 stores the inserted entry and reports
length 1 (heap_lfu.rs:379 evicts from an empty cache and inserts anyway). -/
theorem C05_heap_lfu_capacity_zero_fails :
    ∃ c, Runs (new 0 : Cache Nat) [.insert 7 70, .len, .get 7] [.val none, .nat 1, .val (some 70)] c :=
  ⟨_, runs_run [.insert 7 70, .len, .get 7] (new 0)⟩

/-- Non-vacuity: stale heap entries are skipped when key 1 has been used again. -/
example : ∃ c, Runs (new 2 : Cache Nat) [.insert 1 10, .insert 2 20, .get 1, .get 1, .get 2, .insert 3 30, .contains 2, .popLfu]
    [.val none, .val none, .val (some 10), .val (some 10), .val (some 20), .val none, .bool false, .entry (some (3, 30))] c :=
  ⟨_, runs_run [.insert 1 10, .insert 2 20, .get 1, .get 1, .get 2, .insert 3 30, .contains 2, .popLfu] (new 2)⟩

end Verif.HeapLfu

import Verif.Cache.LfuSpec

/-!
# LFU cache (`src/storage/disk/async_disk/cache/lfu.rs`), property C04

The order in which a Rust `HashMap` is iterated is arbitrary and may change between calls. Here the
map is an association list whose order is the iteration order, and before every call the list is
permuted arbitrarily (`Step`).
-/

namespace Verif.Lfu

open LfuSpec (Op Out)

set_option linter.unusedSectionVars false

variable {K V : Type} [DecidableEq K]

/-! ## Model -/

/-- `usize::MAX`. -/
def usizeMax : Nat := 2 ^ 64 - 1

/-- `struct LFUCache` (lfu.rs:271-277). -/
structure Cache (K V : Type) where
  capacity : Nat
  cache : AMap K (V × Nat)

/-- `LFUCache::new` (lfu.rs:283-288). -/
def new (capacity : Nat) : Cache K V := { capacity, cache := [] }

/-- `self.cache.values().map(|(_, freq)| *freq).min()` (lfu.rs:310-315, 382). -/
def minFreq (m : AMap K (V × Nat)) : Option Nat := (m.map (fun p => p.2.2)).min?

/-- The test of the `retain` and `drain` loops (lfu.rs:320, 390). -/
def isMin (f : Nat) (p : K × (V × Nat)) : Bool := p.2.2 == f

/-- `insert` (lfu.rs:296-333). The `retain` closure (319-326) removes the first entry of minimal
frequency, which is `List.eraseP`. -/
def insert (c : Cache K V) (k : K) (v : V) : Cache K V × Option V :=
  match c.cache.get k with
  | some (old, f) => ({ c with cache := c.cache.set k (v, f) }, some old)
  | none =>
    if c.capacity = 0 then (c, none)
    else
      let m : AMap K (V × Nat) := if c.cache.length ≥ c.capacity then
          c.cache.eraseP (isMin ((minFreq c.cache).getD 0))
        else c.cache
      ({ c with cache := m.set k (v, 1) }, (m.get k).map (·.1))

/-- `get` (lfu.rs:335-343). The counter is a `usize` in the code; it is unbounded here. -/
def get (c : Cache K V) (k : K) : Cache K V × Option V :=
  match c.cache.get k with
  | some (v, f) => ({ c with cache := c.cache.set k (v, f + 1) }, some v)
  | none => (c, none)

/-- `remove` (lfu.rs:366-368). -/
def remove (c : Cache K V) (k : K) : Cache K V × Option V :=
  ({ c with cache := c.cache.erase k }, (c.cache.get k).map (·.1))

/-- `pop_lfu` (lfu.rs:375-400): the drain loop keeps everything except the first minimal entry. -/
def popLfu (c : Cache K V) : Cache K V × Option (K × V) :=
  match minFreq c.cache with
  | none => (c, none)
  | some f =>
    ({ c with cache := c.cache.eraseP (isMin f) },
      (c.cache.find? (isMin f)).map fun p => (p.1, p.2.1))

/-- The loop of `peek_lfu` (lfu.rs:404-412). -/
def peekLoop : List (K × (V × Nat)) → Nat → Option (K × V) → Option (K × V)
  | [], _, best => best
  | (k, (v, f)) :: rest, mn, best =>
    if f < mn then peekLoop rest f (some (k, v)) else peekLoop rest mn best

/-- `peek_lfu` (lfu.rs:402-415). -/
def peekLfu (c : Cache K V) : Option (K × V) := peekLoop c.cache usizeMax none

/-- `frequency` (lfu.rs:417-419). -/
def frequency (c : Cache K V) (k : K) : Option Nat := (c.cache.get k).map (·.2)

/-- `reset_frequency` (lfu.rs:421-429). -/
def reset (c : Cache K V) (k : K) : Cache K V × Option Nat :=
  match c.cache.get k with
  | some (v, f) => ({ c with cache := c.cache.set k (v, 1) }, some f)
  | none => (c, none)

/-- `increment_frequency` (lfu.rs:431-438). -/
def increment (c : Cache K V) (k : K) : Cache K V × Option Nat :=
  match c.cache.get k with
  | some (v, f) => ({ c with cache := c.cache.set k (v, f + 1) }, some (f + 1))
  | none => (c, none)

/-- One call, for one iteration order. -/
def step (c : Cache K V) : Op K V → Cache K V × Out K V
  | .insert k v => let p := insert c k v; (p.1, .val p.2)
  | .get k => let p := get c k; (p.1, .val p.2)
  | .contains k => (c, .bool (c.cache.has k))
  | .len => (c, .nat c.cache.length)
  | .clear => ({ c with cache := [] }, .unit)
  | .remove k => let p := remove c k; (p.1, .val p.2)
  | .popLfu => let p := popLfu c; (p.1, .entry p.2)
  | .peekLfu => (c, .entry (peekLfu c))
  | .frequency k => (c, .freq (frequency c k))
  | .reset k => let p := reset c k; (p.1, .freq p.2)
  | .increment k => let p := increment c k; (p.1, .freq p.2)

/-- Runs of the cache, with an arbitrary iteration order at each call. -/
inductive Runs : Cache K V → List (Op K V) → List (Out K V) → Cache K V → Prop where
  | nil (c) : Runs c [] [] c
  | cons {c : Cache K V} {m : AMap K (V × Nat)} {o os outs c'} : c.cache.Perm m →
      Runs (step { c with cache := m } o).1 os outs c' →
      Runs c (o :: os) ((step { c with cache := m } o).2 :: outs) c'

/-! ## Refinement -/

structure Inv (c : Cache K V) (n : Nat) : Prop where
  wf : c.cache.WF
  cap : c.cache.length ≤ c.capacity
  freq : ∀ k v f, c.cache.get k = some (v, f) → f ≤ n

theorem minFreq_none (m : AMap K (V × Nat)) : minFreq m = none ↔ m = [] := by
  simp [minFreq]

theorem minFreq_some {m : AMap K (V × Nat)} {f : Nat} (h : minFreq m = some f) :
    (∃ p ∈ m, p.2.2 = f) ∧ ∀ p ∈ m, f ≤ p.2.2 := by
  unfold minFreq at h
  rw [List.min?_eq_some_iff] at h
  constructor
  · obtain ⟨p, hp, hf⟩ := List.mem_map.1 h.1
    exact ⟨p, hp, hf⟩
  · intro p hp; exact h.2 _ (List.mem_map_of_mem hp)

/-- The first minimal entry found by the loops is a least-used entry. -/
theorem find_min {m : AMap K (V × Nat)} (wf : m.WF) {f : Nat} (h : minFreq m = some f) :
    ∃ k v, m.find? (isMin f) = some (k, (v, f)) ∧ LfuSpec.Least m.get k v := by
  obtain ⟨⟨p, hp, hf⟩, hmin⟩ := minFreq_some h
  have hs : (m.find? (isMin f)).isSome := by
    rw [List.find?_isSome]; exact ⟨p, hp, by simp [isMin, hf]⟩
  cases hfind : m.find? (isMin f) with
  | none => rw [hfind] at hs; cases hs
  | some q =>
    obtain ⟨k, v, f'⟩ := q
    have h1 := List.find?_some hfind
    have h2 : (k, (v, f')) ∈ m := List.mem_of_find?_eq_some hfind
    simp only [isMin, beq_iff_eq] at h1
    subst h1
    refine ⟨k, v, rfl, f', AMap.get_of_mem wf h2, ?_⟩
    intro k' v' f'' hg
    exact hmin _ (AMap.mem_of_get hg)

theorem peekLoop_spec (l : List (K × (V × Nat))) : ∀ (mn : Nat) (best : Option (K × V)),
    (peekLoop l mn best = best ∧ ∀ p ∈ l, mn ≤ p.2.2) ∨
    (∃ k v f, peekLoop l mn best = some (k, v) ∧ (k, (v, f)) ∈ l ∧ f < mn ∧ ∀ p ∈ l, f ≤ p.2.2) := by
  induction l with
  | nil => intro mn best; left; simp [peekLoop]
  | cons q l ih =>
    obtain ⟨k, v, f⟩ := q
    intro mn best
    simp only [peekLoop]
    by_cases h : f < mn
    · rw [if_pos h]; right
      rcases ih f (some (k, v)) with ⟨h1, h2⟩ | ⟨k', v', f', h1, h2, h3, h4⟩
      · refine ⟨k, v, f, h1, by simp, h, ?_⟩
        intro p hp; rcases List.mem_cons.1 hp with rfl | hp
        · simp
        · exact h2 p hp
      · refine ⟨k', v', f', h1, by simp [h2], by omega, ?_⟩
        intro p hp; rcases List.mem_cons.1 hp with rfl | hp
        · simp; omega
        · exact h4 p hp
    · rw [if_neg h]
      rcases ih mn best with ⟨h1, h2⟩ | ⟨k', v', f', h1, h2, h3, h4⟩
      · left; refine ⟨h1, ?_⟩
        intro p hp; rcases List.mem_cons.1 hp with rfl | hp
        · simp; omega
        · exact h2 p hp
      · right; refine ⟨k', v', f', h1, by simp [h2], h3, ?_⟩
        intro p hp; rcases List.mem_cons.1 hp with rfl | hp
        · simp; omega
        · exact h4 p hp

theorem get_set_fun (m : AMap K (V × Nat)) (k : K) (x : V × Nat) :
    (m.set k x).get = LfuSpec.upd m.get k (some x) := by
  funext k'; rw [AMap.get_set]; unfold LfuSpec.upd
  by_cases h : k = k'
  · subst h; simp
  · rw [if_neg h, if_neg (Ne.symm h)]

theorem get_erase_fun (m : AMap K (V × Nat)) (k : K) :
    (m.erase k).get = LfuSpec.upd m.get k none := by
  funext k'; rw [AMap.get_erase]; unfold LfuSpec.upd
  by_cases h : k = k'
  · subst h; simp
  · rw [if_neg h, if_neg (Ne.symm h)]

theorem inv_erase {c : Cache K V} {n : Nat} (h : Inv c n) (k : K) :
    Inv { c with cache := c.cache.erase k } n := by
  constructor
  · exact AMap.wf_erase h.wf _
  · exact Nat.le_trans (AMap.length_erase_le _ _) h.cap
  · intro k' v f hg
    simp only [AMap.get_erase] at hg
    split at hg
    · cases hg
    · exact h.freq _ _ _ hg

/-- Rewriting a present entry. -/
theorem inv_set_present {c : Cache K V} {n : Nat} (h : Inv c n) {k : K} {x : V × Nat} (y : V × Nat)
    (hk : c.cache.get k = some x) (hy : y.2 ≤ n + 1) :
    Inv { c with cache := c.cache.set k y } (n + 1) := by
  have hm : k ∈ c.cache.keys := (AMap.mem_keys_iff _ _).2 ⟨x, hk⟩
  constructor
  · exact AMap.wf_set h.wf _ _
  · simp only [AMap.length_set_of_mem hm]; exact h.cap
  · intro k' v f hg
    simp only [AMap.get_set] at hg
    split at hg
    · simp at hg; rw [hg] at hy; exact hy
    · have := h.freq _ _ _ hg; omega

theorem inv_set_new {c : Cache K V} {n : Nat} {m : AMap K (V × Nat)} {k : K} {v : V}
    (h : Inv { c with cache := m } n) (hk : m.get k = none) (hl : m.length + 1 ≤ c.capacity) :
    Inv { c with cache := m.set k (v, 1) } (n + 1) := by
  have hm : k ∉ m.keys := (AMap.get_eq_none_iff _ _).1 hk
  constructor
  · exact AMap.wf_set h.wf _ _
  · simp only [AMap.length_set_of_not_mem hm]; exact hl
  · intro k' v f hg
    simp only [AMap.get_set] at hg
    split at hg
    · simp at hg; omega
    · have := h.freq _ _ _ hg; omega

theorem inv_mono {c : Cache K V} {n m : Nat} (h : Inv c n) (hm : n ≤ m) : Inv c m :=
  ⟨h.wf, h.cap, fun k v f hg => Nat.le_trans (h.freq k v f hg) hm⟩

theorem step_sim {c : Cache K V} {n : Nat} (h : Inv c n) (hn : n < usizeMax) (o : Op K V) :
    LfuSpec.Step c.capacity c.cache.get o (step c o).2 (step c o).1.cache.get ∧
    Inv (step c o).1 (n + 1) ∧ (step c o).1.capacity = c.capacity := by
  have hsize : LfuSpec.Size c.cache.get c.cache.length := isCount_get h.wf
  have hmono := inv_mono h (Nat.le_succ n)
  cases o with
  | insert k v =>
    simp only [step, insert]
    cases hk : c.cache.get k with
    | some x =>
      obtain ⟨old, f⟩ := x
      simp only [get_set_fun]
      exact ⟨.insertPresent k v old f hk,
        inv_set_present h (v, f) hk (by have := h.freq _ _ _ hk; simp; omega), trivial⟩
    | none =>
      simp only
      by_cases hc : c.capacity = 0
      · simp only [if_pos hc]; exact ⟨.insertZero k v hk hc, hmono, trivial⟩
      · simp only [if_neg hc]
        by_cases hfull : c.cache.length ≥ c.capacity
        · simp only [if_pos hfull]
          cases hmf : minFreq c.cache with
          | none =>
            rw [minFreq_none] at hmf
            rw [hmf] at hfull; simp at hfull; omega
          | some f =>
            obtain ⟨vk, vv, hf, hleast⟩ := find_min h.wf hmf
            simp only [Option.getD_some]
            rw [AMap.eraseP_eq_erase h.wf _ hf]
            have hk2 : (c.cache.erase vk).get k = none := by
              rw [AMap.get_erase]; split
              · rfl
              · exact hk
            rw [hk2]
            simp only [get_set_fun, get_erase_fun]
            refine ⟨.insertFull k v _ vk vv hk hsize (by omega) hfull hleast, ?_, trivial⟩
            apply inv_set_new (inv_erase h vk) hk2
            have hm : vk ∈ c.cache.keys :=
              List.mem_map_of_mem (f := (·.1)) (List.mem_of_find?_eq_some hf)
            have := AMap.length_erase_of_mem h.wf hm
            have h2 := h.cap
            omega
        · simp only [if_neg hfull, hk, get_set_fun]
          exact ⟨.insertRoom k v _ hk hsize (by omega), inv_set_new h hk (by omega), trivial⟩
  | get k =>
    simp only [step, get]
    cases hk : c.cache.get k with
    | some x =>
      obtain ⟨v, f⟩ := x
      simp only [get_set_fun]
      exact ⟨.getHit k v f hk, inv_set_present h _ hk (by have := h.freq _ _ _ hk; simp; omega), trivial⟩
    | none => exact ⟨.getMiss k hk, hmono, rfl⟩
  | contains k => exact ⟨.contains k, hmono, rfl⟩
  | len => exact ⟨.len _ hsize, hmono, rfl⟩
  | clear =>
    refine ⟨?_, ⟨by simp [step], by simp [step], by simp [step]⟩, rfl⟩
    exact LfuSpec.Step.clear
  | remove k =>
    simp only [step, remove, get_erase_fun]
    exact ⟨.remove k, inv_mono (inv_erase h k) (by omega), trivial⟩
  | popLfu =>
    simp only [step, popLfu]
    cases hmf : minFreq c.cache with
    | none =>
      rw [minFreq_none] at hmf
      refine ⟨.popEmpty ?_, hmono, rfl⟩
      intro k; rw [hmf]; rfl
    | some f =>
      obtain ⟨vk, vv, hf, hleast⟩ := find_min h.wf hmf
      simp only [AMap.eraseP_eq_erase h.wf _ hf, hf, get_erase_fun, Option.map_some]
      exact ⟨.pop vk vv hleast, inv_mono (inv_erase h vk) (by omega), trivial⟩
  | peekLfu =>
    refine ⟨?_, hmono, rfl⟩
    simp only [step, peekLfu]
    rcases peekLoop_spec c.cache usizeMax none with ⟨h1, h2⟩ | ⟨k, v, f, h1, h2, h3, h4⟩
    · rw [h1]
      apply LfuSpec.Step.peekEmpty
      intro k
      cases hk : c.cache.get k with
      | none => rfl
      | some x =>
        have := h2 _ (AMap.mem_of_get hk)
        have := h.freq k x.1 x.2 hk
        simp at *; omega
    · rw [h1]
      apply LfuSpec.Step.peek
      refine ⟨f, AMap.get_of_mem h.wf h2, ?_⟩
      intro k' v' f' hg
      exact h4 _ (AMap.mem_of_get hg)
  | frequency k => exact ⟨.frequency k, hmono, rfl⟩
  | reset k =>
    simp only [step, reset]
    cases hk : c.cache.get k with
    | some x =>
      obtain ⟨v, f⟩ := x
      simp only [get_set_fun]
      exact ⟨.reset k v f hk, inv_set_present h _ hk (by simp), trivial⟩
    | none => exact ⟨.resetMiss k hk, hmono, rfl⟩
  | increment k =>
    simp only [step, increment]
    cases hk : c.cache.get k with
    | some x =>
      obtain ⟨v, f⟩ := x
      simp only [get_set_fun]
      exact ⟨.increment k v f hk, inv_set_present h _ hk (by have := h.freq _ _ _ hk; simp; omega), trivial⟩
    | none => exact ⟨.incrementMiss k hk, hmono, rfl⟩

theorem inv_perm {c : Cache K V} {n : Nat} (h : Inv c n) {m : AMap K (V × Nat)}
    (hp : c.cache.Perm m) : Inv { c with cache := m } n :=
  ⟨AMap.wf_perm hp h.wf, by have := hp.length_eq; have := h.cap; simp only; omega,
   fun k v f hg => h.freq k v f ((AMap.get_perm hp h.wf k).trans hg)⟩

theorem run_sim {c c' : Cache K V} {os outs} (hr : Runs c os outs c') : ∀ {n : Nat}, Inv c n →
    n + os.length < usizeMax →
    LfuSpec.Run c.capacity c.cache.get os outs c'.cache.get ∧
    Inv c' (n + os.length) ∧ c'.capacity = c.capacity := by
  induction hr with
  | nil c => intro n h _; exact ⟨.nil _, h, rfl⟩
  | @cons c m o os outs c' hp _ ih =>
    intro n h hn
    simp only [List.length_cons] at hn ⊢
    have h' := inv_perm h hp
    obtain ⟨h1, h2, h3⟩ := step_sim h' (by omega) o
    obtain ⟨g1, g2, g3⟩ := ih h2 (by omega)
    rw [h3] at g1 g3
    have hget : AMap.get m = c.cache.get := by funext k; exact (AMap.get_perm hp h.wf k).symm
    simp only [hget] at h1
    exact ⟨.cons h1 g1, by rw [show n + (os.length + 1) = n + 1 + os.length by omega]; exact g2, g3⟩

theorem inv_new (cap : Nat) : Inv (new cap : Cache K V) 1 := by
  constructor <;> simp [new]

/-! ## Property -/

/-- **C04.** For every sequence of calls (fewer than 2^64 - 2) and every hash-map iteration order,
the results are results an LFU cache may give. -/
theorem C04_lfu_refines_spec (cap : Nat) (os : List (Op K V)) (outs : List (Out K V)) (c : Cache K V)
    (hn : 1 + os.length < usizeMax) (hr : Runs (new cap) os outs c) :
    ∃ s, LfuSpec.Run cap (fun _ => none) os outs s := by
  obtain ⟨h, _⟩ := run_sim hr (inv_new cap) hn
  exact ⟨_, h⟩

/-- **C04.** The capacity is never exceeded. -/
theorem C04_lfu_capacity (cap : Nat) (os : List (Op K V)) (outs : List (Out K V)) (c : Cache K V)
    (hn : 1 + os.length < usizeMax) (hr : Runs (new cap) os outs c) : c.cache.length ≤ cap := by
  obtain ⟨_, h, h2⟩ := run_sim hr (inv_new cap) hn
  have := h.cap
  have h3 : c.capacity = cap := h2
  omega

/-- The run that never reorders the map. -/
def run (c : Cache K V) : List (Op K V) → Cache K V × List (Out K V)
  | [] => (c, [])
  | o :: os => let p := step c o; let q := run p.1 os; (q.1, p.2 :: q.2)

theorem runs_run (os : List (Op K V)) : ∀ c : Cache K V, Runs c os (run c os).2 (run c os).1 := by
  induction os with
  | nil => intro c; exact .nil c
  | cons o os ih => intro c; exact .cons (List.Perm.refl _) (ih _)

/-- Non-vacuity: a run in which a key is used twice, so the other one is evicted. -/
example : ∃ c, Runs (new 2 : Cache Nat Nat) [.insert 1 10, .insert 2 20, .get 1, .insert 3 30, .get 2, .popLfu]
    [.val none, .val none, .val (some 10), .val none, .val none, .entry (some (3, 30))] c :=
  ⟨_, runs_run [.insert 1 10, .insert 2 20, .get 1, .insert 3 30, .get 2, .popLfu] (new 2)⟩

end Verif.Lfu

import Verif.Replacer.Lemmas

/-!
# Properties C01 and C02: the LRU-K replacer
-/

namespace Verif.Replacer

open Spec

/-- **C01, C02 (refinement).** Every sequence of replacer calls runs without panic, and its results
are results the LRU-K specification allows for that sequence. (`k ≥ 1`; `k` is a 64-bit `usize`.) -/
theorem C01_C02_replacer_refines_spec (size k : Nat) (hk : 1 ≤ k) (hk2 : k ≤ u64Max) (os : List Op) :
    ∃ r outs s, run (new size k) os = some (r, outs) ∧ Run k empty os outs s := by
  obtain ⟨r, outs, s, h1, h2, _⟩ := run_sim os (r := new size k) hk hk2 (rel_new size k)
  exact ⟨r, outs, s, h1, h2⟩

/-- **C01.** After any sequence of calls, `evict` returns a frame only if that frame is tracked and
evictable according to the calls made, and returns nothing only if no frame is. -/
theorem C01_evict_safe_and_complete (size k : Nat) (hk : 1 ≤ k) (hk2 : k ≤ u64Max) (os : List Op) :
    ∃ r outs s r' victim, run (new size k) os = some (r, outs) ∧ Run k empty os outs s ∧
      evict r = some (r', victim) ∧
      (∀ f, victim = some f → Evictable s f) ∧ (victim = none → ∀ f, ¬ Evictable s f) := by
  obtain ⟨r, outs, s, h1, h2, h3, h4⟩ := run_sim os (r := new size k) hk hk2 (rel_new size k)
  have h4' : r.k = k := h4
  obtain ⟨r', out, s', g1, g2, _⟩ := step_sim (r := r) (s := s) (by omega) (by omega) h3 .evict
  simp only [step, Option.map_eq_some_iff] at g1
  obtain ⟨⟨r1, v⟩, g1a, g1b⟩ := g1
  simp only [Prod.mk.injEq] at g1b
  refine ⟨r, outs, s, r1, v, h1, h2, g1a, ?_, ?_⟩
  · intro f hf
    rw [← g1b.2, hf] at g2
    cases g2 with
    | evictSome f h e1 e2 => exact ⟨h, e1⟩
  · intro hf
    rw [← g1b.2, hf] at g2
    cases g2 with
    | evictNone h => exact h

/-- **C02.** The frame `evict` returns is an LRU-K victim with respect to the complete access
history of the calls made. -/
theorem C02_evict_returns_lruk_victim (size k : Nat) (hk : 1 ≤ k) (hk2 : k ≤ u64Max) (os : List Op) :
    ∃ r outs s r' victim, run (new size k) os = some (r, outs) ∧ Run k empty os outs s ∧
      evict r = some (r', victim) ∧ ∀ f, victim = some f → Victim k s f := by
  obtain ⟨r, outs, s, h1, h2, h3, h4⟩ := run_sim os (r := new size k) hk hk2 (rel_new size k)
  have h4' : r.k = k := h4
  obtain ⟨r', out, s', g1, g2, _⟩ := step_sim (r := r) (s := s) (by omega) (by omega) h3 .evict
  simp only [step, Option.map_eq_some_iff] at g1
  obtain ⟨⟨r1, v⟩, g1a, g1b⟩ := g1
  simp only [Prod.mk.injEq] at g1b
  refine ⟨r, outs, s, r1, v, h1, h2, g1a, ?_⟩
  intro f hf
  rw [← g1b.2, hf] at g2
  cases g2 with
  | evictSome f h e1 e2 => rw [h4'] at e2; exact e2

/-- Non-vacuity: three frames, one accessed twice, one protected; the scan picks frame 3 (one access,
the others are full or protected), then frame 1, then nothing. -/
example : (run (new 10 2)
    [.recordAccess 1 10, .recordAccess 1 11, .recordAccess 2 12, .recordAccess 3 13,
     .setEvictable 1 true, .setEvictable 3 true, .evict, .evict, .evict]).map (·.2) =
    some [.unit, .unit, .unit, .unit, .bool true, .bool true,
      .frame (some 3), .frame (some 1), .frame none] := by decide

end Verif.Replacer

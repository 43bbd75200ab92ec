import Verif.Pool.ThreadsSpec
import Verif.Pool.ThreadsLemmas

/-!
# Theorems on the buffer pool used by several threads (C129)
-/

namespace Verif.Pool

open Verif.Latch (Mode Prog Thread Sys Ordered)

variable {B : Type}

/-! ## C129: calls on the buffer pool return -/

/-- **C129 (the model).** A thread that has the pool to itself changes it as the calls of C26-C28 do, one after the other. -/
theorem C129_alone (w w' : World B) (calls : List (Env × Op B)) (outs : List (Out B)) (h : run w calls = some (w', outs)) :
    (script (calls.map fun c => .call c.1 c.2)).alone w = w' := by
  induction calls generalizing w outs with
  | nil =>
    simp only [run, Option.some.injEq, Prod.mk.injEq] at h
    rw [← h.1]
    rfl
  | cons c calls ih =>
    unfold run at h
    split at h
    · cases h
    · rename_i w1 out hs
      split at h
      · cases h
      · rename_i w2 outs' hr
        simp only [Option.some.injEq, Prod.mk.injEq] at h
        obtain ⟨rfl, _⟩ := h
        simp only [List.map_cons, script, doC]
        rw [opC_alone _ _ _ w w1 out hs]
        exact ih w1 outs' hr

theorem script_ord : ∀ calls : List (Env × Op B), Ord [] (calls.countP fun c => NeedsFrame c.2) (script (calls.map fun c => Doing.call c.1 c.2))
  | [] => .done _ rfl
  | (e, op) :: calls => by
    have ih := script_ord calls
    simp only [List.map_cons, script, doC, List.countP_cons]
    cases op with
    | new c => exact newPageC_ord ih
    | fetch ty pid => exact fetchPageC_ord ih
    | drop g => exact dropC_ord ih
    | write g b => exact writeC_ord ih
    | read g => exact readC_ord ih
    | writePage pid b => exact writePageC_ord ih
    | flush pid => exact flushC_ord ih
    | delete pid => exact deleteC_ord ih

theorem lockRank_lt (l : Lock) : lockRank l < 5 := by cases l <;> simp [lockRank]

/-- **C129 (proved part).** If there are as many free frames as the threads may need together, and no thread makes a call while it keeps a page locked, all calls return,
whatever the schedule, on every state of the pool. Missing: calls that must evict a page, callers that keep a page locked, and the batch flush; the theorems below show that then
the calls may wait for each other for ever. -/
theorem C129_finish_partial (w : World B) (threads : List (List (Env × Op B))) (h : framesNeeded threads ≤ w.free.length) : (callers w threads).AlwaysFinishes := by
  refine Latch.Disciplined.alwaysFinishes (rank := lockRank) (shared := fun _ => False) (inv := Reserve) ?_ 5 lockRank_lt
  refine ⟨threads.map fun calls => ({ prog := script (calls.map fun c => .call c.1 c.2) }, fun _ => calls.countP fun c => NeedsFrame c.2), ?_, ?_, ?_⟩
  · simp [callers, start]
  · have : ∀ ts : List (List (Env × Op B)), Latch.total ((ts.map fun calls => (({ prog := script (calls.map fun c => .call c.1 c.2) } : Thread Lock (World B)),
        (fun _ => calls.countP fun c => NeedsFrame c.2 : Latch.Tokens Unit))).map Prod.snd) () = framesNeeded ts := by
      intro ts
      induction ts with
      | nil => rfl
      | cons t ts ih =>
        simp only [List.map_cons, Latch.total, framesNeeded, List.sum_cons]
        rw [ih]
        rfl
    simp only [Reserve]
    rw [this]
    exact h
  · intro x hx
    rw [List.mem_map] at hx
    obtain ⟨calls, _, rfl⟩ := hx
    exact ⟨script_ord calls, by simp⟩

/-- Whether the schedule ends with threads that wait for ever. -/
def ends_waiting (s : Sys Lock (World B)) (schedule : List Nat) : Bool := match s.run schedule with
  | none => false
  | some s' => !s'.finished && (List.range s'.threads.length).all fun i => (s'.step i).isNone

theorem canDeadlock_of {s : Sys Lock (World B)} (schedule : List Nat) (h : ends_waiting s schedule = true) : s.CanDeadlock := by
  unfold ends_waiting at h
  split at h
  · cases h
  · rename_i s' hs
    simp only [Bool.and_eq_true, Bool.not_eq_true', List.all_eq_true, List.mem_range, Option.isNone_iff_eq_none] at h
    refine ⟨schedule, s', hs, h.1, fun i => ?_⟩
    by_cases hi : i < s'.threads.length
    · exact h.2 i hi
    · unfold Sys.step
      rw [List.getElem?_eq_none (by omega)]

/-- The pool after some calls. -/
def after (size : Nat) (calls : List (Env × Op Nat)) : World Nat := ((run (init size 2 fun _ => none) calls).getD (init size 2 fun _ => none, [])).1

/-- A call whose disk calls succeed. -/
def at_ (t : Nat) : Env := ⟨t, true, true⟩

/-- **C129 (what the code does).** Two frames hold two pages nobody uses. One thread fetches one of them, another creates a page: the first has locked the page table and waits for the
replacer, the second has locked the replacer and waits for the page table. -/
theorem C129_eviction_fails : (callers (after 2 [(at_ 0, .new ⟨1, 10⟩), (at_ 1, .new ⟨1, 20⟩), (at_ 2, .drop 0), (at_ 3, .drop 1)])
    [[(at_ 4, .fetch 1 1)], [(at_ 5, .new ⟨1, 30⟩)]]).CanDeadlock :=
  canDeadlock_of (List.replicate 12 0 ++ List.replicate 18 1 ++ [0]) (by decide +kernel)

/-- **C129 (what the code does).** The only page is in use. One thread drops its guard, another creates a page: the first has locked the page and waits for the replacer, the second has
locked the replacer and waits for the page. -/
theorem C129_drop_fails : (callers (after 1 [(at_ 0, .new ⟨1, 10⟩)]) [[(at_ 4, .drop 0)], [(at_ 5, .new ⟨1, 30⟩)]]).CanDeadlock :=
  canDeadlock_of (List.replicate 10 0 ++ List.replicate 11 1 ++ [0]) (by decide +kernel)

/-- **C129 (what the code does).** Two frames are free, but one thread keeps page 1 locked while it fetches page 0, as `insert` of the paged index keeps the leaf locked while it fetches
the header (b_plus_tree_index.rs:436-455). Another thread drops its guard of page 1: it has locked the list of pages and waits for page 1. A third creates a page and waits to write the list
of pages. From now on nobody may read that list, so the first cannot fetch page 0. -/
theorem C129_locked_page_fails : (start (after 4 [(at_ 0, .new ⟨1, 10⟩), (at_ 1, .new ⟨2, 20⟩), (at_ 2, .fetch 2 1), (at_ 3, .drop 0)])
    [[.latch 1 .write, .call (at_ 4) (.fetch 1 0), .unlatch 1 .write], [.call (at_ 5) (.drop 2)], [.call (at_ 6) (.new ⟨2, 30⟩)]]).CanDeadlock :=
  canDeadlock_of (List.replicate 3 0 ++ List.replicate 7 1 ++ List.replicate 9 2 ++ List.replicate 3 0) (by decide +kernel)

/-- **C129 (what the code does).** With four free frames: the batch flush has locked the list of pages and waits to read the page table, a fetch has locked the page table and waits to read
the list of pages, and two threads that create pages wait to write the one and the other. -/
theorem C129_batch_fails : (start (after 5 [(at_ 0, .new ⟨1, 10⟩), (at_ 1, .write 0 11)])
    [[.flushBatch (at_ 2) 5], [.call (at_ 3) (.fetch 1 0)], [.call (at_ 4) (.new ⟨2, 30⟩)], [.call (at_ 4) (.new ⟨2, 30⟩)]]).CanDeadlock :=
  canDeadlock_of (List.replicate 13 3 ++ List.replicate 16 0 ++ List.replicate 8 2 ++ List.replicate 3 1 ++ [2, 3]) (by decide +kernel)

/-- **C129 (what the code does).** One thread is enough: who has a page locked for writing and fetches it once more waits for itself. -/
theorem C129_same_page_fails : (start (after 5 [(at_ 0, .new ⟨1, 10⟩)]) [[.latch 0 .write, .call (at_ 3) (.fetch 1 0), .unlatch 0 .write]]).CanDeadlock :=
  canDeadlock_of (List.replicate 10 0) (by decide +kernel)

/-- C129: four threads that create, fetch, write, flush, drop and delete pages of a pool with five free frames meet the hypothesis of the theorem, and one of the schedules ends after these
steps with the third page deleted. -/
example : framesNeeded ([[(at_ 4, .new ⟨1, 30⟩), (at_ 5, .write 2 31), (at_ 6, .drop 2), (at_ 7, .delete 2)], [(at_ 4, .fetch 1 0), (at_ 5, .flush 0)], [(at_ 6, .fetch 1 1)],
      [(at_ 8, .drop 0), (at_ 9, .writePage 1 21)]] : List (List (Env × Op Nat))) ≤ (after 7 [(at_ 0, .new ⟨1, 10⟩), (at_ 1, .new ⟨1, 20⟩)]).free.length ∧
    ((callers (after 7 [(at_ 0, .new ⟨1, 10⟩), (at_ 1, .new ⟨1, 20⟩)]) [[(at_ 4, .new ⟨1, 30⟩), (at_ 5, .write 2 31), (at_ 6, .drop 2), (at_ 7, .delete 2)],
      [(at_ 4, .fetch 1 0), (at_ 5, .flush 0)]]).run (List.replicate 3 1 ++ List.replicate 14 0 ++ List.replicate 7 1 ++ List.replicate 59 0 ++ List.replicate 27 1)).map
        (fun s => (s.finished, s.world.table, s.world.free)) = some (true, [(0, 6), (1, 5)], [0, 1, 2, 3, 4]) := by
  decide +kernel

end Verif.Pool

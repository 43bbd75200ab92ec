import Verif.HashPage.Props
/-!
# Pages at work: cases that meet the hypotheses of C147, and schedules on which threads disturb each other

Keys and values are numbers. A page for pairs of 400 bytes has 10 slots and two bytes per bitmap (`arraySize`).
-/

namespace Verif.HashPage

/-- Equality of numbers. -/
def same (a b : Nat) : Bool := a == b

/-- A new page for pairs of `size` bytes. -/
def fresh (size : Nat) : Page Nat Nat := (Page.new 0 0 (arraySize size)).getD ⟨[], [], [], false⟩

theorem fresh_new {size : Nat} (h : size < 4096) : Page.new 0 0 (arraySize size) = some (fresh size) := by
  have := (not_congr (C147_size_fails 0 0 size)).2 (by omega)
  unfold fresh
  cases hp : Page.new 0 0 (arraySize size) with
  | none => exact absurd hp this
  | some g => rfl

/-- Two threads insert; the second then looks for the key of the first. -/
def raceCalls : Nat → List (Call Nat Nat)
  | 0 => [.insert 1 10]
  | 1 => [.insert 2 20, .getValue 1, .getValue 2, .numReadable]
  | _ => []

/-- Both threads look for a free slot before one of them has marked the slot it has found. -/
def raceSched : List Nat := List.replicate 23 0 ++ List.replicate 23 1 ++ List.replicate 8 0 ++ List.replicate 50 1

/-- What a thread has heard. -/
def pastOf (calls : Nat → List (Call Nat Nat)) (n : Nat) (g : Page Nat Nat) (sched : List Nat) (t : Nat) : List (Call Nat Nat × Res Nat Nat) :=
  (((Sys.start g calls).runs same same n sched).threads t).past

/-- Two insertions at the same time both succeed, and one of the pairs is gone, although nothing was removed and 9 slots are free. -/
theorem C147_race_fails : pastOf raceCalls (arraySize 400) (fresh 400) raceSched 0 = [(.insert 1 10, .bool true)] ∧
    pastOf raceCalls (arraySize 400) (fresh 400) raceSched 1 =
      [(.insert 2 20, .bool true), (.getValue 1, .values []), (.getValue 2, .values [20]), (.numReadable, .count 1)] := by
  decide +kernel

/-- A third thread looks for key 1 while the other two insert. -/
def tornCalls : Nat → List (Call Nat Nat)
  | 0 => [.insert 1 10]
  | 1 => [.insert 2 20]
  | 2 => [.getValue 1]
  | _ => []

/-- The third thread reads the key of the first pair and the value of the second. -/
def tornSched : List Nat := List.replicate 23 0 ++ List.replicate 23 1 ++ List.replicate 8 0 ++ List.replicate 3 2 ++ List.replicate 8 1 ++ List.replicate 50 2

/-- `get_value` returns for key 1 the value that was inserted with key 2. -/
theorem C147_torn_fails : pastOf tornCalls (arraySize 400) (fresh 400) tornSched 2 = [(.getValue 1, .values [20])] ∧
    ∀ t, (.insert 1 20 : Call Nat Nat) ∉ tornCalls t := by
  refine ⟨by decide +kernel, fun t => ?_⟩
  match t with
  | 0 => decide
  | 1 => decide
  | 2 => decide
  | _ + 3 => exact List.not_mem_nil

/-! ## Non-vacuity -/

/-- Ten pairs fill the page; a removed one does not make room; the values of a key are found. -/
example : MapCall.acts same same (arraySize 400) ((List.range 10).map (fun i => MapCall.insert i (i + 100)) ++
    [.isFull, .insert 10 110, .remove 3 103, .remove 3 103, .getValue 3, .getValue 9, .isFull, .numReadable, .insert 3 7]) ⟨[], 0⟩ =
    List.replicate 10 (.bool true) ++
      [.bool true, .bool false, .bool true, .bool false, .values [], .values [109], .bool false, .count 9, .bool false] := by decide +kernel

example (cs : List (MapCall Nat Nat)) : (runCalls same same (arraySize 400) (fresh 400) (cs.map MapCall.call)).2 =
    (MapCall.acts same same (arraySize 400) cs ⟨[], 0⟩).map some := C147_sequential_partial (fresh_new (by decide)) same same cs

/-- Thread 0 owns slot 2, thread 1 slot 3: their bits are in the same bytes. Both look at each other's slot. -/
def slotCalls : Nat → List (Nat × SlotCall Nat Nat)
  | 0 => [(2, .insertAt 1 10), (3, .isReadable), (2, .insertAt 1 11), (2, .removeAt), (2, .isReadable), (2, .valueAt)]
  | 1 => [(3, .insertAt 2 20), (2, .isOccupied), (3, .removeAt), (3, .isOccupied)]
  | _ => []

example (sched : List Nat) : (((Sys.start (fresh 400) fun u => (slotCalls u).map fun c => c.2.on c.1).runs same same (arraySize 400) sched).threads 0).past.length = 6 →
    ((((Sys.start (fresh 400) fun u => (slotCalls u).map fun c => c.2.on c.1).runs same same (arraySize 400) sched).threads 0).past.filter
      fun x => decide (x.1.slot? = some 2)).map (·.2) = [.bool true, .bool false, .unit, .bool false, .value 10] := by
  intro hl
  have h := C147_slots_partial (fresh_new (size := 400) (by decide)) same same slotCalls (t := 0) (i := 2)
    (fun u c hc => by
      match u with
      | 0 => revert c hc; decide
      | 1 => revert c hc; decide
      | _ + 2 => cases hc)
    (by decide)
    (fun u hu c hc => by
      match u with
      | 0 => exact absurd rfl hu
      | 1 => revert c hc; decide
      | _ + 2 => cases hc) sched rfl rfl rfl
  rw [hl] at h
  exact h.2.1

example : ((((Sys.start (fresh 400) fun u => (slotCalls u).map fun c => c.2.on c.1).runs same same (arraySize 400)
    ((List.replicate 20 [0, 1]).flatten ++ List.replicate 10 0)).threads 0).past.length = 6) := by decide +kernel

/-- One thread inserts, one removes, one looks. -/
def oneCalls : Nat → List (Call Nat Nat)
  | 0 => [.insert 1 10, .insert 2 20, .insert 1 11]
  | 1 => [.remove 1 10]
  | 2 => [.getValue 1, .getValue 2]
  | _ => []

theorem oneCalls_range : ∀ t, ∀ c ∈ oneCalls t, c.InRange (arraySize 400)
  | 0, c, hc => by
    simp only [oneCalls, List.mem_cons, List.not_mem_nil, or_false] at hc
    rcases hc with rfl | rfl | rfl <;> intro i hi <;> cases hi
  | 1, c, hc => by
    simp only [oneCalls, List.mem_cons, List.not_mem_nil, or_false] at hc
    subst hc; intro i hi; cases hi
  | 2, c, hc => by
    simp only [oneCalls, List.mem_cons, List.not_mem_nil, or_false] at hc
    rcases hc with rfl | rfl <;> intro i hi <;> cases hi
  | _ + 3, c, hc => by cases hc

theorem oneCalls_writer : ∀ t, ∀ c ∈ oneCalls t, c.inserts ≠ none → t = 0
  | 0, _, _, _ => rfl
  | 1, c, hc, h => by revert c hc h; decide
  | 2, c, hc, h => by revert c hc h; decide
  | _ + 3, c, hc, _ => by cases hc

/-- Long enough for all of them, in turns. -/
def turns : List Nat := (List.replicate 80 [0, 2, 1]).flatten

example : pastOf oneCalls (arraySize 400) (fresh 400) turns 0 = [(.insert 1 10, .bool true), (.insert 2 20, .bool true), (.insert 1 11, .bool false)] ∧
    pastOf oneCalls (arraySize 400) (fresh 400) turns 1 = [(.remove 1 10, .bool false)] ∧
    pastOf oneCalls (arraySize 400) (fresh 400) turns 2 = [(.getValue 1, .values []), (.getValue 2, .values [])] := by decide +kernel

/-- The first thread has inserted both pairs before the third looks, while the second removes the first pair. -/
def late : List Nat := List.replicate 60 0 ++ (List.replicate 3 [1, 2]).flatten ++ List.replicate 80 2

example : pastOf oneCalls (arraySize 400) (fresh 400) late 2 = [(.getValue 1, .values [10]), (.getValue 2, .values [20])] := by decide +kernel

example : ∀ v ∈ [20], ∃ k, ((Sys.start (fresh 400) oneCalls).runs same same (arraySize 400) late).Begun (k, v) ∧ same k 2 = true :=
  C147_writer_partial (fresh_new (by decide)) same same oneCalls oneCalls_range oneCalls_writer late rfl (t := 2)
    (by rw [show (((Sys.start (fresh 400) oneCalls).runs same same (arraySize 400) late).threads 2).past =
          [(.getValue 1, .values [10]), (.getValue 2, .values [20])] from by decide +kernel]; simp)

/-- Without the thread that removes. -/
def keepCalls : Nat → List (Call Nat Nat)
  | 0 => [.insert 1 10, .insert 2 20]
  | 2 => [.getValue 1, .getValue 2]
  | _ => []

theorem keep_reader : ∀ c ∈ keepCalls 2, c.inserts = none := by decide

/-- Whatever happens after the first insertion has returned, the third thread finds its pair. -/
example (later : List Nat) : ∃ after, (((((Sys.start (fresh 400) keepCalls).runs same same (arraySize 400) (List.replicate 29 0)).runs same same (arraySize 400) later).threads 2).past =
      [] ++ after) ∧ ∀ key vs, (.getValue key, .values vs) ∈ after → same 1 key = true → 10 ∈ vs :=
  C147_found_partial (fresh_new (size := 400) (by decide)) same same keepCalls (w := 0)
    (fun t c hc => by
      match t with
      | 0 => simp only [keepCalls, List.mem_cons, List.not_mem_nil, or_false] at hc; rcases hc with rfl | rfl <;> intro i hi <;> cases hi
      | 1 => cases hc
      | 2 => simp only [keepCalls, List.mem_cons, List.not_mem_nil, or_false] at hc; rcases hc with rfl | rfl <;> intro i hi <;> cases hi
      | _ + 3 => cases hc)
    (fun t c hc h => by
      match t with
      | 0 => rfl
      | 1 => cases hc
      | 2 => exact absurd (keep_reader c hc) h
      | _ + 3 => cases hc)
    (fun t c hc => by
      match t with
      | 0 => revert c hc; decide
      | 1 => cases hc
      | 2 => revert c hc; decide
      | _ + 3 => cases hc)
    (List.replicate 29 0) later rfl rfl (c := .insert 1 10) rfl
    (by rw [show (((Sys.start (fresh 400) keepCalls).runs same same (arraySize 400) (List.replicate 29 0)).threads 0).past = [(.insert 1 10, .bool true)] from by decide +kernel]; simp)
    (t := 2) rfl

example : (runCalls same same (arraySize 400) (fresh 400) [.keyAt 10, .keyAt 3]).2 = [none, none] :=
  (C147_poison_fails (fresh_new (by decide)) same same 10 3 (by decide) (by decide)).1

example : (runCalls same same (arraySize 400) (fresh 400) [.insert 1 10, .insert 1 11]).2 = [some (.bool true), some (.bool false)] :=
  (C147_keys_fails (fresh_new (by decide)) (by decide) same same (k := 1) rfl rfl).2

end Verif.HashPage

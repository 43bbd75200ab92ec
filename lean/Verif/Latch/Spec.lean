import Verif.Latch.Model

/-!
# What it means that all calls return
-/

namespace Verif.Latch

variable {L σ : Type} [DecidableEq L]

/-- Whatever the schedule, all threads come to their end: no schedule goes on for ever, and when no thread can take a step, it is because all have finished. -/
structure Sys.AlwaysFinishes (s : Sys L σ) : Prop where
  ends : ∀ schedule : Nat → Nat, ∃ n, s.run ((List.range n).map schedule) = none
  complete : ∀ (schedule : List Nat) (s' : Sys L σ), s.run schedule = some s' → (∀ i, s'.step i = none) → s'.finished = true

/-- Some schedule leads to a state in which some thread has not finished and no thread can ever take another step. -/
def Sys.CanDeadlock (s : Sys L σ) : Prop := ∃ schedule s', s.run schedule = some s' ∧ s'.finished = false ∧ ∀ i, s'.step i = none

end Verif.Latch

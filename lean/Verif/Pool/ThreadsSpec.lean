import Verif.Pool.Threads
import Verif.Latch.Spec

/-!
# Specification of the buffer pool used by several threads
-/

namespace Verif.Pool

open Verif.Latch (Mode Sys)

variable {B : Type}

/-- Threads that only make calls and keep no page locked in between. -/
def callers (w : World B) (threads : List (List (Env × Op B))) : Sys Lock (World B) := start w (threads.map fun calls => calls.map fun c => .call c.1 c.2)

/-- A call that hands out a guard may need a free frame. -/
def NeedsFrame : Op B → Bool
  | .new _ => true
  | .fetch _ _ => true
  | _ => false

/-- How many free frames the threads may need together. -/
def framesNeeded (threads : List (List (Env × Op B))) : Nat := (threads.map fun calls => calls.countP fun c => NeedsFrame c.2).sum

end Verif.Pool

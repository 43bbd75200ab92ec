import Verif.Pool.ThreadsSpec
import Verif.Pool.Spec

/-!
# Specification of the books of a pool used by several threads

What the threads do is fixed in advance, but the theorems are about all scripts and all schedules: a client that decides by what it saw does in each execution what some script does.
-/

namespace Verif.Pool

variable {B : Type}

/-- Whether the thread fetches this page here. -/
def Doing.fetches (pid : Nat) : Doing B → Prop
  | .call _ (.fetch _ q) => q = pid
  | _ => False

/-- Whether the thread deletes this page here. -/
def Doing.deletes (pid : Nat) : Doing B → Prop
  | .call _ (.delete q) => q = pid
  | _ => False

/-- Whether this may need a free frame. -/
def Doing.needsFrame : Doing B → Bool
  | .call _ op => NeedsFrame op
  | _ => false

/-- How many free frames the threads may need together. -/
def framesFor (threads : List (List (Doing B))) : Nat := (threads.map fun ds => ds.countP Doing.needsFrame).sum

/-- The threads fetch and delete pages that existed before. A page that one of them deletes, or that is not in memory, is fetched and deleted by one thread only. -/
structure Separate (w : World B) (threads : List (List (Doing B))) : Prop where
  existed : ∀ ds ∈ threads, ∀ d ∈ ds, ∀ pid, d.fetches pid ∨ d.deletes pid → pid < w.next
  apart : ∀ (i j : Nat) (di dj : List (Doing B)) (pid : Nat), threads[i]? = some di → threads[j]? = some dj → (∃ d ∈ di, d.fetches pid ∨ d.deletes pid) →
    (∃ d ∈ dj, d.fetches pid ∨ d.deletes pid) → i = j ∨ ((w.table.get pid).isSome ∧ ∀ ds ∈ threads, ∀ d ∈ ds, ¬ d.deletes pid)

end Verif.Pool

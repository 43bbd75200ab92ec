/-!
# Threads that take reader-writer locks

A thread is a program that takes locks, gives them back and, in between, reads and changes the shared state. The locks are
`parking_lot::RwLock`s (imported in buffer_pool_manager_async.rs and page_guard.rs:155): a lock is held by one writer or by any number of
readers, a writer that waits for the readers to leave keeps out the readers that come after it, and a thread that asks for a lock it
already holds is treated like any other thread.
Simplified: which of several waiting threads is served first is left open, and locks are never taken with a timeout or upgraded.
-/

namespace Verif.Latch

/-- `read()` or `write()` of a lock. -/
inductive Mode where
  | read
  | write
  deriving Repr, DecidableEq

/-- What a thread still has to do: nothing; take a lock, give it back; or change the shared state, where what comes next depends on the
state it saw. -/
inductive Prog (L σ : Type) where
  | done
  | lock (l : L) (m : Mode) (k : Prog L σ)
  | unlock (l : L) (m : Mode) (k : Prog L σ)
  | act (f : σ → σ) (k : σ → Prog L σ)

/-- A thread: its program, the locks it holds, and whether it is already waiting for the lock it wants to write. -/
structure Thread (L σ : Type) where
  prog : Prog L σ
  held : List (L × Mode) := []
  asked : Bool := false

/-- All threads and what they share. -/
structure Sys (L σ : Type) where
  world : σ
  threads : List (Thread L σ)

variable {L σ : Type} [DecidableEq L]

/-- The thread waits to write lock `l`: from now on no reader is let in. -/
def Thread.asks (t : Thread L σ) (l : L) : Bool := match t.prog with
  | .lock l' .write _ => t.asked && decide (l' = l)
  | _ => false

/-- The thread holds `l`, in whatever mode. -/
def Thread.holds (t : Thread L σ) (l : L) : Bool := t.held.any fun h => decide (h.1 = l)

/-- The thread holds `l` for writing. -/
def Thread.writes (t : Thread L σ) (l : L) : Bool := t.held.any fun h => decide (h.1 = l) && decide (h.2 = .write)

/-- A step of thread `i`; `none` if it has finished or has to wait. To write a lock takes two steps: asking for it, and getting it when nobody holds it. -/
def Sys.step (s : Sys L σ) (i : Nat) : Option (Sys L σ) :=
  match s.threads[i]? with
  | none => none
  | some t =>
    match t.prog with
    | .done => none
    | .act f k => some { world := f s.world, threads := s.threads.set i { t with prog := k s.world } }
    | .unlock l m k => some { s with threads := s.threads.set i { t with prog := k, held := t.held.erase (l, m) } }
    | .lock l .read k =>
      if s.threads.any (fun u => u.writes l || u.asks l) then none
      else some { s with threads := s.threads.set i { prog := k, held := (l, .read) :: t.held, asked := false } }
    | .lock l .write k =>
      if t.asked then
        if s.threads.any (fun u => u.holds l) then none
        else some { s with threads := s.threads.set i { prog := k, held := (l, .write) :: t.held, asked := false } }
      else some { s with threads := s.threads.set i { t with asked := true } }

/-- The steps of a schedule: which thread runs next; `none` if one of them could not run. -/
def Sys.run (s : Sys L σ) : List Nat → Option (Sys L σ)
  | [] => some s
  | i :: is => (s.step i).bind (·.run is)

/-- The thread has finished. -/
def Prog.finished : Prog L σ → Bool
  | .done => true
  | _ => false

/-- Every thread has finished. -/
def Sys.finished (s : Sys L σ) : Bool := s.threads.all fun t => t.prog.finished

/-- What a program does to the state when it runs alone. -/
def Prog.alone : Prog L σ → σ → σ
  | .done, w => w
  | .lock _ _ k, w => k.alone w
  | .unlock _ _ k, w => k.alone w
  | .act f k, w => (k w).alone (f w)

end Verif.Latch

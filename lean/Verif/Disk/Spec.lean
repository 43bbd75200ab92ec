import Verif.Disk.Model

/-!
# What a user expects of the disk manager

Written over the calls alone: which pages a call writes, what a page then holds, what a crash may leave.
-/

namespace Verif.Disk.Spec

open Verif.Disk

/-- The page writes a call asks for: a page of a wrong size is refused, and in a batch the pages behind it too. -/
def written (size : Nat) : Op → List (Nat × Data)
  | .write p d => if d.length = size then [(p, d)] else []
  | .writeBatch l => l.takeWhile fun x => x.2.length = size
  | _ => []

/-- The page writes of a history, oldest first. -/
def writes (size : Nat) (ops : List Op) : List (Nat × Data) := ops.flatMap (written size)

/-- What page `p` holds after the writes: the last one to `p`, or what the file had. -/
def holds (f : File) (ws : List (Nat × Data)) (p : Nat) : Data := ws.foldl (fun x w => if w.1 = p then w.2 else x) (f.get p)

/-- Whether a call only reads. -/
def reads : Op → Bool
  | .read _ => true
  | .readBatch _ => true
  | _ => false

/-- Every call that writes or flushes was answered with success. -/
def AllOk (ops : List Op) (answers : List (Out (List Data))) : Prop := ∀ x ∈ ops.zip answers, reads x.1 = true ∨ x.2 = .ok []

/-- What a crash may leave of the file: of each page what was synced or something written to it since. A page is written as a whole. -/
def Survives (s : State) (f : File) : Prop := s.synced.pages ≤ f.pages ∧ ∀ p, f.get p = s.synced.get p ∨ f.get p ∈ s.unsynced p

/-- The write buffer takes the pages that may gather in it before it is flushed. -/
def Room (c : Cfg) : Prop := c.size * max c.threshold 1 ≤ c.maxBytes

/-- The call came back. -/
def Returned {α : Type} : Out α → Prop
  | .ok _ => True
  | .err => True
  | .hang => False
  | .panic => False

instance {α : Type} (o : Out α) : Decidable (Returned o) := by cases o <;> unfold Returned <;> infer_instance

/-- An outside world in which nothing fails, no time passes and nothing is evicted. -/
def calm : Env := ⟨fun _ => true, fun _ => false, fun _ => false, fun _ => true, fun _ _ _ => true, fun _ l => l⟩

/-- A new file. -/
def empty : File := ⟨0, fun _ => List.replicate 4096 0⟩

end Verif.Disk.Spec

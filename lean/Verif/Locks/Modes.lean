/-!
# Lock modes (`src/concurrency/lock_manager.rs`), property C10
-/

namespace Verif.Locks

/-- `enum LockMode` (lock_manager.rs:178-190). -/
inductive Mode where
  | s | x | is | ix | six
  deriving DecidableEq, Repr

/-- `LockCompatibilityChecker::are_compatible` (lock_manager.rs:874-909). -/
def areCompatible : Mode → Mode → Bool
  | .is, .is => true
  | .is, .ix => true
  | .is, .s => true
  | .is, .six => true
  | .is, .x => false
  | .ix, .is => true
  | .ix, .ix => true
  | .ix, .s => false
  | .ix, .six => false
  | .ix, .x => false
  | .s, .is => true
  | .s, .s => true
  | .s, .ix => false
  | .s, .six => false
  | .s, .x => false
  | .six, .is => true
  | .six, .ix => false
  | .six, .s => false
  | .six, .six => false
  | .six, .x => false
  | .x, _ => false

/-! ## Specification: what the holder of a mode may do to the rows of the table -/

/-- Accesses to a row. -/
inductive Access where
  | read | write
  deriving DecidableEq

/-- Accesses a mode allows on every row without taking a lock on the row. -/
def Covers : Mode → Access → Prop
  | .s, .read => True
  | .six, .read => True
  | .x, _ => True
  | _, _ => False

/-- Accesses a mode allows at all, possibly after taking a row lock as well. -/
def Allows : Mode → Access → Prop
  | .is, .read => True
  | .ix, _ => True
  | .s, .read => True
  | .six, _ => True
  | .x, _ => True
  | _, _ => False

/-- Two accesses to the same row conflict when one of them writes. -/
def AccessConflict : Access → Access → Prop
  | .read, .read => False
  | _, _ => True

/-- Two modes conflict when one holder may access a row without a row lock while the other may access it in
a conflicting way: then row locks cannot keep them apart. -/
def Conflict (a b : Mode) : Prop :=
  ∃ x y, AccessConflict x y ∧ ((Covers a x ∧ Allows b y) ∨ (Allows a x ∧ Covers b y))

/-- C10. Two modes are compatible exactly when they do not conflict. -/
theorem C10_compatible_iff_no_conflict (a b : Mode) : areCompatible a b = true ↔ ¬ Conflict a b := by
  unfold Conflict
  constructor
  · rintro h ⟨x, y, h1, h2⟩
    cases a <;> cases b <;> cases x <;> cases y <;>
      simp_all [areCompatible, Covers, Allows, AccessConflict]
  · intro h
    cases a <;> cases b <;> first
      | rfl
      | (exfalso; apply h
         first
         | exact ⟨.read, .write, trivial, Or.inl ⟨trivial, trivial⟩⟩
         | exact ⟨.write, .read, trivial, Or.inr ⟨trivial, trivial⟩⟩
         | exact ⟨.write, .read, trivial, Or.inl ⟨trivial, trivial⟩⟩
         | exact ⟨.read, .write, trivial, Or.inr ⟨trivial, trivial⟩⟩)

/-- C10. The matrix is symmetric. -/
theorem C10_compatible_symm (a b : Mode) : areCompatible a b = areCompatible b a := by
  cases a <;> cases b <;> rfl

/-- Both outcomes occur. -/
example : ¬ Conflict .ix .ix ∧ Conflict .ix .s := by
  rw [← C10_compatible_iff_no_conflict]
  refine ⟨rfl, ?_⟩
  exact ⟨.write, .read, trivial, Or.inr ⟨trivial, trivial⟩⟩

end Verif.Locks

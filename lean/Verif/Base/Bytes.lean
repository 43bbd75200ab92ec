/-!
# Little-endian encodings

`u32::to_le_bytes`, `u64::to_le_bytes` and their inverses from the Rust standard library.
-/

namespace Verif.Bytes

/-- A byte. -/
abbrev Byte := Fin 256

/-- `to_le_bytes` of a `w`-byte unsigned integer. -/
def toLE : Nat → Nat → List Byte
  | 0, _ => []
  | w + 1, x => ⟨x % 256, Nat.mod_lt _ (by decide)⟩ :: toLE w (x / 256)

/-- `from_le_bytes`. -/
def ofLE : List Byte → Nat
  | [] => 0
  | b :: bs => b.val + 256 * ofLE bs

@[simp] theorem length_toLE (w x : Nat) : (toLE w x).length = w := by
  induction w generalizing x with
  | zero => rfl
  | succ w ih => simp [toLE, ih]

theorem ofLE_lt (bs : List Byte) : ofLE bs < 256 ^ bs.length := by
  induction bs with
  | nil => simp [ofLE]
  | cons b bs ih =>
    simp only [ofLE, List.length_cons, Nat.pow_succ]
    have := b.isLt
    omega

theorem ofLE_toLE {w x : Nat} (h : x < 256 ^ w) : ofLE (toLE w x) = x := by
  induction w generalizing x with
  | zero => simp at h; simp [toLE, ofLE, h]
  | succ w ih =>
    simp only [toLE, ofLE]
    rw [ih (by rw [Nat.pow_succ] at h; omega)]
    omega

theorem toLE_ofLE (bs : List Byte) : toLE bs.length (ofLE bs) = bs := by
  induction bs with
  | nil => rfl
  | cons b bs ih =>
    simp only [List.length_cons, toLE, ofLE]
    have hb := b.isLt
    have h1 : (b.val + 256 * ofLE bs) % 256 = b.val := by omega
    have h2 : (b.val + 256 * ofLE bs) / 256 = ofLE bs := by omega
    rw [h2, ih]
    congr 1
    apply Fin.ext
    exact h1

/-- Take the first `n` bytes; `none` when there are fewer (a slice index panics in Rust). -/
def take? (n : Nat) (bs : List Byte) : Option (List Byte × List Byte) :=
  if n ≤ bs.length then some (bs.take n, bs.drop n) else none

/-- Read a `w`-byte little-endian integer. -/
def readLE (w : Nat) (bs : List Byte) : Option (Nat × List Byte) :=
  (take? w bs).map fun r => (ofLE r.1, r.2)

@[simp] theorem take?_append (a b : List Byte) : take? a.length (a ++ b) = some (a, b) := by
  simp [take?]

theorem readLE_toLE {w x : Nat} (h : x < 256 ^ w) (rest : List Byte) :
    readLE w (toLE w x ++ rest) = some (x, rest) := by
  have := take?_append (toLE w x) rest
  rw [length_toLE] at this
  simp [readLE, this, ofLE_toLE h]

end Verif.Bytes

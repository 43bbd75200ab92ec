import Verif.Base.Bytes

/-!
# The postcard wire format

The library (`postcard` 1.0, Cargo.toml:32) is not part of the repository; this is its published wire format, for the types the code
serializes: variable-length integers, zigzag for signed ones, fixed-width floats, length-prefixed sequences, one byte for options and
booleans, a variable-length index for enum variants. Decoders return the value and the remaining bytes, or `none` for an error.
-/

namespace Verif.Wire

open Verif.Bytes (Byte)

/-- A decoder. -/
abbrev Dec (α : Type) := List Byte → Option (α × List Byte)

/-- A byte from a number. -/
def byte (n : Nat) : Byte := ⟨n % 256, Nat.mod_lt _ (by decide)⟩

@[simp] theorem byte_val {n : Nat} (h : n < 256) : (byte n).val = n := Nat.mod_eq_of_lt h

/-- `varint_u16`, `varint_u32`, `varint_u64`, `varint_usize`: at most `k` groups of seven bits, lowest first. -/
def encVar : Nat → Nat → List Byte
  | 0, _ => []
  | k + 1, n => if n < 128 then [byte n] else byte (n % 128 + 128) :: encVar k (n / 128)

/-- The groups of a variable-length integer. -/
def decGroups : Nat → Dec Nat
  | 0, _ => none
  | _ + 1, [] => none
  | k + 1, b :: bs => if b.val < 128 then some (b.val, bs) else (decGroups k bs).map fun r => (b.val - 128 + 128 * r.1, r.2)

/-- `try_take_varint_*` for integers of `bits` bits in at most `k` groups: a value that is too large is an error. -/
def decVar (k bits : Nat) : Dec Nat := fun bs => (decGroups k bs).bind fun r => if r.1 < 2 ^ bits then some r else none

theorem decGroups_encVar (k n : Nat) (hk : 0 < k) (h : n < 128 ^ k) (rest : List Byte) :
    decGroups k (encVar k n ++ rest) = some (n, rest) := by
  induction k generalizing n with
  | zero => omega
  | succ k ih =>
    unfold encVar
    split
    · next h1 => simp [decGroups, byte_val (show n < 256 by omega), h1]
    · next h1 =>
      have h2 : (byte (n % 128 + 128)).val = n % 128 + 128 := byte_val (by omega)
      have h3 : n / 128 < 128 ^ k := by
        rw [Nat.pow_succ] at h
        exact Nat.div_lt_of_lt_mul (by omega)
      have h4 : 0 < k := by
        cases k with
        | zero => simp at h; omega
        | succ _ => omega
      simp only [List.cons_append, decGroups, h2, if_neg (show ¬ n % 128 + 128 < 128 by omega), ih _ h4 h3, Option.map_some]
      congr 2
      omega

theorem decVar_encVar {k bits n : Nat} (h : n < 2 ^ bits) (hk0 : 0 < k) (hk : 2 ^ bits ≤ 128 ^ k) (rest : List Byte) :
    decVar k bits (encVar k n ++ rest) = some (n, rest) := by
  simp [decVar, decGroups_encVar k n hk0 (by omega) rest, h]

/-! ### Integers -/

def encU16 := encVar 3
def decU16 := decVar 3 16
def encU32 := encVar 5
def decU32 := decVar 5 32
def encU64 := encVar 10
def decU64 := decVar 10 64

theorem decU16_encU16 {n : Nat} (h : n < 2 ^ 16) (rest : List Byte) : decU16 (encU16 n ++ rest) = some (n, rest) :=
  decVar_encVar h (by decide) (by decide) rest

theorem decU32_encU32 {n : Nat} (h : n < 2 ^ 32) (rest : List Byte) : decU32 (encU32 n ++ rest) = some (n, rest) :=
  decVar_encVar h (by decide) (by decide) rest

theorem decU64_encU64 {n : Nat} (h : n < 2 ^ 64) (rest : List Byte) : decU64 (encU64 n ++ rest) = some (n, rest) :=
  decVar_encVar h (by decide) (by decide) rest

/-- Zigzag: 0, -1, 1, -2, ... -/
def zigzag (i : Int) : Nat := if 0 ≤ i then (2 * i).toNat else (-2 * i - 1).toNat

def unzigzag (n : Nat) : Int := if n % 2 = 0 then (n / 2 : Nat) else -((n / 2 : Nat) : Int) - 1

theorem unzigzag_zigzag (i : Int) : unzigzag (zigzag i) = i := by
  unfold zigzag unzigzag
  split
  · rw [if_pos (by omega)]; omega
  · rw [if_neg (by omega)]; omega

/-- Signed integers of `bits` bits. -/
def InRange (bits : Nat) (i : Int) : Prop := -(2 ^ (bits - 1) : Nat) ≤ i ∧ i < (2 ^ (bits - 1) : Nat)

instance (bits : Nat) (i : Int) : Decidable (InRange bits i) := inferInstanceAs (Decidable (_ ∧ _))

theorem zigzag_lt {bits : Nat} {i : Int} (hb : 0 < bits) (h : InRange bits i) : zigzag i < 2 ^ bits := by
  obtain ⟨h1, h2⟩ := h
  have : 2 ^ bits = 2 * 2 ^ (bits - 1) := by
    obtain ⟨b, rfl⟩ : ∃ b, bits = b + 1 := ⟨bits - 1, by omega⟩
    rw [Nat.pow_succ]; simp; omega
  unfold zigzag
  split <;> omega

def encI16 (i : Int) := encU16 (zigzag i)
def decI16 : Dec Int := fun bs => (decU16 bs).map fun r => (unzigzag r.1, r.2)
def encI32 (i : Int) := encU32 (zigzag i)
def decI32 : Dec Int := fun bs => (decU32 bs).map fun r => (unzigzag r.1, r.2)
def encI64 (i : Int) := encU64 (zigzag i)
def decI64 : Dec Int := fun bs => (decU64 bs).map fun r => (unzigzag r.1, r.2)

theorem decI16_encI16 {i : Int} (h : InRange 16 i) (rest : List Byte) : decI16 (encI16 i ++ rest) = some (i, rest) := by
  simp [decI16, encI16, decU16_encU16 (zigzag_lt (by decide) h), unzigzag_zigzag]

theorem decI32_encI32 {i : Int} (h : InRange 32 i) (rest : List Byte) : decI32 (encI32 i ++ rest) = some (i, rest) := by
  simp [decI32, encI32, decU32_encU32 (zigzag_lt (by decide) h), unzigzag_zigzag]

theorem decI64_encI64 {i : Int} (h : InRange 64 i) (rest : List Byte) : decI64 (encI64 i ++ rest) = some (i, rest) := by
  simp [decI64, encI64, decU64_encU64 (zigzag_lt (by decide) h), unzigzag_zigzag]

/-- `i8` is one byte, two's complement. -/
def encI8 (i : Int) : List Byte := [byte (i % 256).toNat]

def decI8 : Dec Int
  | [] => none
  | b :: bs => some (if b.val < 128 then (b.val : Int) else (b.val : Int) - 256, bs)

theorem decI8_encI8 {i : Int} (h : InRange 8 i) (rest : List Byte) : decI8 (encI8 i ++ rest) = some (i, rest) := by
  obtain ⟨h1, h2⟩ := h
  have h3 : (byte (i % 256).toNat).val = (i % 256).toNat := byte_val (by omega)
  simp only [encI8, List.singleton_append, decI8, h3]
  congr 2
  simp at h1 h2
  split <;> omega

def encBool (b : Bool) : List Byte := [if b then 1 else 0]

def decBool : Dec Bool
  | [] => none
  | b :: bs => if b.val = 0 then some (false, bs) else if b.val = 1 then some (true, bs) else none

theorem decBool_encBool (b : Bool) (rest : List Byte) : decBool (encBool b ++ rest) = some (b, rest) := by
  cases b <;> rfl

/-! ### Sequences -/

/-- `Option<T>`. -/
def encOpt {α : Type} (e : α → List Byte) : Option α → List Byte
  | none => [0]
  | some a => 1 :: e a

def decOpt {α : Type} (d : Dec α) : Dec (Option α)
  | [] => none
  | b :: bs => if b.val = 0 then some (none, bs) else if b.val = 1 then (d bs).map fun r => (some r.1, r.2) else none

theorem decOpt_encOpt {α : Type} {e : α → List Byte} {d : Dec α} {ok : α → Prop}
    (h : ∀ a rest, ok a → d (e a ++ rest) = some (a, rest)) {o : Option α} (ho : ∀ a, o = some a → ok a) (rest : List Byte) :
    decOpt d (encOpt e o ++ rest) = some (o, rest) := by
  cases o with
  | none => rfl
  | some a => simp [encOpt, decOpt, h a rest (ho a rfl)]

/-- `n` values one after the other. -/
def decN {α : Type} (d : Dec α) : Nat → Dec (List α)
  | 0, bs => some ([], bs)
  | n + 1, bs => (d bs).bind fun r => (decN d n r.2).map fun r' => (r.1 :: r'.1, r'.2)

/-- `Vec<T>` and byte arrays: the length, then the elements. -/
def encSeq {α : Type} (e : α → List Byte) (l : List α) : List Byte := encU64 l.length ++ l.flatMap e

def decSeq {α : Type} (d : Dec α) : Dec (List α) := fun bs => (decU64 bs).bind fun r => decN d r.1 r.2

theorem decN_flatMap {α : Type} {e : α → List Byte} {d : Dec α} {ok : α → Prop}
    (h : ∀ a rest, ok a → d (e a ++ rest) = some (a, rest)) : ∀ (l : List α), (∀ a ∈ l, ok a) → ∀ rest,
    decN d l.length (l.flatMap e ++ rest) = some (l, rest)
  | [], _, _ => rfl
  | a :: l, hl, rest => by
    simp only [List.length_cons, decN, List.flatMap_cons, List.append_assoc]
    rw [h a _ (hl a List.mem_cons_self)]
    simp [decN_flatMap h l (fun a ha => hl a (List.mem_cons_of_mem _ ha)) rest]

theorem decSeq_encSeq {α : Type} {e : α → List Byte} {d : Dec α} {ok : α → Prop}
    (h : ∀ a rest, ok a → d (e a ++ rest) = some (a, rest)) {l : List α} (hl : ∀ a ∈ l, ok a) (hn : l.length < 2 ^ 64) (rest : List Byte) :
    decSeq d (encSeq e l ++ rest) = some (l, rest) := by
  simp only [decSeq, encSeq, List.append_assoc, decU64_encU64 hn, Option.bind_some]
  exact decN_flatMap h l hl rest

/-- One raw byte. -/
def decByte : Dec Byte
  | [] => none
  | b :: bs => some (b, bs)

/-- `String` and `Vec<u8>`: strings are their UTF-8 bytes (that they are valid UTF-8 is not modelled: Rust strings always are). -/
def encBytes (l : List Byte) : List Byte := encSeq (fun b => [b]) l

def decBytes : Dec (List Byte) := decSeq decByte

theorem decBytes_encBytes {l : List Byte} (hn : l.length < 2 ^ 64) (rest : List Byte) : decBytes (encBytes l ++ rest) = some (l, rest) :=
  decSeq_encSeq (ok := fun _ => True) (fun _ _ _ => rfl) (fun _ _ => trivial) hn rest

/-- Fixed-width little-endian (`f32`, `f64` as bit patterns). -/
def decFixed (w : Nat) : Dec Nat := Bytes.readLE w

theorem decFixed_toLE {w n : Nat} (h : n < 256 ^ w) (rest : List Byte) : decFixed w (Bytes.toLE w n ++ rest) = some (n, rest) :=
  Bytes.readLE_toLE h rest

end Verif.Wire

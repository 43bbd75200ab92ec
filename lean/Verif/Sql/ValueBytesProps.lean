import Verif.Sql.ValueBytes

/-!
# C133: The bytes of a value are read back as the value
-/

namespace Verif.Sql

open Verif.Wire Verif.Bytes

/-! ## Specification -/

/-- The values of the Rust types behind the variants: integers and bit patterns within their width, texts that are UTF-8. Arrays, enumerations, structures and NULL are
left out. -/
def Sound (utf8 : List Byte → Bool) : Val → Prop
  | .boolean _ | .binary _ => True
  | .tinyInt i => - 2 ^ 7 ≤ i ∧ i < 2 ^ 7
  | .smallInt i => - 2 ^ 15 ≤ i ∧ i < 2 ^ 15
  | .integer i | .date i | .time i => - 2 ^ 31 ≤ i ∧ i < 2 ^ 31
  | .bigInt i | .interval i => - 2 ^ 63 ≤ i ∧ i < 2 ^ 63
  | .decimal x | .timestamp x => x < 2 ^ 64
  | .float x => x < 2 ^ 32
  | .point x y => x < 2 ^ 64 ∧ y < 2 ^ 64
  | .varLen s | .constLen s | .json s | .uuid s => utf8 s = true
  | _ => False

/-- The variants that take the same number of bytes whatever their value. -/
def FixedWidth : Val → Prop
  | .boolean _ | .tinyInt _ | .smallInt _ | .integer _ | .bigInt _ | .decimal _ | .float _ | .timestamp _ | .date _ | .time _ | .interval _ | .point _ _ => True
  | _ => False

/-! ## Integers -/

theorem length_intLE (w : Nat) (i : Int) : (intLE w i).length = w := length_toLE _ _

theorem ofIntLE_intLE {w : Nat} {i : Int} (hw : 0 < w) (h : - (256 ^ w / 2 : Int) ≤ i) (h' : i < 256 ^ w / 2) : ofIntLE (intLE w i) = i := by
  obtain ⟨k, hk⟩ : ∃ k : Nat, 256 ^ w = 2 * k := ⟨128 * 256 ^ (w - 1), by
    obtain ⟨v, rfl⟩ : ∃ v, w = v + 1 := ⟨w - 1, by omega⟩
    rw [Nat.pow_succ, Nat.add_sub_cancel]; omega⟩
  have hz : ((256 : Int) ^ w) = 2 * (k : Int) := by
    have := congrArg (fun n : Nat => (n : Int)) hk
    simpa using this
  rw [hz] at h h'
  have hlt : (i % (256 : Int) ^ w).toNat < 256 ^ w := by
    rw [hz, hk]
    have := Int.emod_lt_of_pos i (show (0 : Int) < 2 * k by omega)
    have := Int.emod_nonneg i (show (2 * (k : Int)) ≠ 0 by omega)
    omega
  unfold ofIntLE
  rw [length_intLE]
  unfold intLE
  rw [ofLE_toLE hlt, hz, hk]
  rcases Int.lt_or_le i 0 with hi | hi
  · have e : i % (2 * (k : Int)) = i + 2 * k := by
      rw [← Int.add_emod_right, Int.emod_eq_of_lt (by omega) (by omega)]
    rw [e, if_neg (by omega)]; omega
  · have e : i % (2 * (k : Int)) = i := Int.emod_eq_of_lt hi (by omega)
    rw [e, if_pos (by omega)]; omega

theorem take_app {a b : List Byte} {n : Nat} (h : a.length = n) : (a ++ b).take n = a := by subst h; simp

theorem drop_app {a b : List Byte} {n : Nat} (h : a.length = n) : (a ++ b).drop n = b := by subst h; simp

/-- **C133**, in part: the bytes of a value, read with the type of the value, are the value; for values of fixed width other bytes may follow. -/
theorem C133_round_trip_partial {utf8 : List Byte → Bool} {v : Val} (h : Sound utf8 v) {rest : List Byte} (hr : FixedWidth v ∨ rest = []) :
    fromBytes utf8 (asBytes (new v) ++ rest) (tag v) = new v := by
  have int : ∀ (w : Nat) (i : Int) (f : Int → Val) (m : Int), 0 < w → (256 : Int) ^ w / 2 = m → - m ≤ i ∧ i < m →
      (if w ≤ (intLE w i ++ rest).length then new (f (ofIntLE ((intLE w i ++ rest).take w))) else new .null) = new (f i) := by
    intro w i f m hw e h
    rw [if_pos (by rw [List.length_append, length_intLE]; omega), take_app (length_intLE w i), ofIntLE_intLE hw (by rw [e]; exact h.1) (by rw [e]; exact h.2)]
  have nat : ∀ (w x : Nat) (f : Nat → Val), x < 256 ^ w →
      (if w ≤ (toLE w x ++ rest).length then new (f (ofLE ((toLE w x ++ rest).take w))) else new .null) = new (f x) := by
    intro w x f h
    rw [if_pos (by rw [List.length_append, length_toLE]; omega), take_app (length_toLE w x), ofLE_toLE h]
  cases v
  case boolean b => cases b <;> rfl
  case tinyInt i => exact int 1 i .tinyInt (2 ^ 7) (by decide) rfl h
  case smallInt i => exact int 2 i .smallInt (2 ^ 15) (by decide) rfl h
  case integer i => exact int 4 i .integer (2 ^ 31) (by decide) rfl h
  case bigInt i => exact int 8 i .bigInt (2 ^ 63) (by decide) rfl h
  case date i => exact int 4 i .date (2 ^ 31) (by decide) rfl h
  case time i => exact int 4 i .time (2 ^ 31) (by decide) rfl h
  case interval i => exact int 8 i .interval (2 ^ 63) (by decide) rfl h
  case decimal x => exact nat 8 x .decimal h
  case timestamp x => exact nat 8 x .timestamp h
  case float x => exact nat 4 x .float h
  case point x y =>
    have e : asBytes (new (.point x y)) ++ rest = toLE 8 x ++ (toLE 8 y ++ rest) := by rw [← List.append_assoc]; rfl
    rw [e]
    show fromBytes utf8 (toLE 8 x ++ (toLE 8 y ++ rest)) 19 = _
    simp only [fromBytes]
    rw [if_pos (by simp only [List.length_append, length_toLE]; omega), drop_app (length_toLE 8 x), take_app (length_toLE 8 x), take_app (length_toLE 8 y),
      ofLE_toLE h.1, ofLE_toLE h.2]
    rfl
  case varLen s =>
    obtain rfl : rest = [] := hr.resolve_left (fun h => h)
    show (if utf8 (s ++ []) = true then new (.varLen (s ++ [])) else _) = _
    rw [List.append_nil, if_pos (show utf8 s = true from h)]
  case constLen s =>
    obtain rfl : rest = [] := hr.resolve_left (fun h => h)
    show (if utf8 (s ++ []) = true then new (.constLen (s ++ [])) else _) = _
    rw [List.append_nil, if_pos (show utf8 s = true from h)]
  case json s =>
    obtain rfl : rest = [] := hr.resolve_left (fun h => h)
    show (if utf8 (s ++ []) = true then new (.json (s ++ [])) else _) = _
    rw [List.append_nil, if_pos (show utf8 s = true from h)]
  case uuid s =>
    obtain rfl : rest = [] := hr.resolve_left (fun h => h)
    show (if utf8 (s ++ []) = true then new (.uuid (s ++ [])) else _) = _
    rw [List.append_nil, if_pos (show utf8 s = true from h)]
  case binary s =>
    obtain rfl : rest = [] := hr.resolve_left (fun h => h)
    show new (.binary (s ++ [])) = _
    rw [List.append_nil]
  all_goals exact (False.elim h)

/-- **C133**, in part: a value takes as many bytes as it says, but for UUIDs. -/
theorem C133_size_partial {utf8 : List Byte → Bool} {v : Val} (h : Sound utf8 v) (hu : ∀ s, v ≠ .uuid s) : (asBytes (new v)).length = storageSize (new v) := by
  cases v
  case uuid s => exact absurd rfl (hu s)
  case tinyInt i => exact length_intLE _ _
  case smallInt i => exact length_intLE _ _
  case integer i => exact length_intLE _ _
  case bigInt i => exact length_intLE _ _
  case date i => exact length_intLE _ _
  case time i => exact length_intLE _ _
  case interval i => exact length_intLE _ _
  case decimal x => exact length_toLE _ _
  case timestamp x => exact length_toLE _ _
  case float x => exact length_toLE _ _
  case point x y => show (toLE 8 x ++ toLE 8 y).length = 16; simp
  case boolean b => rfl
  case varLen s => rfl
  case constLen s => rfl
  case json s => rfl
  case binary s => rfl
  all_goals exact (False.elim h)

/-- **C133**, in part: NULL, kept as one byte, is read back as NULL in a column whose values take more than one byte. -/
theorem C133_null_partial (utf8 : List Byte → Bool) {t : Nat} (h : t ∈ [2, 3, 4, 5, 6, 7, 8, 9, 10, 19, 20]) : fromBytes utf8 (asBytes (new .null)) t = new .null := by
  simp only [List.mem_cons, List.not_mem_nil, or_false] at h
  rcases h with rfl | rfl | rfl | rfl | rfl | rfl | rfl | rfl | rfl | rfl | rfl <;> rfl

example : Sound (fun _ => true) (.integer (-5)) ∧ FixedWidth (.integer (-5)) ∧ asBytes (new (.integer (-5))) = [251, 255, 255, 255]
    ∧ Sound (fun _ => true) (.varLen [104, 105]) := ⟨by simp [Sound], trivial, by decide +kernel, rfl⟩

/-! ## What is not so -/

/-- NULL is read back as `false`, 0 or a text of one zero byte in the other columns. -/
theorem C133_null_fails {utf8 : List Byte → Bool} (h : utf8 [0] = true) : fromBytes utf8 (asBytes (new .null)) 0 = new (.boolean false) ∧
    fromBytes utf8 (asBytes (new .null)) 1 = new (.tinyInt 0) ∧ fromBytes utf8 (asBytes (new .null)) 11 = new (.varLen [0]) := by
  refine ⟨rfl, rfl, ?_⟩
  show (if utf8 [0] = true then new (.varLen [0]) else _) = _
  rw [if_pos h]

/-- Arrays, vectors and enumerations are read back empty, whatever they held. -/
theorem C133_array_fails (utf8 : List Byte → Bool) (vs : List Value) (i : Int) (s : List Byte) : fromBytes utf8 (asBytes (new (.array vs))) 17 = new (.array []) ∧
    fromBytes utf8 (asBytes (new (.vector vs))) 16 = new (.vector []) ∧ fromBytes utf8 (asBytes (new (.enum i s))) 18 = new (.enum 0 []) := ⟨rfl, rfl, rfl⟩

/-- A UUID says it takes 16 bytes and takes one for each of its 36 characters; an array says four bytes for each item and four more. -/
theorem C133_size_fails (s : List Byte) (b : Bool) : (storageSize (new (.uuid s)) = 16 ∧ (asBytes (new (.uuid s))).length = s.length) ∧
    storageSize (new (.array [new (.boolean b)])) = 8 ∧ (asBytes (new (.array [new (.boolean b)]))).length = 1 := ⟨⟨rfl, rfl⟩, rfl, rfl⟩

end Verif.Sql

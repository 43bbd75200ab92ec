import Verif.Wire.Postcard

/-!
# Serialization of SQL values and rows (`src/types_db/value.rs:10-49`, `src/storage/table/tuple.rs:219-234, 406-414`)

The derived `Serialize`/`Deserialize` of `Val`, `Size`, `Value`, `Tuple` and `TupleMeta` in postcard's wire format. Floats are bit
patterns.
-/

namespace Verif.Wire

open Verif.Bytes (Byte)

mutual
/-- `enum Val` (value.rs:11-34), in the order of its variants. -/
inductive Val where
  | boolean (b : Bool)
  | tinyInt (i : Int)
  | smallInt (i : Int)
  | integer (i : Int)
  | bigInt (i : Int)
  | decimal (bits : Nat)
  | float (bits : Nat)
  | timestamp (n : Nat)
  | date (i : Int)
  | time (i : Int)
  | interval (i : Int)
  | varLen (s : List Byte)
  | constLen (s : List Byte)
  | binary (s : List Byte)
  | json (s : List Byte)
  | uuid (s : List Byte)
  | vector (vs : List Value)
  | array (vs : List Value)
  | enum (i : Int) (s : List Byte)
  | point (x y : Nat)
  | null
  | struct

/-- `enum Size` (value.rs:37-40); a `TypeId` is its number (type_id.rs:12-36). -/
inductive Size where
  | length (n : Nat)
  | elem (ty : Nat)

/-- `struct Value` (value.rs:43-49). -/
inductive Value where
  | mk (v : Val) (size : Size) (manage : Bool) (ty : Nat) (fields : Option (List Value))
end

/-- `enum Size`. -/
def encSize : Size → List Byte
  | .length n => encU32 0 ++ encU64 n
  | .elem t => encU32 1 ++ encU32 t

/-- The number of variants of `TypeId` (type_id.rs:12-36): a larger index is an error. -/
def decTypeId : Dec Nat := fun bs => (decU32 bs).bind fun r => if r.1 < 22 then some r else none

def decSize : Dec Size := fun bs => (decU32 bs).bind fun r => match r.1 with
  | 0 => (decU64 r.2).map fun r => (.length r.1, r.2)
  | 1 => (decTypeId r.2).map fun r => (.elem r.1, r.2)
  | _ => none

mutual
/-- The derived `Serialize` of `Val`. -/
def encVal : Val → List Byte
  | .boolean b => encU32 0 ++ encBool b
  | .tinyInt i => encU32 1 ++ encI8 i
  | .smallInt i => encU32 2 ++ encI16 i
  | .integer i => encU32 3 ++ encI32 i
  | .bigInt i => encU32 4 ++ encI64 i
  | .decimal n => encU32 5 ++ Bytes.toLE 8 n
  | .float n => encU32 6 ++ Bytes.toLE 4 n
  | .timestamp n => encU32 7 ++ encU64 n
  | .date i => encU32 8 ++ encI32 i
  | .time i => encU32 9 ++ encI32 i
  | .interval i => encU32 10 ++ encI64 i
  | .varLen s => encU32 11 ++ encBytes s
  | .constLen s => encU32 12 ++ encBytes s
  | .binary s => encU32 13 ++ encBytes s
  | .json s => encU32 14 ++ encBytes s
  | .uuid s => encU32 15 ++ encBytes s
  | .vector vs => encU32 16 ++ (encU64 vs.length ++ encValues vs)
  | .array vs => encU32 17 ++ (encU64 vs.length ++ encValues vs)
  | .enum i s => encU32 18 ++ (encI32 i ++ encBytes s)
  | .point x y => encU32 19 ++ (Bytes.toLE 8 x ++ Bytes.toLE 8 y)
  | .null => encU32 20
  | .struct => encU32 21

/-- The derived `Serialize` of `Value`. -/
def encValue : Value → List Byte
  | .mk v size manage ty fields => encVal v ++ (encSize size ++ (encBool manage ++ (encU32 ty ++ (match fields with
    | none => [0]
    | some vs => 1 :: (encU64 vs.length ++ encValues vs)))))

/-- The elements of a `Vec<Value>`. -/
def encValues : List Value → List Byte
  | [] => []
  | v :: vs => encValue v ++ encValues vs
end

mutual
/-- The derived `Deserialize` of `Val`; the first argument bounds the nesting. -/
def decVal : Nat → Dec Val
  | 0, _ => none
  | d + 1, bs => (decU32 bs).bind fun r => match r.1 with
    | 0 => (decBool r.2).map fun r => (.boolean r.1, r.2)
    | 1 => (decI8 r.2).map fun r => (.tinyInt r.1, r.2)
    | 2 => (decI16 r.2).map fun r => (.smallInt r.1, r.2)
    | 3 => (decI32 r.2).map fun r => (.integer r.1, r.2)
    | 4 => (decI64 r.2).map fun r => (.bigInt r.1, r.2)
    | 5 => (decFixed 8 r.2).map fun r => (.decimal r.1, r.2)
    | 6 => (decFixed 4 r.2).map fun r => (.float r.1, r.2)
    | 7 => (decU64 r.2).map fun r => (.timestamp r.1, r.2)
    | 8 => (decI32 r.2).map fun r => (.date r.1, r.2)
    | 9 => (decI32 r.2).map fun r => (.time r.1, r.2)
    | 10 => (decI64 r.2).map fun r => (.interval r.1, r.2)
    | 11 => (decBytes r.2).map fun r => (.varLen r.1, r.2)
    | 12 => (decBytes r.2).map fun r => (.constLen r.1, r.2)
    | 13 => (decBytes r.2).map fun r => (.binary r.1, r.2)
    | 14 => (decBytes r.2).map fun r => (.json r.1, r.2)
    | 15 => (decBytes r.2).map fun r => (.uuid r.1, r.2)
    | 16 => (decU64 r.2).bind fun r => (decN (decValue d) r.1 r.2).map fun r => (.vector r.1, r.2)
    | 17 => (decU64 r.2).bind fun r => (decN (decValue d) r.1 r.2).map fun r => (.array r.1, r.2)
    | 18 => (decI32 r.2).bind fun r => (decBytes r.2).map fun r' => (.enum r.1 r'.1, r'.2)
    | 19 => (decFixed 8 r.2).bind fun r => (decFixed 8 r.2).map fun r' => (.point r.1 r'.1, r'.2)
    | 20 => some (.null, r.2)
    | 21 => some (.struct, r.2)
    | _ => none

/-- The derived `Deserialize` of `Value`. -/
def decValue : Nat → Dec Value
  | 0, _ => none
  | d + 1, bs => (decVal d bs).bind fun v => (decSize v.2).bind fun s => (decBool s.2).bind fun m => (decTypeId m.2).bind fun t =>
    (decOpt (fun bs => (decU64 bs).bind fun r => decN (decValue d) r.1 r.2) t.2).map fun f => (.mk v.1 s.1 m.1 t.1 f.1, f.2)
end

mutual
/-- The number fits the Rust type of its field. -/
def Val.ok : Val → Prop
  | .boolean _ => True
  | .tinyInt i => InRange 8 i
  | .smallInt i => InRange 16 i
  | .integer i | .date i | .time i => InRange 32 i
  | .bigInt i | .interval i => InRange 64 i
  | .decimal n => n < 256 ^ 8
  | .float n => n < 256 ^ 4
  | .timestamp n => n < 2 ^ 64
  | .varLen s | .constLen s | .binary s | .json s | .uuid s => s.length < 2 ^ 64
  | .vector vs | .array vs => vs.length < 2 ^ 64 ∧ Values.ok vs
  | .enum i s => InRange 32 i ∧ s.length < 2 ^ 64
  | .point x y => x < 256 ^ 8 ∧ y < 256 ^ 8
  | .null | .struct => True

def Value.ok : Value → Prop
  | .mk v size _ ty fields => v.ok ∧ (match size with
      | .length n => n < 2 ^ 64
      | .elem t => t < 22) ∧ ty < 22 ∧ (match fields with
      | none => True
      | some vs => vs.length < 2 ^ 64 ∧ Values.ok vs)

def Values.ok : List Value → Prop
  | [] => True
  | v :: vs => v.ok ∧ Values.ok vs
end

mutual
/-- Nesting depth. -/
def Val.depth : Val → Nat
  | .vector vs | .array vs => Values.depth vs + 1
  | _ => 1

def Value.depth : Value → Nat
  | .mk v _ _ _ fields => max v.depth (match fields with
    | none => 0
    | some vs => Values.depth vs) + 1

def Values.depth : List Value → Nat
  | [] => 0
  | v :: vs => max v.depth (Values.depth vs)
end

theorem decSize_encSize {s : Size} (h : match s with
      | .length n => n < 2 ^ 64
      | .elem t => t < 22) (rest : List Byte) : decSize (encSize s ++ rest) = some (s, rest) := by
  cases s with
  | length n => simp [decSize, encSize, decU32_encU32, decU64_encU64 h]
  | elem t =>
    have ht : t < 22 := h
    have : t < 2 ^ 32 := by omega
    simp [decSize, encSize, decU32_encU32, decTypeId, this, ht]

mutual
theorem decVal_encVal : ∀ (v : Val) (d : Nat), v.depth ≤ d → v.ok → ∀ rest, decVal d (encVal v ++ rest) = some (v, rest)
  | v, 0, hd, _, _ => by
    cases v <;> simp [Val.depth] at hd
  | .boolean b, d + 1, _, _, rest => by simp [decVal, encVal, decU32_encU32, decBool_encBool]
  | .tinyInt i, d + 1, _, h, rest => by simp [Val.ok] at h; simp [decVal, encVal, decU32_encU32, decI8_encI8 h]
  | .smallInt i, d + 1, _, h, rest => by simp [Val.ok] at h; simp [decVal, encVal, decU32_encU32, decI16_encI16 h]
  | .integer i, d + 1, _, h, rest => by simp [Val.ok] at h; simp [decVal, encVal, decU32_encU32, decI32_encI32 h]
  | .bigInt i, d + 1, _, h, rest => by simp [Val.ok] at h; simp [decVal, encVal, decU32_encU32, decI64_encI64 h]
  | .decimal n, d + 1, _, h, rest => by simp only [Val.ok] at h; simp [decVal, encVal, decU32_encU32, decFixed_toLE h]
  | .float n, d + 1, _, h, rest => by simp only [Val.ok] at h; simp [decVal, encVal, decU32_encU32, decFixed_toLE h]
  | .timestamp n, d + 1, _, h, rest => by simp only [Val.ok] at h; simp [decVal, encVal, decU32_encU32, decU64_encU64 h]
  | .date i, d + 1, _, h, rest => by simp [Val.ok] at h; simp [decVal, encVal, decU32_encU32, decI32_encI32 h]
  | .time i, d + 1, _, h, rest => by simp [Val.ok] at h; simp [decVal, encVal, decU32_encU32, decI32_encI32 h]
  | .interval i, d + 1, _, h, rest => by simp [Val.ok] at h; simp [decVal, encVal, decU32_encU32, decI64_encI64 h]
  | .varLen s, d + 1, _, h, rest => by simp only [Val.ok] at h; simp [decVal, encVal, decU32_encU32, decBytes_encBytes h]
  | .constLen s, d + 1, _, h, rest => by simp only [Val.ok] at h; simp [decVal, encVal, decU32_encU32, decBytes_encBytes h]
  | .binary s, d + 1, _, h, rest => by simp only [Val.ok] at h; simp [decVal, encVal, decU32_encU32, decBytes_encBytes h]
  | .json s, d + 1, _, h, rest => by simp only [Val.ok] at h; simp [decVal, encVal, decU32_encU32, decBytes_encBytes h]
  | .uuid s, d + 1, _, h, rest => by simp only [Val.ok] at h; simp [decVal, encVal, decU32_encU32, decBytes_encBytes h]
  | .vector vs, d + 1, hd, h, rest => by
    simp only [Val.ok] at h
    simp only [Val.depth] at hd
    simp [decVal, encVal, decU32_encU32, decU64_encU64 h.1, decN_encValues vs d (by omega) h.2 rest]
  | .array vs, d + 1, hd, h, rest => by
    simp only [Val.ok] at h
    simp only [Val.depth] at hd
    simp [decVal, encVal, decU32_encU32, decU64_encU64 h.1, decN_encValues vs d (by omega) h.2 rest]
  | .enum i s, d + 1, _, h, rest => by
    simp only [Val.ok] at h; simp [decVal, encVal, decU32_encU32, decI32_encI32 h.1, decBytes_encBytes h.2]
  | .point x y, d + 1, _, h, rest => by
    simp only [Val.ok] at h; simp [decVal, encVal, decU32_encU32, decFixed_toLE h.1, decFixed_toLE h.2]
  | .null, d + 1, _, _, rest => by simp [decVal, encVal, decU32_encU32]
  | .struct, d + 1, _, _, rest => by simp [decVal, encVal, decU32_encU32]

theorem decValue_encValue : ∀ (v : Value) (d : Nat), v.depth ≤ d → v.ok → ∀ rest, decValue d (encValue v ++ rest) = some (v, rest)
  | .mk _ _ _ _ none, 0, hd, _, _ => by
    simp only [Value.depth] at hd; omega
  | .mk _ _ _ _ (some _), 0, hd, _, _ => by
    simp only [Value.depth] at hd; omega
  | .mk v size manage ty none, d + 1, hd, h, rest => by
    simp only [Value.ok] at h
    simp only [Value.depth] at hd
    obtain ⟨h1, h2, h3, _⟩ := h
    have ht : ty < 2 ^ 32 := by omega
    simp [decValue, encValue, decVal_encVal v d (by omega) h1, decSize_encSize h2, decBool_encBool, decTypeId, decU32_encU32 ht, h3, decOpt]
  | .mk v size manage ty (some vs), d + 1, hd, h, rest => by
    simp only [Value.ok] at h
    simp only [Value.depth] at hd
    obtain ⟨h1, h2, h3, h4⟩ := h
    have ht : ty < 2 ^ 32 := by omega
    simp [decValue, encValue, decVal_encVal v d (by omega) h1, decSize_encSize h2, decBool_encBool, decTypeId, decU32_encU32 ht, h3, decOpt,
      decU64_encU64 h4.1, decN_encValues vs d (by omega) h4.2 rest]

theorem decN_encValues : ∀ (vs : List Value) (d : Nat), Values.depth vs ≤ d → Values.ok vs → ∀ rest,
    decN (decValue d) vs.length (encValues vs ++ rest) = some (vs, rest)
  | [], _, _, _, _ => by simp [decN, encValues]
  | v :: vs, d, hd, h, rest => by
    simp only [Values.ok] at h
    simp only [Values.depth] at hd
    simp [decN, encValues, decValue_encValue v d (by omega) h.1, decN_encValues vs d (by omega) h.2 rest]
end

/-! ### The bytes bound the nesting -/

theorem encVar_pos {k n : Nat} (hk : 0 < k) : 0 < (encVar k n).length := by
  cases k with
  | zero => omega
  | succ k => unfold encVar; split <;> simp

mutual
theorem Val.depth_le : ∀ v : Val, v.depth ≤ (encVal v).length
  | .vector vs => by
    have := Values.depth_le vs
    have h1 : 0 < (encU32 16).length := encVar_pos (by decide)
    simp only [Val.depth, encVal, List.length_append]; omega
  | .array vs => by
    have := Values.depth_le vs
    have h1 : 0 < (encU32 17).length := encVar_pos (by decide)
    simp only [Val.depth, encVal, List.length_append]; omega
  | .boolean _ | .tinyInt _ | .smallInt _ | .integer _ | .bigInt _ | .decimal _ | .float _ | .timestamp _ | .date _ | .time _ | .interval _
  | .varLen _ | .constLen _ | .binary _ | .json _ | .uuid _ | .enum _ _ | .point _ _ | .null | .struct => by
    have h1 : ∀ n, 0 < (encU32 n).length := fun n => encVar_pos (by decide)
    simp only [Val.depth, encVal, List.length_append]
    first
      | exact h1 _
      | exact Nat.le_trans (h1 _) (Nat.le_add_right _ _)

theorem Value.depth_le : ∀ v : Value, v.depth ≤ (encValue v).length
  | .mk v size manage ty none => by
    have := Val.depth_le v
    have h1 : 0 < (encBool manage).length := by cases manage <;> decide
    simp only [Value.depth, encValue, List.length_append]; omega
  | .mk v size manage ty (some vs) => by
    have := Val.depth_le v
    have := Values.depth_le vs
    have h1 : 0 < (encBool manage).length := by cases manage <;> decide
    simp only [Value.depth, encValue, List.length_append, List.length_cons]; omega

theorem Values.depth_le : ∀ vs : List Value, Values.depth vs ≤ (encValues vs).length
  | [] => by simp [Values.depth]
  | v :: vs => by
    have := Value.depth_le v
    have := Values.depth_le vs
    simp only [Values.depth, encValues, List.length_append]; omega
end

/-! ### Rows -/

/-- `Tuple` (tuple.rs:407-414): the values only; the row's place is not serialized. -/
def encTuple (vs : List Value) : List Byte := encU64 vs.length ++ encValues vs

/-- The nesting is bounded by the number of bytes. -/
def decTuple : Dec (List Value) := fun bs => (decU64 bs).bind fun r => decN (decValue bs.length) r.1 r.2

/-- A row whose numbers fit their types. -/
def TupleOk (vs : List Value) : Prop := vs.length < 2 ^ 64 ∧ Values.ok vs

theorem decTuple_encTuple {vs : List Value} (h : TupleOk vs) (rest : List Byte) : decTuple (encTuple vs ++ rest) = some (vs, rest) := by
  have := Values.depth_le vs
  have hd : Values.depth vs ≤ (encTuple vs ++ rest).length := by
    simp only [encTuple, List.length_append]; omega
  simp only [decTuple]
  rw [show decU64 (encTuple vs ++ rest) = some (vs.length, encValues vs ++ rest) by
    simp [encTuple, decU64_encU64 h.1]]
  exact decN_encValues vs _ hd h.2 rest

/-- `TupleMeta` (tuple.rs:220-234). -/
structure Meta where
  creator : Nat
  commit : Option Nat
  deleted : Bool
  undo : Option Nat
  deriving Repr, DecidableEq

def encMeta (m : Meta) : List Byte := encU64 m.creator ++ (encOpt encU64 m.commit ++ (encBool m.deleted ++ encOpt encU64 m.undo))

def decMeta : Dec Meta := fun bs => (decU64 bs).bind fun c => (decOpt decU64 c.2).bind fun t => (decBool t.2).bind fun d =>
  (decOpt decU64 d.2).map fun u => (⟨c.1, t.1, d.1, u.1⟩, u.2)

/-- The numbers fit 64 bits. -/
def Meta.ok (m : Meta) : Prop := m.creator < 2 ^ 64 ∧ (∀ t, m.commit = some t → t < 2 ^ 64) ∧ ∀ u, m.undo = some u → u < 2 ^ 64

theorem decMeta_encMeta {m : Meta} (h : m.ok) (rest : List Byte) : decMeta (encMeta m ++ rest) = some (m, rest) := by
  obtain ⟨h1, h2, h3⟩ := h
  simp [decMeta, encMeta, decU64_encU64 h1, decOpt_encOpt (fun a rest ha => decU64_encU64 ha rest) h2, decBool_encBool,
    decOpt_encOpt (fun a rest ha => decU64_encU64 ha rest) h3]

end Verif.Wire

import Verif.Sql.OrderLemmas
import Verif.Sql.FloatExact
import Verif.Sql.Cast

/-!
# C38: comparison, equality, ordering and hashing of values agree
# C39: casts between integer types never change a value silently

Specification vocabulary: `valueEq` is `==` on `Value`, `valueCmp` is `partial_cmp`, `hashIn` is what `Hash` feeds the hasher, and
`compareOp` is the six SQL comparison functions. `CmpOp.rel` is what an operator means for integers. `Fmt.exact` is the number a float
stands for, in units of the smallest positive float of its format.
-/

namespace Verif.Sql

open Verif.Wire Verif.Bytes

/-- What a comparison operator means for integers. -/
def CmpOp.rel : CmpOp → Int → Int → Bool
  | .eq, i, j => i = j
  | .ne, i, j => i ≠ j
  | .lt, i, j => i < j
  | .le, i, j => i ≤ j
  | .gt, i, j => i > j
  | .ge, i, j => i ≥ j

/-- The value is an integer, of any of the four widths. -/
def IsInt (a : Value) (i : Int) : Prop := a = new (.tinyInt i) ∨ a = new (.smallInt i) ∨ a = new (.integer i) ∨ a = new (.bigInt i)

mutual
/-- No NaN occurs in the value. -/
def nanFree : Value → Bool
  | .mk v _ _ _ fs => match v with
    | .decimal x => !f64.nan x
    | .float x => !f32.nan x
    | .point x y => !f64.nan x && !f64.nan y
    | .vector vs => nanFrees vs
    | .array vs => nanFrees vs
    | .struct => nanFreeFields fs
    | _ => true
termination_by structural x => x

def nanFreeFields : Option (List Value) → Bool
  | none => true
  | some vs => nanFrees vs
termination_by structural x => x

def nanFrees : List Value → Bool
  | [] => true
  | v :: vs => nanFree v && nanFrees vs
termination_by structural x => x
end

/-! ## Equality and hash -/

/-- `==` is an equivalence. -/
theorem C38_equality : (∀ a, valueEq a a = true) ∧ (∀ a b, valueEq a b = true → valueEq b a = true) ∧
    ∀ a b c, valueEq a b = true → valueEq b c = true → valueEq a c = true :=
  ⟨valueEq_refl, fun _ _ => valueEq_symm, fun _ _ _ => valueEq_trans⟩

theorem hashFields_canon {fs : Option (List Value)} (h : ∀ vs ∈ inside .struct fs, hashIns (canonValues vs) = hashIns vs ∧ (canonValues vs).length = vs.length) :
    hashFields (canonFields fs) = hashFields fs := by
  cases fs with
  | none => rfl
  | some vs => have := h vs (by simp [inside]); simp [canonFields, hashFields, this]

theorem hash_ind : ValueInd (fun a => hashIn (canonValue a) = hashIn a)
    (fun as => hashIns (canonValues as) = hashIns as ∧ (canonValues as).length = as.length) where
  value v s m t fs ih := by
    cases v with
    | vector vs => have := ih vs (by simp [inside]); simp [canonValue, canonVal, hashIn, this]
    | array vs => have := ih vs (by simp [inside]); simp [canonValue, canonVal, hashIn, this]
    | struct => simp [canonValue, hashIn, hashFields_canon ih]
    | decimal x => simp [canonValue, canonVal, hashIn, Fmt.canon_canon Fmt.good64]
    | float x => simp [canonValue, canonVal, hashIn, Fmt.canon_canon Fmt.good32]
    | point x y => simp [canonValue, canonVal, hashIn, Fmt.canon_canon Fmt.good64]
    | _ => simp [canonValue, canonVal, hashIn]
  nil := by simp [canonValues]
  cons a as h1 h2 := by simp [canonValues, hashIns, h1, h2]

/-- Equal values are hashed alike. -/
theorem C38_equal_hash {a b : Value} (h : valueEq a b = true) : hashIn a = hashIn b := by
  rw [← value_ind hash_ind a, ← value_ind hash_ind b, (valueEq_iff a b).1 h]

-- Two different representations of equal values: zeros of both signs inside an array, and NULLs of different types.
example : valueEq (new (.array [new (.decimal 0), newTyped .null 3])) (new (.array [new (.decimal (2 ^ 63)), newTyped .null 11])) = true := by
  decide +kernel

/-! ## Order -/

/-- `partial_cmp` says equal exactly for equal values; exchanging the operands reverses the answer; less is transitive; and equal
values compare alike with everything. -/
theorem C38_order_coherent :
    (∀ a b, valueCmp a b = some .eq ↔ valueEq a b = true) ∧
    (∀ a b, valueCmp b a = (valueCmp a b).map Ordering.swap) ∧
    (∀ a b c, valueCmp a b = some .lt → valueCmp b c = some .lt → valueCmp a c = some .lt) ∧
    (∀ a b c, valueEq a b = true → valueCmp a c = valueCmp b c) :=
  ⟨valueCmp_eq_iff, valueCmp_swap, fun _ _ _ => valueCmp_trans, fun _ _ c h => valueCmp_congr h c⟩

theorem fcmp_some {f : Fmt} {x y : Nat} (hx : f.nan x = false) (hy : f.nan y = false) : (f.cmp x y).isSome = true := by simp [Fmt.cmp, hx, hy]

theorem then_some {a b : Option Ordering} (ha : a.isSome = true) (hb : b.isSome = true) : (thenCmp a b).isSome = true := by
  rcases a with _ | _ | _ | _ <;> simp_all [thenCmp]

theorem total_ind : ValueInd (fun a => ∀ b, nanFree a = true → nanFree b = true → (valueCmp a b).isSome = true)
    (fun as => ∀ bs, nanFrees as = true → nanFrees bs = true → (valuesCmp as bs).isSome = true) where
  value v s m t fs ih b h h' := by
    obtain ⟨v', s', m', t', fs'⟩ := b
    cases he : valueEq (.mk v s m t fs) (.mk v' s' m' t' fs') with
    | true => rw [valueCmp_of_eq he]; rfl
    | false =>
      rw [valueCmp_ne he]
      split; · rfl
      split; · rfl
      split; · rfl
      split; · rfl
      rename_i hg
      have hg : tag v = tag v' := by simpa using hg
      cases v with
      | vector vs => cases v' <;> simp [tag] at hg; simp [nanFree] at h h'; exact ih vs (by simp [inside]) _ h h'
      | array vs => cases v' <;> simp [tag] at hg; simp [nanFree] at h h'; exact ih vs (by simp [inside]) _ h h'
      | struct =>
        cases v' <;> simp [tag] at hg
        cases fs with
        | none => cases fs' <;> rfl
        | some vs => cases fs' with
          | none => rfl
          | some vs' => simp [nanFree, nanFreeFields] at h h'; exact ih vs (by simp [inside]) _ h h'
      | decimal x => cases v' <;> simp [tag] at hg; simp [nanFree] at h h'; exact fcmp_some h h'
      | float x => cases v' <;> simp [tag] at hg; simp [nanFree] at h h'; exact fcmp_some h h'
      | point x y =>
        cases v' <;> simp [tag] at hg; simp [nanFree] at h h'
        exact then_some (fcmp_some h.1 h'.1) (fcmp_some h.2 h'.2)
      | _ => cases v' <;> simp [tag] at hg <;> rfl
  nil bs _ _ := by cases bs <;> rfl
  cons a as h1 h2 bs h h' := by
    cases bs with
    | nil => rfl
    | cons b bs =>
      simp only [nanFrees, Bool.and_eq_true] at h h'
      exact then_some (h1 _ h.1 h'.1) (h2 _ h.2 h'.2)

/-- The order decides between any two values in which no NaN occurs. -/
theorem C38_order_total_partial {a b : Value} (ha : nanFree a = true) (hb : nanFree b = true) :
    valueCmp a b = some .lt ∨ valueEq a b = true ∨ valueCmp b a = some .lt := by
  have h := value_ind total_ind a b ha hb
  rcases hc : valueCmp a b with _ | _ | _ | _
  · rw [hc] at h; cases h
  · exact .inl rfl
  · exact .inr (.inl ((valueCmp_eq_iff a b).1 hc))
  · right; right; rw [valueCmp_swap, hc]; rfl

/-- It does not decide between a NaN and a number. -/
theorem C38_order_total_fails : ∃ a b, Typed a ∧ Typed b ∧ valueCmp a b = none ∧ valueCmp b a = none :=
  ⟨new (.decimal 0x7ff8000000000000), new (.decimal 0x3ff0000000000000), by decide +kernel, by decide +kernel, by decide +kernel, by decide +kernel⟩

-- A chain through NULL, two types and two numbers.
example : valueCmp (new .null) (new (.integer 7)) = some .lt ∧ valueCmp (new (.integer 7)) (new (.integer 8)) = some .lt ∧
    valueCmp (new (.integer 8)) (new (.bigInt 1)) = some .lt ∧ nanFree (new (.bigInt 1)) = true := by decide +kernel

/-! ## SQL comparison operators -/

theorem holds_compare (op : CmpOp) (i j : Int) : op.holds (some (compare i j)) = op.rel i j := by
  rcases Int.lt_trichotomy i j with h | h | h
  · have h1 : i ≠ j := by omega
    have h2 : ¬ j < i := by omega
    have h3 : i ≤ j := by omega
    have h4 : ¬ j ≤ i := by omega
    rw [Int.compare_eq_lt.2 h]; cases op <;> simp [CmpOp.holds, CmpOp.rel, h, h1, h2, h3, h4]
  · subst h; rw [Int.compare_eq_eq.2 rfl]; cases op <;> simp [CmpOp.holds, CmpOp.rel]
  · have h1 : i ≠ j := by omega
    have h2 : ¬ i < j := by omega
    have h3 : j ≤ i := by omega
    have h4 : ¬ i ≤ j := by omega
    rw [Int.compare_eq_gt.2 h]; cases op <;> simp [CmpOp.holds, CmpOp.rel, h, h1, h2, h3, h4]

theorem lex_single (i j : Int) : lexCmp [i] [j] = compare i j := by
  simp only [lexCmp]; cases compare i j <;> rfl

theorem sameType_int {op : CmpOp} {a b : Value} {i j : Int} (ht : ty a = ty b) (hg : tag (val a) = tag (val b))
    (hv : valEq (val a) (val b) = (tag (val a) == tag (val b) && [i] == [j]))
    (hc : valCmp (val a) (val b) = if tag (val a) = tag (val b) then some (lexCmp [i] [j]) else some (compare (tag (val a)) (tag (val b)))) :
    sameType op a b = .of (op.rel i j) := by
  rw [if_pos hg, lex_single] at hc
  cases op <;> simp only [sameType, ht, ne_eq, not_true_eq_false, if_false, hv, hc, holds_compare] <;> simp [hg, CmpOp.rel] <;> rfl

/-- SQL comparison of two integers, of any widths, is the comparison of the numbers. -/
theorem C38_int_compare (op : CmpOp) {a b : Value} {i j : Int} (ha : IsInt a i) (hb : IsInt b j) :
    compareOp op a b = .of (op.rel i j) := by
  rcases ha with rfl | rfl | rfl | rfl <;> rcases hb with rfl | rfl | rfl | rfl <;>
    simp only [compareOp, new, newTyped, isNull, isSeq, val, ty, num, tag, numCmp, holds_compare, Bool.or_self, Bool.false_eq_true, if_false,
      Bool.and_false, ne_eq, Nat.reduceEqDiff, not_false_eq_true, true_or, if_true, not_true_eq_false, false_and, or_self] <;>
    exact sameType_int rfl rfl rfl rfl

-- 300 as SmallInt is not less than 7 as TinyInt.
example : IsInt (new (.smallInt 300)) 300 ∧ IsInt (new (.tinyInt 7)) 7 ∧ compareOp .lt (new (.smallInt 300)) (new (.tinyInt 7)) = .f :=
  ⟨.inr (.inl rfl), .inl rfl, by decide +kernel⟩

/-- With a NULL operand every comparison is NULL. -/
theorem C38_null_compare (op : CmpOp) {a b : Value} (h : isNull a = true ∨ isNull b = true) : compareOp op a b = .n := by
  rw [compareOp, if_pos (by simpa using h)]

theorem holds_cmp {op : CmpOp} {f : Fmt} {x y : Nat} (hx : f.nan x = false) (hy : f.nan y = false) :
    op.holds (f.cmp x y) = op.rel (f.exact x) (f.exact y) := by rw [Fmt.cmp_exact hx hy, holds_compare]

theorem rel_mul (op : CmpOp) (i j : Int) {k : Int} (hk : 0 < k) : op.rel (i * k) (j * k) = op.rel i j := by
  have h1 : i * k < j * k ↔ i < j := Int.mul_lt_mul_right hk
  have h2 : j * k < i * k ↔ j < i := Int.mul_lt_mul_right hk
  cases op <;> simp only [CmpOp.rel, decide_eq_decide] <;> omega

/-- SQL comparison of an integer of at most 53 bits with a `Decimal` is the comparison of the numbers, on either side. (Every TinyInt,
SmallInt and Integer has at most 32 bits.) -/
theorem C38_int_decimal_partial (op : CmpOp) {a : Value} {i : Int} {x : Nat} (ha : IsInt a i) (hi : i.natAbs < 2 ^ 53) (hx : f64.nan x = false) :
    compareOp op a (new (.decimal x)) = .of (op.rel (i * f64.unit) (f64.exact x)) ∧
    compareOp op (new (.decimal x)) a = .of (op.rel (f64.exact x) (i * f64.unit)) := by
  have e := Fmt.exact_ofInt64 hi
  have n := Fmt.nan_ofInt f64 i
  rw [← e]
  rcases ha with rfl | rfl | rfl | rfl <;>
    simp [compareOp, new, newTyped, isNull, isSeq, val, num, tag, numCmp, holds_cmp, n, hx]

/-- The same for an integer of at most 24 bits and a `Float`. -/
theorem C38_int_float_partial (op : CmpOp) {a : Value} {i : Int} {x : Nat} (ha : IsInt a i) (hi : i.natAbs < 2 ^ 24) (hx : f32.nan x = false) :
    compareOp op a (new (.float x)) = .of (op.rel (i * f32.unit) (f32.exact x)) ∧
    compareOp op (new (.float x)) a = .of (op.rel (f32.exact x) (i * f32.unit)) := by
  have e := Fmt.exact_ofInt32 hi
  have n := Fmt.nan_ofInt f32 i
  rw [← e]
  rcases ha with rfl | rfl | rfl | rfl <;>
    simp [compareOp, new, newTyped, isNull, isSeq, val, num, tag, numCmp, holds_cmp, n, hx]

/-- SQL comparison of a `Decimal` with a finite `Float` is the comparison of the numbers; with the `Float` on the left, this holds for the
operators other than `<=` and `>=`. -/
theorem C38_float_decimal_partial (op : CmpOp) {x y : Nat} (hx : f64.nan x = false) (hy : f32.mag y < f32.inf) :
    compareOp op (new (.decimal x)) (new (.float y)) = .of (op.rel (f64.exact x) (f32.exact y * 2 ^ 925)) ∧
    (op ≠ .le → op ≠ .ge → compareOp op (new (.float y)) (new (.decimal x)) = .of (op.rel (f32.exact y * 2 ^ 925) (f64.exact x))) := by
  obtain ⟨e, n⟩ := Fmt.exact_convert hy
  rw [← e]
  constructor
  · simp [compareOp, new, newTyped, isNull, isSeq, val, num, tag, numCmp, holds_cmp, n, hx]
  · intro h1 h2
    simp [compareOp, new, newTyped, isNull, isSeq, val, num, tag, numCmp, holds_cmp, n, hx, h1, h2]

-- 1.5 as Decimal, 2 as Integer.
example : compareOp .lt (new (.decimal 0x3ff8000000000000)) (new (.integer 2)) = .t ∧ f64.nan 0x3ff8000000000000 = false := by decide +kernel

/-- A `Float` can be both greater than a `Decimal` and not greater than it: 0.1 as `f32` against 0.1 as `f64`. -/
theorem C38_float_decimal_fails : ∃ a b, Typed a ∧ Typed b ∧ compareOp .gt a b = .t ∧ compareOp .le a b = .t :=
  ⟨new (.float 0x3dcccccd), new (.decimal 0x3fb999999999999a), by decide +kernel, by decide +kernel, by decide +kernel, by decide +kernel⟩

/-- SQL equality is not transitive: two different BigInts equal the same `Decimal`. -/
theorem C38_bigint_decimal_fails : ∃ a b c, Typed a ∧ Typed b ∧ Typed c ∧ compareOp .eq a b = .t ∧ compareOp .eq b c = .t ∧
    compareOp .eq a c = .f :=
  ⟨new (.bigInt (2 ^ 53)), new (.decimal (f64.ofInt (2 ^ 53))), new (.bigInt (2 ^ 53 + 1)), by decide +kernel, by decide +kernel, by decide +kernel,
    by decide +kernel, by decide +kernel, by decide +kernel⟩

/-- Numbers that SQL calls equal are different keys for grouping and hashing: 1 as Integer and as BigInt. -/
theorem C38_key_fails : ∃ a b, Typed a ∧ Typed b ∧ compareOp .eq a b = .t ∧ valueEq a b = false ∧ hashIn a ≠ hashIn b :=
  ⟨new (.integer 1), new (.bigInt 1), by decide +kernel, by decide +kernel, by decide +kernel, by decide +kernel, by decide +kernel⟩

/-- SQL calls any two structs equal. -/
theorem C38_struct_fails : ∃ a b, Typed a ∧ Typed b ∧ compareOp .eq a b = .t ∧ valueEq a b = false :=
  ⟨.mk .struct (.length 8) false 21 (some [new (.integer 1)]), .mk .struct (.length 8) false 21 (some [new (.integer 2)]),
    by decide +kernel, by decide +kernel, by decide +kernel, by decide +kernel⟩

/-- No array is less than, equal or greater than any value by `<`, `<=`, `>`, `>=`, not even itself by `<=`. -/
theorem C38_array_fails (op : CmpOp) (ho : op = .lt ∨ op = .le ∨ op = .gt ∨ op = .ge) (a b : Value) (ha : isNull a = false) (hb : isNull b = false)
    (h : ∃ vs, val a = .vector vs ∨ val a = .array vs ∨ val b = .vector vs ∨ val b = .array vs) : compareOp op a b = .f := by
  have hs : isSeq a = true ∨ isSeq b = true := by
    obtain ⟨vs, h | h | h | h⟩ := h
    · exact .inl (by simp only [isSeq, h])
    · exact .inl (by simp only [isSeq, h])
    · exact .inr (by simp only [isSeq, h])
    · exact .inr (by simp only [isSeq, h])
  have hop : op.ordering = true := by rcases ho with rfl | rfl | rfl | rfl <;> rfl
  have : (op.ordering && (isSeq a || isSeq b)) = true := by rw [hop]; simpa using hs
  simp only [compareOp, ha, hb, this, Bool.or_self, Bool.false_eq_true, if_false, if_true]

-- ARRAY[1] <= ARRAY[1] is FALSE, ARRAY[1] = ARRAY[1] is TRUE.
example : compareOp .le (new (.vector [new (.integer 1)])) (new (.vector [new (.integer 1)])) = .f ∧
    compareOp .eq (new (.vector [new (.integer 1)])) (new (.vector [new (.integer 1)])) = .t := by decide +kernel

/-! ## C39: casts between integer types -/

/-- `i` is a number of the integer type `t` (1 TinyInt, 2 SmallInt, 3 Integer, 4 BigInt). -/
def Fits (t : Nat) (i : Int) : Prop := 1 ≤ t ∧ t ≤ 4 ∧ lo t ≤ i ∧ i ≤ hi t

theorem fits_cases {t : Nat} {i : Int} (h : Fits t i) : (t = 1 ∧ - 2 ^ 7 ≤ i ∧ i ≤ 2 ^ 7 - 1) ∨ (t = 2 ∧ - 2 ^ 15 ≤ i ∧ i ≤ 2 ^ 15 - 1) ∨
    (t = 3 ∧ - 2 ^ 31 ≤ i ∧ i ≤ 2 ^ 31 - 1) ∨ (t = 4 ∧ - 2 ^ 63 ≤ i ∧ i ≤ 2 ^ 63 - 1) := by
  obtain ⟨h1, h2, h3, h4⟩ := h
  have : t = 1 ∨ t = 2 ∨ t = 3 ∨ t = 4 := by omega
  rcases this with rfl | rfl | rfl | rfl
  · exact .inl ⟨rfl, h3, h4⟩
  · exact .inr (.inl ⟨rfl, h3, h4⟩)
  · exact .inr (.inr (.inl ⟨rfl, h3, h4⟩))
  · exact .inr (.inr (.inr ⟨rfl, h3, h4⟩))

/-- A cast between integer types succeeds exactly when the number fits the target, and then gives that number in the target type. -/
theorem C39_cast {s t : Nat} {i : Int} (hs : Fits s i) (ht : 1 ≤ t ∧ t ≤ 4) :
    (Fits t i → castTo (intVal s i) t = .ok (intVal t i)) ∧ (¬ Fits t i → castTo (intVal s i) t = .err) := by
  have h2 : t = 1 ∨ t = 2 ∨ t = 3 ∨ t = 4 := by omega
  rcases fits_cases hs with ⟨rfl, a, b⟩ | ⟨rfl, a, b⟩ | ⟨rfl, a, b⟩ | ⟨rfl, a, b⟩ <;> rcases h2 with rfl | rfl | rfl | rfl <;>
    (constructor <;> intro h <;> simp only [Fits, lo, hi] at h <;>
      simp [castTo, intVal, newTyped, ty, isNull, val, castInt, lo, hi] <;> omega)

/-- The number in the result is the number given. -/
theorem C39_preserves {s t : Nat} {i : Int} (hs : Fits s i) (ht : 1 ≤ t ∧ t ≤ 4) {v : Value} (h : castTo (intVal s i) t = .ok v) :
    intOf v = some i ∧ ty v = t := by
  by_cases hf : Fits t i
  · rw [(C39_cast hs ht).1 hf] at h
    cases h
    have h2 : t = 1 ∨ t = 2 ∨ t = 3 ∨ t = 4 := by omega
    rcases h2 with rfl | rfl | rfl | rfl <;> exact ⟨rfl, rfl⟩
  · rw [(C39_cast hs ht).2 hf] at h; cases h

/-- Casting there and back is the identity. -/
theorem C39_round_trip {s t : Nat} {i : Int} (hs : Fits s i) (ht : 1 ≤ t ∧ t ≤ 4) {v : Value} (h : castTo (intVal s i) t = .ok v) :
    castTo v s = .ok (intVal s i) := by
  by_cases hf : Fits t i
  · rw [(C39_cast hs ht).1 hf] at h
    cases h
    exact (C39_cast hf ⟨hs.1, hs.2.1⟩).1 hs
  · rw [(C39_cast hs ht).2 hf] at h; cases h

/-- A NULL casts to a NULL of the target type. -/
theorem C39_null (s t : Nat) : castTo (newTyped .null s) t = .ok (newTyped .null t) := by
  unfold castTo
  by_cases h : s = t
  · subst h; rw [if_pos (show ty _ = s from rfl)]
  · simp [newTyped, ty, isNull, val, h]

-- 127 fits a TinyInt and 128 does not.
example : Fits 4 127 ∧ Fits 1 127 ∧ Fits 4 128 ∧ ¬ Fits 1 128 := by simp [Fits, lo, hi]

end Verif.Sql

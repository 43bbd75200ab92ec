import Verif.Sql.ValueProps
import Verif.Sql.Arith

/-!
# C66: integer arithmetic is exact or an error
# C67: an integer written out as text reads back as the same integer
# C68: a numeric cast gives the number, or its truncation, or an error
-/

namespace Verif.Sql

open Verif.Wire Verif.Bytes

/-! ## C66 -/

/-- What the operator means for integers: `none` where it means nothing. -/
def ArOp.math : ArOp → Int → Int → Option Int
  | .add, i, j => some (i + j)
  | .sub, i, j => some (i - j)
  | .mul, i, j => some (i * j)
  | .div, i, j => if j = 0 then none else some (Int.tdiv i j)

/-- An arithmetic expression on two integers, of any widths, gives exactly the mathematical result, in the wider of the two types; it is
an overflow error exactly when the result does not fit that type, and an error when dividing by zero. -/
theorem C66_exact (op : ArOp) {s t : Nat} {i j : Int} (hi : Fits s i) (hj : Fits t j) :
    (∀ r, op.math i j = some r → Fits (max s t) r → arith op (intVal s i) (intVal t j) = .ok (intVal (max s t) r)) ∧
    (∀ r, op.math i j = some r → ¬ Fits (max s t) r → arith op (intVal s i) (intVal t j) = .overflow) ∧
    (op.math i j = none → arith op (intVal s i) (intVal t j) = .divZero) := by
  have ho : ∀ {s : Nat} {i : Int}, Fits s i → operand (intVal s i) = some (.int s i) := by
    intro s i h
    rcases fits_cases h with ⟨rfl, _⟩ | ⟨rfl, _⟩ | ⟨rfl, _⟩ | ⟨rfl, _⟩ <;> rfl
  have h1 : 1 ≤ max s t ∧ max s t ≤ 4 := by obtain ⟨a, b, _⟩ := hi; obtain ⟨c, d, _⟩ := hj; omega
  have e : arith op (intVal s i) (intVal t j) = checked (max s t) op i j := by simp only [arith, ho hi, ho hj]
  rw [e, checked]
  have hm : ∀ r, op.math i j = some r → ¬ (op = .div ∧ j = 0) ∧ op.onInt i j = r := by
    intro r hr
    cases op <;> simp [ArOp.math, ArOp.onInt] at hr ⊢
    · exact hr
    · exact hr
    · exact hr
    · exact hr
  refine ⟨fun r hr hf => ?_, fun r hr hf => ?_, fun hn => ?_⟩
  · rw [if_neg (hm r hr).1, (hm r hr).2, if_pos ⟨hf.2.2.1, hf.2.2.2⟩]
  · rw [if_neg (hm r hr).1, (hm r hr).2, if_neg (fun h => hf ⟨h1.1, h1.2, h.1, h.2⟩)]
  · cases op <;> simp [ArOp.math] at hn
    rw [if_pos ⟨rfl, hn⟩]

-- The smallest Integer divided by -1 does not fit; with a BigInt it does.
example : Fits 3 (- 2 ^ 31) ∧ Fits 1 (-1) ∧ ArOp.math .div (- 2 ^ 31) (-1) = some (2 ^ 31) ∧ ¬ Fits (max 3 1) (2 ^ 31) ∧ Fits (max 4 1) (2 ^ 31) := by
  simp [Fits, lo, hi, ArOp.math]

/-- A NULL operand does not give NULL but an error, whatever the other operand is. -/
theorem C66_null_fails (op : ArOp) {a b : Value} (h : isNull a = true ∨ isNull b = true) : arith op a b = .unknown := by
  have hn : ∀ {a : Value}, isNull a = true → operand a = none := by
    rintro ⟨v, _⟩ h
    cases v <;> simp [isNull, val] at h <;> rfl
  rcases h with h | h
  · simp [arith, hn h]
  · rw [arith, hn h]; split <;> simp_all

/-- The type in which a join computes on integers. -/
def JoinInt (a : Value) (t : Nat) (i : Int) : Prop := Fits t i ∧ 3 ≤ t ∧ a = intVal t i

/-- In a join condition an arithmetic expression over Integer and BigInt operands, over two Decimals, or with an integer on the left of a
Decimal, gives the value it gives elsewhere. -/
theorem C66_join_partial (op : ArOp) {a b : Value}
    (h : (∃ s i t j, JoinInt a s i ∧ JoinInt b t j) ∨ (∃ s i y, JoinInt a s i ∧ b = new (.decimal y)) ∨
      ∃ x y, a = new (.decimal x) ∧ b = new (.decimal y)) (v : Value) :
    arithJoin op a b = .ok v ↔ arith op a b = .ok v := by
  have hj : ∀ {a : Value} {t : Nat} {i : Int}, JoinInt a t i → a = new (.integer i) ∨ a = new (.bigInt i) := by
    rintro a t i ⟨⟨_, h4, _⟩, h3, rfl⟩
    have : t = 3 ∨ t = 4 := by omega
    rcases this with rfl | rfl
    · exact .inl rfl
    · exact .inr rfl
  rcases h with ⟨s, i, t, j, h1, h2⟩ | ⟨s, i, y, h1, rfl⟩ | ⟨x, y, rfl, rfl⟩
  · rcases hj h1 with rfl | rfl <;> rcases hj h2 with rfl | rfl <;>
      simp only [arithJoin, arith, new, newTyped, val, operand, checkedJoin, checked] <;> (try exact Iff.rfl)
    · split <;> simp
    · split <;> simp
  · rcases hj h1 with rfl | rfl <;> exact Iff.rfl
  · exact Iff.rfl

/-- With the Decimal on the left the join exchanges the operands: 2.5 - 1 is 1.5 in a filter and -1.5 in a join. -/
theorem C66_join_fails : ∃ a b v w, Typed a ∧ Typed b ∧ arith .sub a b = .ok v ∧ arithJoin .sub a b = .ok w ∧ compareOp .eq v w = .f :=
  ⟨new (.decimal 0x4004000000000000), new (.integer 1), mkDecimal 0x3ff8000000000000, mkDecimal 0xbff8000000000000,
    by decide +kernel, by decide +kernel, rfl, rfl, by decide +kernel⟩

/-- A join refuses arithmetic on the smaller integer types. -/
theorem C66_join_small_fails (op : ArOp) (i j : Int) : arithJoin op (new (.smallInt i)) (new (.integer j)) = .unknown := rfl

/-- The unary minus gives the negated number in the same type when it fits. -/
theorem C66_negate_partial {s : Nat} {i : Int} (hi : Fits s i) (hn : Fits s (-i)) : negate (intVal s i) = .ok (intVal s (-i)) := by
  rcases fits_cases hi with ⟨rfl, _⟩ | ⟨rfl, _⟩ | ⟨rfl, _⟩ | ⟨rfl, _⟩ <;> have hle := hn.2.2.2 <;>
    simp only [negate, intVal, newTyped, val, if_pos hle] <;> rfl

/-- When it does not fit there is no error: the negation is unchecked (a panic or a wrap, as the build decides). -/
theorem C66_negate_fails : ∃ a, Typed a ∧ negate a = .overflow := ⟨new (.integer (- 2 ^ 31)), by decide, rfl⟩

/-- `%` on two Integers is the remainder of the truncated division. -/
theorem C66_modulo_partial {i j : Int} (hi : Fits 3 i) (hj : j ≠ 0) (h : ¬ (i = - 2 ^ 31 ∧ j = -1)) :
    ∃ r, modulo (new (.integer i)) (new (.integer j)) = .ok (new (.integer r)) ∧ i = j * Int.tdiv i j + r := by
  refine ⟨Int.tmod i j, ?_, (Int.mul_tdiv_add_tmod i j).symm⟩
  have h0 : isZero (new (.integer j)) = false := by simpa [isZero, new, newTyped, val] using hj
  have : ¬ (i = lo 3 ∧ j = -1) := h
  simp only [modulo, h0]
  simp [new, newTyped, val, this, tag]

/-- `%` on other integer types gives NULL. -/
theorem C66_modulo_fails (i j : Int) : modulo (new (.bigInt i)) (new (.bigInt j)) = .ok (new .null) := by
  unfold modulo; split <;> rfl

example : Fits 3 (-7) ∧ (match modulo (new (.integer (-7))) (new (.integer 2)) with | .ok v => intOf v | _ => none) = some (-1) := by
  refine ⟨by simp [Fits, lo, hi], by decide +kernel⟩

/-! ## C67 -/

theorem digits_append (acc : Nat) (s : List Byte) (n : Nat) : digits acc s = some n → ∀ t, digits acc (s ++ t) = digits n t := by
  induction s generalizing acc with
  | nil => intro h t; cases h; rfl
  | cons b s ih =>
    intro h t
    simp only [digits, List.cons_append] at h ⊢
    split
    · rw [if_pos (by assumption)] at h; exact ih _ h t
    · rw [if_neg (by assumption)] at h; cases h

theorem ofNat_val {n : Nat} (h : n < 256) : (Fin.ofNat 256 n).val = n := by simp [Fin.ofNat, Nat.mod_eq_of_lt h]

theorem digits_one {d : Nat} (acc : Nat) (h : d < 10) : digits acc [Fin.ofNat 256 (48 + d)] = some (acc * 10 + d) := by
  have e := ofNat_val (n := 48 + d) (by omega)
  simp only [digits, e]
  rw [if_pos (by omega)]
  congr 1; omega

theorem digits_natStr : ∀ (f n : Nat), n < f → digits 0 (natStr f n) = some n := by
  intro f
  induction f with
  | zero => intro n h; omega
  | succ f ih =>
    intro n h
    rw [natStr]
    split
    · rw [digits_one 0 (by assumption)]; simp
    · have := ih (n / 10) (by omega)
      rw [digits_append _ _ _ this, digits_one _ (Nat.mod_lt _ (by decide))]
      congr 1; omega

theorem natStr_head : ∀ (f n : Nat), n < f → ∃ (b : Byte) (bs : List Byte), natStr f n = b :: bs ∧ 48 ≤ b.val ∧ b.val ≤ 57 := by
  intro f
  induction f with
  | zero => intro n h; omega
  | succ f ih =>
    intro n h
    rw [natStr]
    split
    · refine ⟨_, [], rfl, ?_⟩; rw [ofNat_val (by omega)]; omega
    · obtain ⟨b, bs, e, h1, h2⟩ := ih (n / 10) (by omega)
      exact ⟨b, bs ++ _, by rw [e]; rfl, h1, h2⟩

theorem parse_intStr {l h i : Int} (hl : l ≤ i) (hh : i ≤ h) : parseInt l h (intStr i) = some i := by
  have hd := digits_natStr (i.natAbs + 1) i.natAbs (by omega)
  obtain ⟨b, bs, e, h1, h2⟩ := natStr_head (i.natAbs + 1) i.natAbs (by omega)
  unfold intStr parseInt
  by_cases hn : i < 0
  · rw [if_pos hn]
    rw [e] at hd ⊢
    simp only [hd, Option.map_some, Option.bind_some]
    have e2 : - ((i.natAbs : Nat) : Int) = i := by omega
    rw [e2, if_pos ⟨hl, hh⟩]
  · rw [if_neg hn]
    rw [e] at hd ⊢
    have e2 : ((i.natAbs : Nat) : Int) = i := by omega
    have n1 : b ≠ 43 := by rintro rfl; revert h1; decide
    have n2 : b ≠ 45 := by rintro rfl; revert h1; decide
    split
    · simp_all
    · simp_all
    · simp_all
    · simp_all
    · simp_all
    · rw [hd]; simp [e2, hl, hh]

/-- An integer cast to a string and back to its type is that integer. -/
theorem C67_round_trip {s t : Nat} {i : Int} (hs : Fits s i) (ht : t = 11 ∨ t = 12) :
    ∃ v, castTo (intVal s i) t = .ok v ∧ ty v = t ∧ castTo v s = .ok (intVal s i) := by
  have hp : parseInt (lo s) (hi s) (intStr i) = some i := parse_intStr hs.2.2.1 hs.2.2.2
  refine ⟨strVal t (intStr i), ?_, ?_, ?_⟩
  · rcases fits_cases hs with ⟨rfl, _⟩ | ⟨rfl, _⟩ | ⟨rfl, _⟩ | ⟨rfl, _⟩ <;> rcases ht with rfl | rfl <;> rfl
  · rcases ht with rfl | rfl <;> rfl
  · have hc : castTo (strVal t (intStr i)) s = castStr (intStr i) s := by
      rcases fits_cases hs with ⟨rfl, _⟩ | ⟨rfl, _⟩ | ⟨rfl, _⟩ | ⟨rfl, _⟩ <;> rcases ht with rfl | rfl <;> rfl
    rw [hc]
    rcases fits_cases hs with ⟨rfl, _⟩ | ⟨rfl, _⟩ | ⟨rfl, _⟩ | ⟨rfl, _⟩ <;> simp only [castStr, hp] <;> rfl

/-- A string casts to an integer type only if it denotes a number of that type: reading is exact too. -/
theorem C67_read {s : Nat} (hs : 1 ≤ s ∧ s ≤ 4) {bs : List Byte} {v : Value} (h : castTo (new (.varLen bs)) s = .ok v) :
    ∃ i, Fits s i ∧ v = intVal s i ∧ parseInt (lo s) (hi s) bs = some i := by
  have hc : castTo (new (.varLen bs)) s = orErr ((parseInt (lo s) (hi s) bs).map (intVal s)) := by
    have : s = 1 ∨ s = 2 ∨ s = 3 ∨ s = 4 := by omega
    rcases this with rfl | rfl | rfl | rfl <;> rfl
  rw [hc] at h
  cases hp : parseInt (lo s) (hi s) bs with
  | none => rw [hp] at h; cases h
  | some i =>
    rw [hp] at h
    cases h
    refine ⟨i, ?_, rfl, rfl⟩
    unfold parseInt at hp
    simp only [Option.bind_eq_some_iff] at hp
    obtain ⟨k, _, hk⟩ := hp
    split at hk
    · cases hk; exact ⟨hs.1, hs.2, by omega, by omega⟩
    · cases hk

example : Fits 2 (-1207) ∧ intStr (-1207) = lit "-1207" := ⟨by simp [Fits, lo, hi], by decide +kernel⟩

/-! ## C68 -/

theorem scaled_mant (f : Fmt) (he : 1 ≤ f.e) (x : Nat) : ∃ K U : Nat, (K : Int) = f.expo x + f.bias + f.m - 1 ∧ (U : Int) = f.m + f.bias - 1 + 0 ∧
    f.scaled (f.mag x) = f.mant x * 2 ^ K ∧ f.unit = 2 ^ U ∨ f.m = 0 := by
  by_cases hm : f.m = 0
  · exact ⟨0, 0, .inr hm⟩
  have hb : f.bias = ((2 ^ (f.e - 1) : Nat) : Int) - 1 := Fmt.bias_eq f
  have hp := Nat.two_pow_pos (f.e - 1)
  refine ⟨f.mag x / 2 ^ f.m - 1, f.m + 2 ^ (f.e - 1) - 2, .inl ⟨?_, ?_, ?_, rfl⟩⟩
  · unfold Fmt.expo
    generalize hE : f.mag x / 2 ^ f.m = E
    simp only []
    split <;> omega
  · rw [hb]; omega
  · unfold Fmt.scaled Fmt.mant
    generalize hE : f.mag x / 2 ^ f.m = E
    simp only []
    split
    · rename_i h; subst h; simp
    · rfl

/-- The number a float stands for, cut off towards zero. -/
def Fmt.whole (f : Fmt) (x : Nat) : Int := Int.tdiv (f.exact x) f.unit

theorem toInt_whole {f : Fmt} (he : 1 ≤ f.e) (hm : f.m ≠ 0) {x : Nat} (hx : f.mag x < f.inf) (l h : Int) :
    f.toInt l h x = max l (min h (f.whole x)) := by
  have hn : f.nan x = false := by simp [Fmt.nan]; omega
  obtain ⟨K, U, ⟨hK, hU, hs, hu⟩ | h0⟩ := scaled_mant f he x
  · rw [Fmt.toInt, hn, if_neg (by simp), if_neg (by omega)]
    have key : f.scaled (f.mag x) / f.unit =
        if 0 ≤ f.expo x then f.mant x * 2 ^ (f.expo x).toNat else f.mant x / 2 ^ (- f.expo x).toNat := by
      rw [hs, hu]
      split
      · rename_i h
        have : K = (f.expo x).toNat + U := by omega
        rw [this, Nat.pow_add, ← Nat.mul_assoc, Nat.mul_div_cancel _ (Nat.two_pow_pos U)]
      · rename_i h
        have : U = (- f.expo x).toNat + K := by omega
        rw [this, Nat.pow_add, Nat.mul_div_mul_right _ _ (Nat.two_pow_pos K)]
    dsimp only
    rw [← key]
    unfold Fmt.whole Fmt.exact
    congr 2
    cases f.neg x
    · simp only [Bool.false_eq_true, if_false]; rfl
    · simp only [if_true, Int.neg_tdiv]; rfl
  · exact absurd h0 hm

/-- A finite Decimal or Float cast to an integer type that can hold its whole part gives the whole part. -/
theorem C68_truncates_partial {t : Nat} (ht : 1 ≤ t ∧ t ≤ 4) (x : Nat) :
    (f64.mag x < f64.inf → Fits t (f64.whole x) → castTo (new (.decimal x)) t = .ok (intVal t (f64.whole x))) ∧
    (f32.mag x < f32.inf → Fits t (f32.whole x) → castTo (new (.float x)) t = .ok (intVal t (f32.whole x))) := by
  have h4 : t = 1 ∨ t = 2 ∨ t = 3 ∨ t = 4 := by omega
  constructor
  · intro hx hf
    have e : castTo (new (.decimal x)) t = .ok (intVal t (f64.toInt (lo t) (hi t) x)) := by rcases h4 with rfl | rfl | rfl | rfl <;> rfl
    rw [e, toInt_whole (by decide) (by decide) hx]
    have : max (lo t) (min (hi t) (f64.whole x)) = f64.whole x := by have := hf.2.2; omega
    rw [this]
  · intro hx hf
    have e : castTo (new (.float x)) t = .ok (intVal t (f32.toInt (lo t) (hi t) x)) := by rcases h4 with rfl | rfl | rfl | rfl <;> rfl
    rw [e, toInt_whole (by decide) (by decide) hx]
    have : max (lo t) (min (hi t) (f32.whole x)) = f32.whole x := by have := hf.2.2; omega
    rw [this]

theorem finite_ofInt64 {i : Int} (hi : i.natAbs < 2 ^ 53) : f64.mag (f64.ofInt i) < f64.inf ∧ f64.whole (f64.ofInt i) = i := by
  have e := Fmt.exact_ofInt64 hi
  have hu : (0 : Int) < f64.unit := by have := Nat.two_pow_pos (f64.m + 2 ^ (f64.e - 1) - 2); exact_mod_cast this
  constructor
  · have hn := Fmt.nan_ofInt f64 i
    have hle : f64.mag (f64.ofInt i) ≤ f64.inf := by simpa [Fmt.nan] using hn
    rcases Nat.lt_or_eq_of_le hle with h | h
    · exact h
    · exfalso
      have hs : (f64.exact (f64.ofInt i)).natAbs = f64.scaled f64.inf := by
        unfold Fmt.exact; rw [h]; split <;> omega
      rw [e, Int.natAbs_mul, Int.natAbs_natCast] at hs
      have : f64.scaled f64.inf = 2 ^ 1024 * f64.unit := by decide +kernel
      rw [this] at hs
      have hp := Nat.eq_of_mul_eq_mul_right (by exact_mod_cast hu) hs
      have : (2:Nat) ^ 53 ≤ 2 ^ 1024 := Nat.pow_le_pow_right (by decide) (by decide)
      rw [hp] at hi
      exact absurd hi (Nat.not_lt.2 this)
  · rw [Fmt.whole, e, Int.mul_tdiv_cancel _ (by omega)]

/-- An integer of at most 53 bits cast to Decimal and back is the same. -/
theorem C68_round_trip_partial {s : Nat} {i : Int} (hs : Fits s i) (hi : i.natAbs < 2 ^ 53) :
    ∃ v, castTo (intVal s i) 5 = .ok v ∧ ty v = 5 ∧ castTo v s = .ok (intVal s i) := by
  obtain ⟨h1, h2⟩ := finite_ofInt64 hi
  refine ⟨new (.decimal (f64.ofInt i)), ?_, rfl, ?_⟩
  · rcases fits_cases hs with ⟨rfl, _⟩ | ⟨rfl, _⟩ | ⟨rfl, _⟩ | ⟨rfl, _⟩ <;> rfl
  · have := (C68_truncates_partial ⟨hs.1, hs.2.1⟩ (f64.ofInt i)).1 h1 (by rw [h2]; exact hs)
    rw [this, h2]

-- 3.7 has the whole part 3, -3.7 has -3.
example : f64.whole 0x400d99999999999a = 3 ∧ f64.whole 0xc00d99999999999a = -3 ∧ f64.mag 0x400d99999999999a < f64.inf := by decide +kernel

/-- A Decimal outside the target type becomes another number without an error: 300.0 as TinyInt is 127. NaN becomes 0. -/
theorem C68_saturates_fails : castTo (new (.decimal (f64.ofInt 300))) 1 = .ok (intVal 1 127) ∧
    castTo (new (.decimal f64.quiet)) 1 = .ok (intVal 1 0) := by
  constructor
  · show CastR.ok (intVal 1 (f64.toInt (lo 1) (hi 1) (f64.ofInt 300))) = _
    rw [show f64.toInt (lo 1) (hi 1) (f64.ofInt 300) = 127 by decide +kernel]
  · show CastR.ok (intVal 1 (f64.toInt (lo 1) (hi 1) f64.quiet)) = _
    rw [show f64.toInt (lo 1) (hi 1) f64.quiet = 0 by decide +kernel]

/-- A BigInt becomes another number on the way through Decimal: 2^53 + 1. -/
theorem C68_rounds_fails : ∃ v, castTo (intVal 4 (2 ^ 53 + 1)) 5 = .ok v ∧ castTo v 4 = .ok (intVal 4 (2 ^ 53)) := by
  refine ⟨new (.decimal (f64.ofInt (2 ^ 53 + 1))), rfl, ?_⟩
  show CastR.ok (intVal 4 (f64.toInt (lo 4) (hi 4) (f64.ofInt (2 ^ 53 + 1)))) = _
  rw [show f64.toInt (lo 4) (hi 4) (f64.ofInt (2 ^ 53 + 1)) = 2 ^ 53 by decide +kernel]

/-- A Timestamp of 2^63 or more becomes a negative BigInt. -/
theorem C68_timestamp_fails : castTo (new (.timestamp (2 ^ 63))) 4 = .ok (intVal 4 (- 2 ^ 63)) := by rfl

end Verif.Sql

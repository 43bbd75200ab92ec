import Verif.Sql.CastExpr
import Verif.Sql.ArithProps

/-!
# C114 `CAST` gives the same value in the other type, C115 function calls

The specification of rounding is `Nearest`: the whole number at the smallest distance from the number the float stands for (`Fmt.exact`, in
units of the smallest positive float), and of two at the same distance the one further from zero.
-/

namespace Verif.Sql

open Verif.Wire Verif.Bytes

/-- `r` is the whole number nearest to the float `x`, halves going away from zero. -/
def Fmt.Nearest (f : Fmt) (x : Nat) (r : Int) : Prop :=
  2 * (f.exact x - r * f.unit).natAbs < f.unit ∨
  2 * (f.exact x - r * f.unit).natAbs = f.unit ∧ (f.exact x).natAbs < (r * f.unit).natAbs

theorem Fmt.nearest_pos {S U : Int} (hS : 0 ≤ S) (hU : 0 < U) {r : Int}
    (h : 2 * ((S - r * U).natAbs : Int) < U ∨ 2 * ((S - r * U).natAbs : Int) = U ∧ S < ((r * U).natAbs : Int)) :
    (2 * S + U) / (2 * U) = r := by
  have hp : 0 ≤ r → 0 ≤ r * U := fun h0 => Int.mul_nonneg h0 (by omega)
  have hn : r < 0 → r * U ≤ -U := fun h0 => by
    have := Int.mul_le_mul_of_nonneg_right (show r ≤ -1 by omega) (show 0 ≤ U by omega)
    omega
  have h1 : r * (2 * U) ≤ 2 * S + U := by
    have : r * (2 * U) = 2 * (r * U) := by rw [Int.mul_left_comm]
    rw [this]; generalize r * U = P at *; omega
  have h2 : 2 * S + U < (r + 1) * (2 * U) := by
    have : (r + 1) * (2 * U) = 2 * (r * U) + 2 * U := by rw [Int.add_mul, Int.mul_left_comm, Int.one_mul]
    rw [this]
    by_cases h0 : 0 ≤ r
    · have := hp h0; generalize r * U = P at *; omega
    · have := hn (by omega); generalize r * U = P at *; omega
  have a1 : r ≤ (2 * S + U) / (2 * U) := (Int.le_ediv_iff_mul_le (by omega)).2 h1
  have a2 : (2 * S + U) / (2 * U) < r + 1 := (Int.ediv_lt_iff_lt_mul (by omega)).2 h2
  omega

/-- The whole number `Nearest` describes, computed. -/
def Fmt.rounded (f : Fmt) (x : Nat) : Int :=
  if f.neg x then - ((2 * (f.scaled (f.mag x) : Int) + f.unit) / (2 * f.unit)) else (2 * (f.scaled (f.mag x) : Int) + f.unit) / (2 * f.unit)

theorem Fmt.unit_pos (f : Fmt) : 0 < f.unit := Nat.two_pow_pos _

theorem Fmt.rounded_unique {f : Fmt} {x : Nat} {r : Int} (h : f.Nearest x r) : f.rounded x = r := by
  have hU : (0 : Int) < f.unit := by have := f.unit_pos; omega
  unfold Fmt.Nearest Fmt.exact at h
  unfold Fmt.rounded
  generalize f.scaled (f.mag x) = S at *
  generalize f.unit = U at *
  cases hneg : f.neg x
  · simp only [hneg, Bool.false_eq_true, if_false] at h ⊢
    refine Fmt.nearest_pos (by omega) hU ?_
    generalize r * (U : Int) = P at *
    omega
  · simp only [hneg, if_true] at h ⊢
    have : (2 * (S : Int) + U) / (2 * U) = -r := by
      refine Fmt.nearest_pos (by omega) hU ?_
      rw [Int.neg_mul]
      generalize r * (U : Int) = P at *
      omega
    omega

theorem Fmt.rounded_nearest (f : Fmt) (x : Nat) : f.Nearest x (f.rounded x) := by
  have hU : (0 : Int) < f.unit := by have := f.unit_pos; omega
  unfold Fmt.Nearest Fmt.exact Fmt.rounded
  generalize f.scaled (f.mag x) = S at *
  generalize f.unit = U at *
  have e := Int.mul_ediv_add_emod (2 * (S : Int) + U) (2 * U)
  have m1 := Int.emod_nonneg (2 * (S : Int) + U) (show 2 * (U : Int) ≠ 0 by omega)
  have m2 := Int.emod_lt_of_pos (2 * (S : Int) + U) (show 0 < 2 * (U : Int) by omega)
  have q0 : 0 ≤ (2 * (S : Int) + U) / (2 * U) := Int.ediv_nonneg (by omega) (by omega)
  generalize (2 * (S : Int) + U) / (2 * U) = q at *
  generalize (2 * (S : Int) + U) % (2 * U) = m at *
  have hq := Int.mul_nonneg q0 (show (0:Int) ≤ U by omega)
  rw [Int.mul_assoc, Int.mul_comm (U : Int) q] at e
  cases f.neg x
  · simp only [Bool.false_eq_true, if_false]
    generalize q * (U : Int) = P at *
    omega
  · simp only [if_true, Int.neg_mul]
    generalize q * (U : Int) = P at *
    omega

theorem Fmt.roundInt_rounded {f : Fmt} (he : 1 ≤ f.e) (hm : f.m ≠ 0) {x : Nat} (hx : f.mag x < f.inf) (l h : Int) :
    f.roundInt l h x = max l (min h (f.rounded x)) := by
  have hn : f.nan x = false := by simp [Fmt.nan]; omega
  obtain ⟨K, U, ⟨hK, hU, hs, hu⟩ | h0⟩ := Verif.Sql.scaled_mant f he x
  · rw [Fmt.roundInt, hn, if_neg (by simp), if_neg (by omega)]
    have key : (2 * f.scaled (f.mag x) + f.unit) / (2 * f.unit) =
        if 0 ≤ f.expo x then f.mant x * 2 ^ (f.expo x).toNat
        else (2 * f.mant x + 2 ^ (- f.expo x).toNat) / (2 * 2 ^ (- f.expo x).toNat) := by
      rw [hs, hu]
      split
      · rename_i h
        have hK' : K = (f.expo x).toNat + U := by omega
        have hp := Nat.two_pow_pos U
        have e0 : f.mant x * 2 ^ ((f.expo x).toNat + U) = f.mant x * 2 ^ (f.expo x).toNat * 2 ^ U := by rw [Nat.pow_add, Nat.mul_assoc]
        rw [hK', e0]
        generalize f.mant x * 2 ^ (f.expo x).toNat = A
        generalize 2 ^ U = B at *
        have e1 : A * (2 * B) = 2 * (A * B) := Nat.mul_left_comm ..
        refine Nat.div_eq_of_lt_le ?_ ?_
        · rw [e1]; omega
        · rw [Nat.add_mul, e1]; omega
      · rename_i h
        have hU' : U = (- f.expo x).toNat + K := by omega
        have hp := Nat.two_pow_pos K
        rw [hU', Nat.pow_add, ← Nat.mul_assoc, ← Nat.mul_assoc, ← Nat.add_mul, Nat.mul_div_mul_right _ _ hp]
    dsimp only
    rw [← key]
    unfold Fmt.rounded
    congr 2
  · exact absurd h0 hm

/-! ## C114 -/

/-- A type of the statement and its type number. -/
theorem castTarget_cases {s : SqlType} {t : Nat} (h : castTarget s = some t) :
    (s = .int ∧ t = 3) ∨ (s = .bigint ∧ t = 4) ∨ ((s = .float ∨ s = .double ∨ ∃ p q, s = .decimal p q) ∧ t = 5) ∨
    ((∃ n, s = .char n) ∧ t = 12) ∨ ((∃ n, s = .varchar n) ∧ t = 11) ∨ (s = .boolean ∧ t = 0) := by
  cases s <;> simp [castTarget] at h <;> subst h <;> simp

/-- Outside join conditions, for an operand that evaluates to `a`: NULL stays NULL and gets the type; a value already of the type is unchanged;
an Integer becomes the same number as BigInt or Decimal; a Decimal becomes the nearest Integer if that fits; a text becomes the same text. -/
theorem C114_cast_partial {ρ : Env} {e : Expr} {a : Value} (he : eval false ρ e = .ok a) :
    (∀ s t, castTarget s = some t → isNull a = true → ∃ v, evalCast false ρ e s = .ok v ∧ isNull v = true ∧ ty v = t) ∧
    (∀ s t, castTarget s = some t → Typed a → ty a = t → isNull a = false → evalCast false ρ e s = .ok a) ∧
    (∀ i, a = intVal 3 i → evalCast false ρ e .bigint = .ok (intVal 4 i)) ∧
    (∀ i, a = intVal 3 i → Fits 3 i → ∃ x, evalCast false ρ e .double = .ok (new (.decimal x)) ∧ f64.nan x = false ∧
      f64.exact x = i * f64.unit) ∧
    (∀ x r, a = new (.decimal x) → f64.mag x < f64.inf → f64.Nearest x r → Fits 3 r → evalCast false ρ e .int = .ok (intVal 3 r)) ∧
    (∀ b n, a = new (.varLen b) → evalCast false ρ e (.char n) = .ok (new (.constLen b))) ∧
    (∀ b n, a = new (.constLen b) → evalCast false ρ e (.varchar n) = .ok (new (.varLen b))) := by
  have hev : ∀ {s t}, castTarget s = some t → evalCast false ρ e s = castValue t a := by
    intro s t hs; simp [evalCast, hs, he, Res.bind]
  refine ⟨?_, ?_, ?_, ?_, ?_, ?_, ?_⟩
  · intro s t hs hn
    exact ⟨newTyped .null t, by rw [hev hs]; unfold castValue; rw [if_pos hn], rfl, rfl⟩
  · intro s t hs ht hty hn
    rw [hev hs]
    unfold castValue
    rw [if_neg (by simp [hn])]
    rcases castTarget_cases hs with ⟨_, rfl⟩ | ⟨_, rfl⟩ | ⟨_, rfl⟩ | ⟨_, rfl⟩ | ⟨_, rfl⟩ | ⟨_, rfl⟩ <;> simp [hty]
  · rintro i rfl
    rw [hev (t := 4) rfl]; rfl
  · rintro i rfl hf
    refine ⟨f64.ofInt i, by rw [hev (t := 5) rfl]; rfl, Fmt.nan_ofInt _ _, Fmt.exact_ofInt64 ?_⟩
    have := hf.2.2
    have h1 : lo 3 = -2147483648 := rfl
    have h2 : hi 3 = 2147483647 := rfl
    omega
  · rintro x r rfl hx hr hf
    rw [hev (t := 3) rfl]
    show Res.ok (newTyped (.integer (f64.roundInt (lo 3) (hi 3) x)) 3) = _
    rw [Fmt.roundInt_rounded (by decide) (by decide) hx, Fmt.rounded_unique hr]
    have : max (lo 3) (min (hi 3) r) = r := by have := hf.2.2; omega
    rw [this]; rfl
  · rintro b n rfl
    rw [hev (t := 12) rfl]; rfl
  · rintro b n rfl
    rw [hev (t := 11) rfl]; rfl

-- 2.5 goes to 3, -2.5 to -3, 3.7 to 4; every float has a nearest whole number.
example : f64.rounded (0x4004000000000000) = 3 ∧ f64.rounded (0xc004000000000000) = -3 ∧ f64.rounded (0x400d99999999999a) = 4 := by
  decide +kernel
example : f64.Nearest 0x4004000000000000 3 ∧ Fits 3 3 ∧ f64.mag 0x4004000000000000 < f64.inf := by
  have h := f64.rounded_nearest 0x4004000000000000
  rw [show f64.rounded (0x4004000000000000) = 3 by decide +kernel] at h
  exact ⟨h, by simp [Fits, lo, hi], by decide +kernel⟩

/-- Every other conversion is refused: a value that is not NULL, of another type than the target, and not one of the five pairs above. -/
theorem C114_refused_fails {ρ : Env} {e : Expr} {a : Value} (he : eval false ρ e = .ok a) (hn : isNull a = false) {s : SqlType} {t : Nat}
    (hs : castTarget s = some t) (ht : ty a ≠ t) (h : (ty a, t) ∉ [(5, 3), (3, 5), (3, 4), (11, 12), (12, 11)]) :
    evalCast false ρ e s = .err := by
  have : evalCast false ρ e s = castValue t a := by simp [evalCast, hs, he, Res.bind]
  rw [this]
  unfold castValue
  rw [if_neg (by simp [hn])]
  simp only [List.mem_cons, Prod.mk.injEq, List.not_mem_nil, or_false, not_or] at h
  split <;> first | (exfalso; simp_all; done) | simp_all

/-- In particular a whole number up to 32767 written in a statement cannot be cast to INTEGER, BIGINT or a decimal type, no number can be
cast to text, and no text to a number. -/
theorem C114_literal_fails {ρ : Env} {n : Nat} (hn : n ≤ 32767) {e : Expr} (he : numberLit n = some e) :
    evalCast false ρ e .int = .err ∧ evalCast false ρ e .bigint = .err ∧ evalCast false ρ e .double = .err ∧
    evalCast false ρ e (.varchar none) = .err ∧ ∀ b, evalCast false ρ (.lit (new (.varLen b))) .int = .err := by
  unfold numberLit at he
  have h1 : hi 1 = 127 := rfl
  have h2 : hi 2 = 32767 := rfl
  split at he
  · cases he; exact ⟨rfl, rfl, rfl, rfl, fun _ => rfl⟩
  · split at he
    · cases he; exact ⟨rfl, rfl, rfl, rfl, fun _ => rfl⟩
    · omega

/-- The length in brackets is ignored: a text of any length is unchanged by `CAST(.. AS VARCHAR(n))`. -/
theorem C114_length_fails (ρ : Env) (b : List Byte) (n : Nat) :
    evalCast false ρ (.lit (new (.varLen b))) (.varchar (some n)) = .ok (new (.varLen b)) := rfl

/-- A Decimal outside the range of INTEGER is not refused: every larger number, and infinity, becomes 2147483647, every smaller one, and minus
infinity, -2147483648, and every NaN 0. -/
theorem C114_saturates_fails (ρ : Env) (x : Nat) :
    (∀ r, f64.mag x < f64.inf → f64.Nearest x r → 2147483647 < r → evalCast false ρ (.lit (new (.decimal x))) .int = .ok (intVal 3 2147483647)) ∧
    (∀ r, f64.mag x < f64.inf → f64.Nearest x r → r < -2147483648 → evalCast false ρ (.lit (new (.decimal x))) .int = .ok (intVal 3 (-2147483648))) ∧
    (f64.mag x = f64.inf → evalCast false ρ (.lit (new (.decimal x))) .int = .ok (intVal 3 (if f64.neg x then -2147483648 else 2147483647))) ∧
    (f64.nan x = true → evalCast false ρ (.lit (new (.decimal x))) .int = .ok (intVal 3 0)) := by
  have hev : ∀ i, f64.roundInt (lo 3) (hi 3) x = i → evalCast false ρ (.lit (new (.decimal x))) .int = .ok (intVal 3 i) := by
    intro i hi'
    show Res.ok (newTyped (.integer (f64.roundInt (lo 3) (hi 3) x)) 3) = _
    rw [hi']; rfl
  have hlo : lo 3 = -2147483648 := by decide
  have hhi : hi 3 = 2147483647 := by decide
  refine ⟨fun r hx hr h => hev _ ?_, fun r hx hr h => hev _ ?_, fun h => hev _ ?_, fun h => hev _ ?_⟩
  · rw [Fmt.roundInt_rounded (by decide) (by decide) hx, Fmt.rounded_unique hr, hlo, hhi]; omega
  · rw [Fmt.roundInt_rounded (by decide) (by decide) hx, Fmt.rounded_unique hr, hlo, hhi]; omega
  · have hn : f64.nan x = false := by unfold Fmt.nan; rw [h]; decide
    unfold Fmt.roundInt
    rw [hn, if_neg (by simp), if_pos h, hlo, hhi]
  · unfold Fmt.roundInt; rw [if_pos h]

example : f64.mag (f64.ofInt 3000000000) < f64.inf ∧ f64.Nearest (f64.ofInt 3000000000) 3000000000 ∧ f64.mag f64.inf = f64.inf ∧
    f64.nan f64.quiet = true := by
  refine ⟨by decide +kernel, ?_, by decide, by decide⟩
  have : f64.rounded (f64.ofInt 3000000000) = 3000000000 := by decide +kernel
  have h := Fmt.rounded_nearest f64 (f64.ofInt 3000000000)
  rw [this] at h
  exact h

/-- In a join condition the same CAST gives another number: 3.7 is 4 in WHERE and 3 in a join. -/
theorem C114_join_fails (ρ : Env) :
    evalCast false ρ (.lit (new (.decimal 0x400d99999999999a))) .int = .ok (intVal 3 4) ∧
    evalCast true ρ (.lit (new (.decimal 0x400d99999999999a))) .int = .ok (intVal 3 3) := by
  constructor
  · show Res.ok (newTyped (.integer (f64.roundInt (lo 3) (hi 3) 0x400d99999999999a)) 3) = _
    rw [show f64.roundInt (lo 3) (hi 3) 0x400d99999999999a = 4 by decide +kernel]; rfl
  · show Res.ok (intVal 3 (f64.toInt (lo 3) (hi 3) 0x400d99999999999a)) = _
    rw [show f64.toInt (lo 3) (hi 3) 0x400d99999999999a = 3 by decide +kernel]

/-! ## C115 -/

theorem byte_toUpper (c : Char) (h : c.toNat < 128) :
    (if 97 ≤ (Fin.ofNat 256 c.toNat).val ∧ (Fin.ofNat 256 c.toNat).val ≤ 122 then Fin.ofNat 256 ((Fin.ofNat 256 c.toNat).val - 32)
      else Fin.ofNat 256 c.toNat) = Fin.ofNat 256 c.toUpper.toNat := by
  have hc : c = Char.ofNat c.toNat := (Char.ofNat_toNat c).symm
  generalize hn : c.toNat = n at *
  subst hc
  clear hn
  revert n
  decide +kernel

theorem byte_toLower (c : Char) (h : c.toNat < 128) :
    (if 65 ≤ (Fin.ofNat 256 c.toNat).val ∧ (Fin.ofNat 256 c.toNat).val ≤ 90 then Fin.ofNat 256 ((Fin.ofNat 256 c.toNat).val + 32)
      else Fin.ofNat 256 c.toNat) = Fin.ofNat 256 c.toLower.toNat := by
  have hc : c = Char.ofNat c.toNat := (Char.ofNat_toNat c).symm
  generalize hn : c.toNat = n at *
  subst hc
  clear hn
  revert n
  decide +kernel

/-- An ASCII text. -/
def AsciiText (s : String) : Prop := ∀ c ∈ s.toList, c.toNat < 128

theorem recase_lit {s : String} (h : AsciiText s) (up : Bool) :
    recase up (lit s) = some (lit (if up then s.toUpper else s.toLower)) := by
  have ha : (lit s).all (·.val < 128) = true := by
    simp only [lit, List.all_eq_true, List.mem_map, decide_eq_true_eq]
    rintro b ⟨c, hc, rfl⟩
    rw [ofNat_val (by have := h c hc; omega)]
    exact h c hc
  rw [recase, if_pos ha]
  refine congrArg some ?_
  cases up
  · simp only [lit, Bool.false_eq_true, if_false, List.map_map, String.toLower, String.toList_map]
    refine List.map_congr_left fun c hc => ?_
    exact byte_toLower c (h c hc)
  · simp only [lit, if_true, List.map_map, String.toUpper, String.toList_map]
    refine List.map_congr_left fun c hc => ?_
    exact byte_toUpper c (h c hc)

/-- `UPPER` and `LOWER`, written in any case, of a text of ASCII characters (VARCHAR or CHAR) give the text with every character in that case,
and of NULL give NULL; in and outside join conditions. -/
theorem C115_case_partial (j : Bool) {ρ : Env} {e : Expr} {a : Value} (he : eval j ρ e = .ok a) (name : String) :
    (∀ s, AsciiText s → (a = new (.varLen (lit s)) ∨ a = new (.constLen (lit s))) →
      (name.toUpper = "UPPER" → evalCall j ρ name [e] = .ok (new (.varLen (lit s.toUpper)))) ∧
      (name.toUpper = "LOWER" → evalCall j ρ name [e] = .ok (new (.varLen (lit s.toLower))))) ∧
    (isNull a = true → name.toUpper = "UPPER" ∨ name.toUpper = "LOWER" → ∃ v, evalCall j ρ name [e] = .ok v ∧ isNull v = true) := by
  have hev : evalCall j ρ name [e] = callFn name [a] := by simp [evalCall, evalArgs, he]
  rw [hev]
  refine ⟨?_, ?_⟩
  · rintro s hs (rfl | rfl) <;> refine ⟨fun hu => ?_, fun hl => ?_⟩
    all_goals simp [callFn, *, recaseCall, isNull, val, new, newTyped, recase_lit hs]
  · intro hn hu
    refine ⟨new .null, ?_, rfl⟩
    rcases hu with hu | hu <;> simp [callFn, hu, recaseCall, hn]

example : AsciiText "aZ-9" ∧ "aZ-9".toUpper = "AZ-9" ∧ "upper".toUpper = "UPPER" := by
  refine ⟨by simp [AsciiText], by decide +kernel, by decide +kernel⟩

/-- No other function has a value: `ABS`, `ROUND`, `CONCAT`, `LENGTH`, `SUBSTRING`, `NOW` and any other name, on any arguments, in and outside
join conditions. -/
theorem C115_other_fails (j : Bool) (ρ : Env) (name : String) (args : List Expr) (hu : name.toUpper ≠ "UPPER") (hl : name.toUpper ≠ "LOWER")
    (v : Value) : evalCall j ρ name args ≠ .ok v := by
  have hc : ∀ vs, callFn name vs = .err := fun vs => by simp [callFn, hu, hl]
  have hi : ∀ args r, evalArgs j ρ args = .inr r → r ≠ .ok v := by
    intro args
    induction args with
    | nil => intro r h; cases h
    | cons e es ih =>
      intro r h
      rw [evalArgs] at h
      cases hv : eval j ρ e with
      | ok w =>
        rw [hv] at h
        simp only at h
        cases hr : evalArgs j ρ es with
        | inl vs => rw [hr] at h; cases h
        | inr q => rw [hr] at h; cases h; exact ih _ hr
      | err => rw [hv] at h; cases h; simp
      | overflow => rw [hv] at h; cases h; simp
      | out => rw [hv] at h; cases h; simp
  rw [evalCall]
  cases hr : evalArgs j ρ args with
  | inl vs => simp [hc]
  | inr r => exact hi _ _ hr

example : "Abs".toUpper ≠ "UPPER" ∧ "Abs".toUpper ≠ "LOWER" := by decide +kernel

/-- A number is not turned into text first: `UPPER` of a value that is neither text nor NULL is an error. -/
theorem C115_number_fails (ρ : Env) (j : Bool) (i : Int) : evalCall j ρ "UPPER" [.lit (new (.integer i))] = .err := by
  have : "UPPER".toUpper = "UPPER" := by decide +kernel
  simp [evalCall, evalArgs, eval, callFn, this, recaseCall, isNull, val, new, newTyped]

end Verif.Sql

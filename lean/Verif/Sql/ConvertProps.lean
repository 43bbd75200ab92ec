import Verif.Sql.Convert
import Verif.Sql.ValueProps
import Verif.Sql.ArithProps

/-!
# C120: CONVERT and TRY_CONVERT

Specification vocabulary: `Fits s i` (C39) says that the number `i` is in the range of the integer type `s`; `intVal s i` is that number in
that type.
-/

namespace Verif.Sql

open Verif.Wire Verif.Bytes

/-- The number types that CONVERT takes, by type number. -/
def numberType : Nat → Option SqlType
  | 3 => some .int
  | 4 => some .bigint
  | _ => none

/-- **C120**, in and outside join conditions, for an operand that evaluates to `a`. A whole number becomes the same number of the type INT or
BIGINT if it fits, and otherwise the statement fails, or the result is NULL with TRY_CONVERT. NULL stays NULL. A number becomes its digits and
digits the number they denote. TRY_CONVERT to a type that is accepted never fails. A character set that is known changes nothing and another
one is refused. Full property: the number or text denoted is kept for all pairs of types. Missing: fractions, booleans and texts
as the source of other types; see `C120_fails`. -/
theorem C120_convert_partial {j : Bool} {ρ : Env} {e : Expr} {a : Value} (he : eval j ρ e = .ok a) :
    (∀ s t i T isTry, a = intVal s i → Fits s i → numberType t = some T →
      (Fits t i → evalConvert j isTry ρ e (.type T) = .ok (intVal t i)) ∧
      (¬ Fits t i → evalConvert j isTry ρ e (.type T) = if isTry then .ok (newTyped .null t) else .err)) ∧
    (∀ T t isTry, convertTarget T = some t → isNull a = true → ∃ v, evalConvert j isTry ρ e (.type T) = .ok v ∧ isNull v = true) ∧
    (∀ s i n isTry, a = intVal s i → Fits s i → evalConvert j isTry ρ e (.type (.varchar n)) = .ok (new (.varLen (intStr i)))) ∧
    (∀ t i T isTry, a = new (.varLen (intStr i)) → Fits t i → numberType t = some T → evalConvert j isTry ρ e (.type T) = .ok (intVal t i)) ∧
    (∀ T t, convertTarget T = some t → evalConvert j true ρ e (.type T) ≠ .err ∧ evalConvert j true ρ e (.type T) ≠ .overflow) ∧
    (∀ c isTry, evalConvert j isTry ρ e (.charset c) = if c.toLower = "utf8" ∨ c.toLower = "utf8mb4" then .ok a else .err) := by
  have hev : ∀ {T t isTry}, convertTarget T = some t → evalConvert j isTry ρ e (.type T) = convertValue isTry none (some t) a := by
    intro T t isTry h; simp [evalConvert, h, he, Res.bind]
  have hnum : ∀ {t T}, numberType t = some T → convertTarget T = some t ∧ 1 ≤ t ∧ t ≤ 4 := by
    intro t T h
    unfold numberType at h
    split at h <;> first | (cases h; exact ⟨rfl, by omega⟩) | cases h
  refine ⟨?_, ?_, ?_, ?_, ?_, ?_⟩
  · intro s t i T isTry ha hs ht
    obtain ⟨h1, h2⟩ := hnum ht
    rw [hev h1, ha, convertValue]
    exact ⟨fun hf => by rw [(C39_cast hs h2).1 hf], fun hf => by rw [(C39_cast hs h2).2 hf]⟩
  · intro T t isTry ht hn
    rw [hev ht, convertValue]
    by_cases hty : ty a = t
    · exact ⟨a, by simp [castTo, hty], hn⟩
    · exact ⟨newTyped .null t, by simp [castTo, hty, hn], rfl⟩
  · intro s i n isTry ha hs
    rw [hev rfl, ha, convertValue]
    rcases fits_cases hs with ⟨rfl, _⟩ | ⟨rfl, _⟩ | ⟨rfl, _⟩ | ⟨rfl, _⟩ <;> rfl
  · intro t i T isTry ha hs ht
    obtain ⟨h1, h2⟩ := hnum ht
    rw [hev h1, ha, convertValue]
    have hp : parseInt (lo t) (hi t) (intStr i) = some i := parse_intStr hs.2.2.1 hs.2.2.2
    have hc : castTo (new (.varLen (intStr i))) t = .ok (intVal t i) := by
      have hc' : castTo (new (.varLen (intStr i))) t = castStr (intStr i) t := by
        rcases fits_cases hs with ⟨rfl, _⟩ | ⟨rfl, _⟩ | ⟨rfl, _⟩ | ⟨rfl, _⟩ <;> rfl
      rw [hc']
      rcases fits_cases hs with ⟨rfl, _⟩ | ⟨rfl, _⟩ | ⟨rfl, _⟩ | ⟨rfl, _⟩ <;> simp only [castStr, hp] <;> rfl
    rw [hc]
  · intro T t ht
    rw [hev ht, convertValue]
    split <;> simp
  · intro c isTry
    simp [evalConvert, he, Res.bind, convertValue]

example : eval false (rowEnv [intVal 4 3000000000]) (.col 0 0) = .ok (intVal 4 3000000000) ∧ Fits 4 3000000000 ∧ ¬ Fits 3 3000000000 ∧ Fits 3 (-12)
    ∧ numberType 3 = some .int := by
  refine ⟨rfl, by simp [Fits, lo, hi], by simp [Fits, lo, hi], by simp [Fits, lo, hi], rfl⟩

/-- Where it fails: CONVERT cuts a fraction off where CAST rounds it; a fraction outside the range becomes the largest number, and NaN
becomes 0, also with TRY_CONVERT; the length of a VARCHAR is ignored; the types SMALLINT, TINYINT, DATE, TIME, TIMESTAMP and TEXT
are refused, with TRY_CONVERT too. -/
theorem C120_fails (ρ : Env) :
    evalConvert false false ρ (.lit (new (.decimal 0x400d99999999999a))) (.type .int) = .ok (intVal 3 3) ∧
    evalCast false ρ (.lit (new (.decimal 0x400d99999999999a))) .int = .ok (intVal 3 4) ∧
    evalConvert false true ρ (.lit (new (.decimal (f64.ofInt 3000000000)))) (.type .int) = .ok (intVal 3 2147483647) ∧
    evalConvert false true ρ (.lit (new (.decimal f64.quiet))) (.type .int) = .ok (intVal 3 0) ∧
    (∀ b n, evalConvert false false ρ (.lit (new (.varLen b))) (.type (.varchar (some n))) = .ok (new (.varLen b))) ∧
    (∀ j isTry e T, T ∈ [SqlType.smallint, .tinyint, .date, .time, .timestamp, .text] → evalConvert j isTry ρ e (.type T) = .err) := by
  refine ⟨?_, ?_, ?_, ?_, fun _ _ => rfl, ?_⟩
  · show Res.ok (intVal 3 (f64.toInt (lo 3) (hi 3) 0x400d99999999999a)) = _
    rw [show f64.toInt (lo 3) (hi 3) 0x400d99999999999a = 3 by decide +kernel]
  · show Res.ok (newTyped (.integer (f64.roundInt (lo 3) (hi 3) 0x400d99999999999a)) 3) = _
    rw [show f64.roundInt (lo 3) (hi 3) 0x400d99999999999a = 4 by decide +kernel]; rfl
  · show Res.ok (intVal 3 (f64.toInt (lo 3) (hi 3) (f64.ofInt 3000000000))) = _
    rw [show f64.toInt (lo 3) (hi 3) (f64.ofInt 3000000000) = 2147483647 by decide +kernel]
  · show Res.ok (intVal 3 (f64.toInt (lo 3) (hi 3) f64.quiet)) = _
    rw [show f64.toInt (lo 3) (hi 3) f64.quiet = 0 by decide +kernel]
  · intro j isTry e T hT
    simp only [List.mem_cons, List.not_mem_nil, or_false] at hT
    rcases hT with rfl | rfl | rfl | rfl | rfl | rfl <;> rfl

/-- COLLATE changes nothing: neither the value nor, therefore, how it is compared. With a collation that ignores case, `'a' = 'A'` is still
false. -/
theorem C120_collate_fails (ρ : Env) :
    (∀ j e c, evalCollate j ρ e c = eval j ρ e) ∧
    comparison .eq (new (.varLen (lit "a"))) (new (.varLen (lit "A"))) = .ok (new (.boolean false)) := by
  refine ⟨fun _ _ _ => rfl, ?_⟩
  show Res.ok (ofTri (compareOp .eq (new (.varLen (lit "a"))) (new (.varLen (lit "A"))))) = _
  rw [show compareOp .eq (new (.varLen (lit "a"))) (new (.varLen (lit "A"))) = .f by decide +kernel]
  rfl

end Verif.Sql

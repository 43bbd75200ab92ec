import Verif.Sql.ArithProps

/-!
# Casts of booleans, dates, times and documents

Property C139: a value cast to text, or a boolean or a moment cast to a number, comes back as it was.
-/

namespace Verif.Sql

open Verif.Wire Verif.Bytes

/-- Values other than numbers and texts that have a text: booleans, timestamps (`u64`), dates and times (`i32`), intervals (`i64`), JSON documents and UUIDs. -/
inductive Textual : Value → Prop
  | boolean (b : Bool) : Textual (new (.boolean b))
  | timestamp {n : Nat} (h : n < 2 ^ 64) : Textual (new (.timestamp n))
  | date {i : Int} (h : - 2 ^ 31 ≤ i ∧ i < 2 ^ 31) : Textual (new (.date i))
  | time {i : Int} (h : - 2 ^ 31 ≤ i ∧ i < 2 ^ 31) : Textual (new (.time i))
  | interval {i : Int} (h : - 2 ^ 63 ≤ i ∧ i < 2 ^ 63) : Textual (new (.interval i))
  | json (s : List Byte) : Textual (new (.json s))
  | uuid (s : List Byte) : Textual (new (.uuid s))

theorem parseU64_intStr {n : Nat} (h : n < 2 ^ 64) : parseU64 (intStr n) = some n := by
  have hd := digits_natStr (n + 1) n (by omega)
  obtain ⟨b, bs, e, h1, h2⟩ := natStr_head (n + 1) n (by omega)
  unfold intStr parseU64
  rw [if_neg (by omega)]
  simp only [Int.natAbs_natCast]
  rw [e] at hd ⊢
  have n1 : b ≠ 43 := by rintro rfl; revert h1; decide
  split
  · simp_all
  · simp_all
  · simp_all
  · rw [hd]; simp [h]

/-- A boolean, timestamp, date, time, interval, JSON document or UUID cast to VARCHAR or CHAR and back to its type is the same value. -/
theorem C139_text {a : Value} (ha : Textual a) {t : Nat} (ht : t = 11 ∨ t = 12) :
    ∃ v, castTo a t = .ok v ∧ ty v = t ∧ castTo v (ty a) = .ok a := by
  cases ha with
  | boolean b =>
    refine ⟨strVal t (if b then lit "true" else lit "false"), ?_, ?_, ?_⟩
    · rcases ht with rfl | rfl <;> rfl
    · rcases ht with rfl | rfl <;> rfl
    · rcases ht with rfl | rfl <;> cases b <;> rfl
  | timestamp h =>
    rename_i n
    refine ⟨strVal t (intStr n), ?_, ?_, ?_⟩
    · rcases ht with rfl | rfl <;> rfl
    · rcases ht with rfl | rfl <;> rfl
    · have e : castTo (strVal t (intStr n)) (ty (new (.timestamp n))) = orOut ((parseU64 (intStr n)).map fun n => newTyped (.timestamp n) 7) := by
        rcases ht with rfl | rfl <;> rfl
      rw [e, parseU64_intStr h]; rfl
  | date h =>
    rename_i i
    refine ⟨strVal t (intStr i), ?_, ?_, ?_⟩
    · rcases ht with rfl | rfl <;> rfl
    · rcases ht with rfl | rfl <;> rfl
    · have e : castTo (strVal t (intStr i)) (ty (new (.date i))) = orOut ((parseInt (lo 3) (hi 3) (intStr i)).map fun i => newTyped (.date i) 8) := by
        rcases ht with rfl | rfl <;> rfl
      rw [e, parse_intStr (by simp only [lo]; omega) (by simp only [hi]; omega)]; rfl
  | time h =>
    rename_i i
    refine ⟨strVal t (intStr i), ?_, ?_, ?_⟩
    · rcases ht with rfl | rfl <;> rfl
    · rcases ht with rfl | rfl <;> rfl
    · have e : castTo (strVal t (intStr i)) (ty (new (.time i))) = orOut ((parseInt (lo 3) (hi 3) (intStr i)).map fun i => newTyped (.time i) 9) := by
        rcases ht with rfl | rfl <;> rfl
      rw [e, parse_intStr (by simp only [lo]; omega) (by simp only [hi]; omega)]; rfl
  | interval h =>
    rename_i i
    refine ⟨strVal t (intStr i), ?_, ?_, ?_⟩
    · rcases ht with rfl | rfl <;> rfl
    · rcases ht with rfl | rfl <;> rfl
    · have e : castTo (strVal t (intStr i)) (ty (new (.interval i))) = orErr ((parseInt (lo 4) (hi 4) (intStr i)).map fun i => newTyped (.interval i) 10) := by
        rcases ht with rfl | rfl <;> rfl
      rw [e, parse_intStr (by simp only [lo]; omega) (by simp only [hi]; omega)]; rfl
  | json s => exact ⟨strVal t s, by rcases ht with rfl | rfl <;> rfl, by rcases ht with rfl | rfl <;> rfl, by rcases ht with rfl | rfl <;> rfl⟩
  | uuid s => exact ⟨strVal t s, by rcases ht with rfl | rfl <;> rfl, by rcases ht with rfl | rfl <;> rfl, by rcases ht with rfl | rfl <;> rfl⟩

-- The text of a date is its number of days.
example : Textual (new (.date (-719528))) := .date (by decide)
example : ∃ v, castTo (new (.boolean true)) 11 = .ok v ∧ v = strVal 11 (lit "true") := ⟨_, rfl, rfl⟩

/-- TRUE and FALSE cast to any numeric type are 1 and 0, whichever way that number is read, and cast back to themselves. -/
theorem C139_boolean (b : Bool) {t : Nat} (ht : 1 ≤ t ∧ t ≤ 6) : ∃ v, castTo (new (.boolean b)) t = .ok v ∧ ty v = t ∧
    castTo v 0 = .ok (new (.boolean b)) ∧ castTo v 4 = .ok (intVal 4 (if b then 1 else 0)) ∧ castTo v 1 = .ok (intVal 1 (if b then 1 else 0)) := by
  have : t = 1 ∨ t = 2 ∨ t = 3 ∨ t = 4 ∨ t = 5 ∨ t = 6 := by omega
  have d0 : ∀ b : Bool, f64.cmp (f64.ofInt (if b then 1 else 0)) 0 = if b then some .gt else some .eq := by decide +kernel
  have s0 : ∀ b : Bool, f32.cmp (f32.ofInt (if b then 1 else 0)) 0 = if b then some .gt else some .eq := by decide +kernel
  have d4 : ∀ b : Bool, f64.toInt (lo 4) (hi 4) (f64.ofInt (if b then 1 else 0)) = if b then 1 else 0 := by decide +kernel
  have s4 : ∀ b : Bool, f32.toInt (lo 4) (hi 4) (f32.ofInt (if b then 1 else 0)) = if b then 1 else 0 := by decide +kernel
  have d1 : ∀ b : Bool, f64.toInt (lo 1) (hi 1) (f64.ofInt (if b then 1 else 0)) = if b then 1 else 0 := by decide +kernel
  have s1 : ∀ b : Bool, f32.toInt (lo 1) (hi 1) (f32.ofInt (if b then 1 else 0)) = if b then 1 else 0 := by decide +kernel
  rcases this with rfl | rfl | rfl | rfl | rfl | rfl
  · exact ⟨_, rfl, rfl, by cases b <;> rfl, by cases b <;> rfl, by cases b <;> rfl⟩
  · exact ⟨_, rfl, rfl, by cases b <;> rfl, by cases b <;> rfl, by cases b <;> rfl⟩
  · exact ⟨_, rfl, rfl, by cases b <;> rfl, by cases b <;> rfl, by cases b <;> rfl⟩
  · exact ⟨_, rfl, rfl, by cases b <;> rfl, by cases b <;> rfl, by cases b <;> rfl⟩
  · refine ⟨new (.decimal (f64.ofInt (if b then 1 else 0))), rfl, rfl, ?_, ?_, ?_⟩
    · show CastR.ok (newTyped (.boolean (f64.cmp (f64.ofInt (if b then 1 else 0)) 0 ≠ some .eq)) 0) = _
      rw [d0 b]; cases b <;> rfl
    · show CastR.ok (intVal 4 (f64.toInt (lo 4) (hi 4) (f64.ofInt (if b then 1 else 0)))) = _
      rw [d4 b]
    · show CastR.ok (intVal 1 (f64.toInt (lo 1) (hi 1) (f64.ofInt (if b then 1 else 0)))) = _
      rw [d1 b]
  · refine ⟨new (.float (f32.ofInt (if b then 1 else 0))), rfl, rfl, ?_, ?_, ?_⟩
    · show CastR.ok (newTyped (.boolean (f32.cmp (f32.ofInt (if b then 1 else 0)) 0 ≠ some .eq)) 0) = _
      rw [s0 b]; cases b <;> rfl
    · show CastR.ok (intVal 4 (f32.toInt (lo 4) (hi 4) (f32.ofInt (if b then 1 else 0)))) = _
      rw [s4 b]
    · show CastR.ok (intVal 1 (f32.toInt (lo 1) (hi 1) (f32.ofInt (if b then 1 else 0)))) = _
      rw [s1 b]

/-- A timestamp below 2^63, a date, a time and an interval cast to BIGINT are their number, and to INTEGER too when it fits; a timestamp or an interval that does not fit INTEGER is
refused. (From 2^63 on a timestamp turns negative: `C68_timestamp_fails`.) -/
theorem C139_number_partial : (∀ n : Nat, n < 2 ^ 63 → castTo (new (.timestamp n)) 4 = .ok (intVal 4 n)) ∧
    (∀ n : Nat, castTo (new (.timestamp n)) 3 = if n < 2 ^ 31 then .ok (intVal 3 n) else .err) ∧
    (∀ i, castTo (new (.date i)) 4 = .ok (intVal 4 i) ∧ castTo (new (.date i)) 3 = .ok (intVal 3 i)) ∧
    (∀ i, castTo (new (.time i)) 4 = .ok (intVal 4 i) ∧ castTo (new (.time i)) 3 = .ok (intVal 3 i)) ∧
    (∀ i, castTo (new (.interval i)) 4 = .ok (intVal 4 i) ∧ castTo (new (.interval i)) 3 = if - 2 ^ 31 ≤ i ∧ i < 2 ^ 31 then .ok (intVal 3 i) else .err) := by
  refine ⟨?_, ?_, fun i => ⟨rfl, rfl⟩, fun i => ⟨rfl, rfl⟩, fun i => ⟨rfl, ?_⟩⟩
  · intro n hn
    show CastR.ok (intVal 4 (wrapI64 n)) = _
    rw [wrapI64, if_pos hn]
  · intro n
    show (if (n : Int) ≤ hi 3 then _ else _) = _
    by_cases h : n < 2 ^ 31
    · rw [if_pos h, if_pos (by simp only [hi]; omega)]
    · rw [if_neg h, if_neg (by simp only [hi]; omega)]
  · show (if lo 3 ≤ i ∧ i ≤ hi 3 then _ else _) = _
    by_cases h : - 2 ^ 31 ≤ i ∧ i < 2 ^ 31
    · rw [if_pos h, if_pos (by simp only [hi, lo]; omega)]
    · rw [if_neg h, if_neg (by simp only [hi, lo]; omega)]

/-- INTEGER and BIGINT numbers cast to TIMESTAMP and back are the same; negative ones are refused. -/
theorem C139_timestamp {s : Nat} {i : Int} (hs : Fits s i) (h34 : s = 3 ∨ s = 4) :
    (0 ≤ i → ∃ v, castTo (intVal s i) 7 = .ok v ∧ ty v = 7 ∧ castTo v s = .ok (intVal s i)) ∧ (i < 0 → castTo (intVal s i) 7 = .err) := by
  have e : castTo (intVal s i) 7 = if 0 ≤ i then .ok (newTyped (.timestamp i.toNat) 7) else .err := by rcases h34 with rfl | rfl <;> rfl
  rw [e]
  have hlo := hs.2.2.1
  have hhi := hs.2.2.2
  refine ⟨fun h => ⟨_, if_pos h, rfl, ?_⟩, fun h => if_neg (by omega)⟩
  have hn : ((i.toNat : Nat) : Int) = i := by omega
  rcases h34 with rfl | rfl
  · have := C139_number_partial.2.1 i.toNat
    simp only [hi] at hhi
    rw [if_pos (by omega)] at this
    rw [hn] at this; exact this
  · have := C139_number_partial.1 i.toNat (by simp only [hi] at hhi; omega)
    rw [hn] at this; exact this

example : Fits 3 1700000000 := by refine ⟨by decide, by decide, ?_, ?_⟩ <;> decide

end Verif.Sql

import Verif.Whole.TypedChange

/-!
# ORDER BY in the values of SQL
-/

namespace Verif.Whole

open Verif.Wire Verif.Bytes Verif.Sql Verif.Exec Verif.Dml
open Verif.Catalog (Cat Tab Col ColDef FkDef ObjName)
open Verif.Plan (World Item cell valueOf selected matching ItemsKnown namesOf Refers Known)

theorem null_form {v : Value} (h : isNull v = true) : ∃ s m t fs, v = .mk .null s m t fs := by
  obtain ⟨w, s, m, t, fs⟩ := v
  unfold isNull val at h
  cases w <;> first | cases h | skip
  exact ⟨s, m, t, fs, rfl⟩

theorem cmp_of_eq {v w : Value} (h : valueEq v w = true) : valueCmp v w = some .eq := by
  obtain ⟨v, s, m, t, fs⟩ := v
  obtain ⟨w, s', m', t', fs'⟩ := w
  unfold valueCmp
  rw [if_pos h]

theorem cmp_null {v w : Value} (hv : isNull v = true) (hw : isNull w = false) :
    (valueEq v w = false ∧ valueCmp v w = some .lt) ∧ valueEq w v = false ∧ valueCmp w v = some .gt := by
  obtain ⟨s, m, t, fs, rfl⟩ := null_form hv
  obtain ⟨w, s', m', t', fs'⟩ := w
  have h1 : valueEq (.mk .null s m t fs) (.mk w s' m' t' fs') = false := by
    cases w <;> first | (cases hw; done) | simp [valueEq, valEq, tag]
  have h2 : valueEq (.mk w s' m' t' fs') (.mk .null s m t fs) = false := by
    cases w <;> first | (cases hw; done) | simp [valueEq, valEq, tag]
  refine ⟨⟨h1, ?_⟩, h2, ?_⟩
  · simp only [valueCmp, h1, hv, if_true]
    rfl
  · simp only [valueCmp, h2, hv, hw, if_true]
    rfl

theorem rep_null {t : Nat} {x : SV} {v : Value} (h : Rep t x v) : isNull v = decide (x = .null) := by
  cases x with
  | null => exact h
  | int i =>
    obtain ⟨_, rfl⟩ := h
    unfold intVal
    split <;> rfl
  | bool b => obtain ⟨_, rfl⟩ := h; rfl
  | str s => obtain ⟨_, rfl⟩ := h; rfl

/-- The order of values of one column, for the code and for SQL. -/
theorem rep_order {t : Nat} {x y : SV} {v w : Value} (hx : Rep t x v) (hy : Rep t y w) :
    nanFree v = true ∧ (valueCmp v w = some .lt → Less x y) ∧ (valueCmp v w = some .gt → Less y x) ∧ (valueEq v w = true → x = y) := by
  have hnan : nanFree v = true := by
    cases x with
    | null => obtain ⟨s, m, t', fs, rfl⟩ := null_form hx; rfl
    | int i => obtain ⟨h1, rfl⟩ := hx; exact nanFree_int (⟨h1.1, h1.2.1⟩) i
    | bool b => obtain ⟨_, rfl⟩ := hx; rfl
    | str s => obtain ⟨_, rfl⟩ := hx; rfl
  refine ⟨hnan, ?_⟩
  have num : ∀ {i j : Int}, 1 ≤ t → t ≤ 4 → (valueCmp (intVal t i) (intVal t j) = some .lt → i < j) ∧ (valueCmp (intVal t i) (intVal t j) = some .gt → j < i) ∧
      (valueEq (intVal t i) (intVal t j) = true → i = j) := by
    intro i j h1 h2
    have h := cmp_ints ⟨h1, h2⟩ i j
    refine ⟨fun g => ?_, fun g => ?_, fun g => ?_⟩
    · rw [h] at g; exact Int.compare_eq_lt.1 (Option.some.inj g)
    · rw [h] at g; exact Int.compare_eq_gt.1 (Option.some.inj g)
    · rw [cmp_of_eq g] at h; exact Int.compare_eq_eq.1 (Option.some.inj h).symm
  have hnx := rep_null hx
  have hny := rep_null hy
  by_cases nx : x = .null
  · subst nx
    by_cases ny : y = .null
    · subst ny
      obtain ⟨s, m, t', fs, rfl⟩ := null_form hx
      obtain ⟨s, m, t', fs, rfl⟩ := null_form hy
      simp [valueCmp, valueEq]
    · obtain ⟨⟨h1, h2⟩, _⟩ := cmp_null (w := w) hx (by rw [hny]; simpa using ny)
      rw [h1, h2]
      refine ⟨fun _ => ?_, nofun, nofun⟩
      cases y <;> first | trivial | exact absurd rfl ny
  · by_cases ny : y = .null
    · subst ny
      obtain ⟨_, h1, h2⟩ := cmp_null (w := v) hy (by rw [hnx]; simpa using nx)
      rw [h1, h2]
      refine ⟨nofun, fun _ => ?_, nofun⟩
      cases x <;> first | trivial | exact absurd rfl nx
    · cases x with
      | null => exact absurd rfl nx
      | int i =>
        obtain ⟨h1, rfl⟩ := hx
        cases y with
        | null => exact absurd rfl ny
        | int j => obtain ⟨h2, rfl⟩ := hy; simpa [Less] using num h1.1 h1.2.1
        | bool b => obtain ⟨h2, rfl⟩ := hy; exact absurd h1.1 (by omega)
        | str b => obtain ⟨h2, rfl⟩ := hy; exact absurd h1.2.1 (by omega)
      | bool a =>
        obtain ⟨h1, rfl⟩ := hx
        cases y with
        | null => exact absurd rfl ny
        | int j => obtain ⟨h2, rfl⟩ := hy; exact absurd h2.1 (by omega)
        | bool b => obtain ⟨h2, rfl⟩ := hy; cases a <;> cases b <;> simp only [Less] <;> decide +kernel
        | str b => obtain ⟨h2, rfl⟩ := hy; omega
      | str a =>
        obtain ⟨h1, rfl⟩ := hx
        cases y with
        | null => exact absurd rfl ny
        | int j => obtain ⟨h2, rfl⟩ := hy; exact absurd h2.2.1 (by omega)
        | bool b => obtain ⟨h2, rfl⟩ := hy; omega
        | str b =>
          obtain ⟨h2, rfl⟩ := hy
          have hl := lex_atoms a b
          have heq : valueEq (new (.varLen a)) (new (.varLen b)) = true ↔ a = b := by
            rw [show valueEq (new (.varLen a)) (new (.varLen b)) = (a.map (fun b => (b.val : Int)) == b.map fun b => (b.val : Int)) by
              simp only [new, newTyped, valueEq, valEq, tag, atoms, beq_self_eq_true, Bool.true_and]]
            rw [beq_iff_eq, ← lexCmp_eq, hl]
            by_cases hb : before a b = true
            · rw [if_pos hb]
              refine ⟨nofun, fun h => ?_⟩
              subst h
              rw [if_pos hb, lexCmp_eq.2 rfl] at hl
              cases hl
            · rw [if_neg hb]
              by_cases h : a = b <;> simp [h]
          have hcmp : a ≠ b → valueCmp (new (.varLen a)) (new (.varLen b)) = some (if before a b = true then .lt else .gt) := by
            intro hne
            have h0 : valueEq (new (.varLen a)) (new (.varLen b)) = false := by
              rw [Bool.eq_false_iff]
              exact fun h => hne (heq.1 h)
            rw [if_neg hne] at hl
            rw [← hl]
            unfold new newTyped at h0 ⊢
            simp only [valueCmp, isNull, val, valCmp, tag, atoms, if_true]
            have h0 : valueEq (.mk (.varLen a) (.length (typeSize 11)) false 11 none) (.mk (.varLen b) (.length (typeSize 11)) false 11 none) = false := h0
            rw [h0]
            rfl
          refine ⟨fun h => ?_, fun h => ?_, fun h => by rw [heq.1 h]⟩
          · by_cases hne : a = b
            · rw [cmp_of_eq (heq.2 hne)] at h
              cases h
            · rw [hcmp hne] at h
              by_cases hb : before a b = true
              · exact hb
              · rw [if_neg hb] at h; cases h
          · by_cases hne : a = b
            · rw [cmp_of_eq (heq.2 hne)] at h
              cases h
            · rw [hcmp hne] at h
              by_cases hb : before a b = true
              · rw [if_pos hb] at h; cases h
              · have hs := lexCmp_swap (a.map fun b => (b.val : Int)) (b.map fun b => (b.val : Int))
                rw [hl, if_neg hb, if_neg hne, lex_atoms] at hs
                by_cases hb' : before b a = true
                · exact hb'
                · rw [if_neg hb', if_neg (Ne.symm hne)] at hs
                  cases hs

end Verif.Whole

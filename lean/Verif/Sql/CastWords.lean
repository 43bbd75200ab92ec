import Verif.Sql.CastProps

/-!
# C139: which texts are TRUE and which are FALSE
-/

namespace Verif.Sql.Spec

open Verif.Bytes

/-- The bytes spell the word, each small letter of which may also be a capital. -/
def Spells : List Char → List Byte → Prop
  | [], [] => True
  | c :: cs, b :: bs => (b.val = c.toNat ∨ (c.isLower = true ∧ b.val = c.toUpper.toNat)) ∧ Spells cs bs
  | _, _ => False

/-- The words for TRUE. -/
def trueWords : List String := ["true", "t", "1", "yes", "y"]

/-- The words for FALSE; the empty text is one of them. -/
def falseWords : List String := ["false", "f", "0", "no", "n", ""]

end Verif.Sql.Spec

namespace Verif.Sql

open Verif.Wire Verif.Bytes Verif.Sql.Spec

/-- The letters of the words. -/
def wordChars : List Char := "truefalsyno01".toList

theorem lower_char : ∀ c ∈ wordChars, ∀ b : Byte,
    ((if 65 ≤ b.val ∧ b.val ≤ 90 then Fin.ofNat 256 (b.val + 32) else b) = Fin.ofNat 256 c.toNat)
      ↔ (b.val = c.toNat ∨ (c.isLower = true ∧ b.val = c.toUpper.toNat)) := by decide +kernel

theorem lower_spells : ∀ (w : List Char) (s : List Byte), (∀ c ∈ w, c ∈ wordChars) →
    (lower s = (w.map fun c => Fin.ofNat 256 c.toNat) ↔ Spells w s)
  | [], [], _ => by simp [lower, Spells]
  | [], b :: bs, _ => by simp [lower, Spells]
  | c :: cs, [], _ => by simp [lower, Spells]
  | c :: cs, b :: bs, h => by
    have h1 := lower_char c (h c List.mem_cons_self) b
    have h2 := lower_spells cs bs (fun x hx => h x (List.mem_cons_of_mem _ hx))
    simp only [lower, List.map_cons, List.cons.injEq, Spells] at h2 ⊢
    rw [h1, h2]

theorem lower_word (ws : List String) (hw : ∀ w ∈ ws, ∀ c ∈ w.toList, c ∈ wordChars) (s : List Byte) :
    lower s ∈ ws.map lit ↔ ∃ w ∈ ws, Spells w.toList s := by
  simp only [List.mem_map]
  constructor
  · rintro ⟨w, hm, e⟩
    exact ⟨w, hm, (lower_spells w.toList s (hw w hm)).1 e.symm⟩
  · rintro ⟨w, hm, e⟩
    exact ⟨w, hm, ((lower_spells w.toList s (hw w hm)).2 e).symm⟩

/-- No word is both. -/
theorem words_apart (s : List Byte) (h : lower s ∈ trueWords.map lit) : lower s ∉ falseWords.map lit := by
  have : ∀ x ∈ trueWords.map lit, x ∉ falseWords.map lit := by decide +kernel
  exact this _ h

theorem parseBool_words (s : List Byte) : (parseBool s = some true ↔ ∃ w ∈ trueWords, Spells w.toList s) ∧
    (parseBool s = some false ↔ ∃ w ∈ falseWords, Spells w.toList s) := by
  have ht := lower_word trueWords (by decide +kernel) s
  have hf := lower_word falseWords (by decide +kernel) s
  have ha := words_apart s
  rw [← ht, ← hf]
  have e : parseBool s = if lower s ∈ trueWords.map lit then some true else if lower s ∈ falseWords.map lit then some false else none := rfl
  rw [e]
  by_cases h1 : lower s ∈ trueWords.map lit
  · simp [h1, ha h1]
  · by_cases h2 : lower s ∈ falseWords.map lit
    · simp [h1, h2]
    · simp [h1, h2]

/-- C139 (texts read as booleans): a VARCHAR or CHAR text cast to BOOLEAN is TRUE exactly when it spells one of `true`, `t`, `1`, `yes`, `y`,
FALSE exactly when it spells one of `false`, `f`, `0`, `no`, `n` or is empty, in capitals or small letters, and is refused otherwise. -/
theorem C139_words (s : List Byte) {t : Nat} (ht : t = 11 ∨ t = 12) :
    (castTo (strVal t s) 0 = .ok (new (.boolean true)) ↔ ∃ w ∈ trueWords, Spells w.toList s)
    ∧ (castTo (strVal t s) 0 = .ok (new (.boolean false)) ↔ ∃ w ∈ falseWords, Spells w.toList s)
    ∧ ((¬ ∃ w ∈ trueWords ++ falseWords, Spells w.toList s) → castTo (strVal t s) 0 = .err) := by
  have e : castTo (strVal t s) 0 = orErr ((parseBool s).map fun b => newTyped (.boolean b) 0) := by rcases ht with rfl | rfl <;> rfl
  obtain ⟨h1, h2⟩ := parseBool_words s
  rw [e, ← h1, ← h2]
  refine ⟨?_, ?_, ?_⟩
  · cases parseBool s with
    | none => simp [orErr]
    | some b => cases b <;> simp [orErr, new, newTyped, tag]
  · cases parseBool s with
    | none => simp [orErr]
    | some b => cases b <;> simp [orErr, new, newTyped, tag]
  · intro hn
    cases hp : parseBool s with
    | none => rfl
    | some b =>
      exfalso
      apply hn
      cases b with
      | true => obtain ⟨w, hw, hs⟩ := h1.1 hp; exact ⟨w, List.mem_append_left _ hw, hs⟩
      | false => obtain ⟨w, hw, hs⟩ := h2.1 hp; exact ⟨w, List.mem_append_right _ hw, hs⟩

-- `yEs` is TRUE, and `on` is refused.
example : castTo (strVal 11 (lit "yEs")) 0 = .ok (new (.boolean true)) :=
  (C139_words (lit "yEs") (Or.inl rfl)).1.2 ⟨"yes", by simp [trueWords], by simp [Spells, lit]; decide⟩
example : castTo (strVal 12 (lit "on")) 0 = .err := rfl

end Verif.Sql

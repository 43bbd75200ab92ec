import Verif.Exec.SortProps

/-!
# DISTINCT (C42) and TOP-N (C46)

Specification vocabulary for C42: `firsts before rows` keeps a row when no earlier row is equal to it, where rows are equal when their values are
(`valuesEq`, the SQL equality in which NULL equals NULL). For C46: the rows of `kept` are the greatest when no row of `dropped` has a greater key.
-/

namespace Verif.Exec

open Verif.Wire Verif.Bytes Verif.Sql

/-- Each row no earlier row is equal to. -/
def firsts (before : List Row) : List Row → List Row
  | [] => []
  | r :: rs => if before.any (valuesEq · r) then firsts (before ++ [r]) rs else r :: firsts (before ++ [r]) rs

/-- What DISTINCT gives for any input: a row is kept when the serialized bytes of no earlier row are the same. -/
theorem distinct_from {σ : Type} {debug : Value → List Byte} {child : Machine σ Row} {c : σ} {xs : List Row} {e : End} (h : Yields child c xs e)
    (before : List Row) (seen : List (List Byte)) (hs : ∀ b, b ∈ seen ↔ ∃ r ∈ before, serRow debug r = b)
    (hi : ∀ a ∈ before ++ xs, ∀ b ∈ before ++ xs, serRow debug a = serRow debug b ↔ valuesEq a b = true) :
    Yields (distinct debug child) (seen, c) (firsts before xs) e := by
  induction h generalizing before seen with
  | @emit s a s' xs e h1 h2 ih =>
    have hi' : ∀ x ∈ (before ++ [a]) ++ xs, ∀ y ∈ (before ++ [a]) ++ xs, serRow debug x = serRow debug y ↔ valuesEq x y = true := by
      intro x hx y hy
      rw [List.append_assoc, List.singleton_append] at hx hy
      exact hi x hx y hy
    have hmem : seen.contains (serRow debug a) = before.any (valuesEq · a) := by
      rw [Bool.eq_iff_iff, List.contains_iff_mem, hs, List.any_eq_true]
      constructor
      · rintro ⟨r, hr, he⟩
        exact ⟨r, hr, (hi r (by simp [hr]) a (by simp)).1 he⟩
      · rintro ⟨r, hr, he⟩
        exact ⟨r, hr, (hi r (by simp [hr]) a (by simp)).2 he⟩
    simp only [firsts]
    by_cases hb : before.any (valuesEq · a) = true
    · rw [if_pos hb]
      refine .cont (by simp only [distinct, h1, hmem, hb, if_true]) (ih (before ++ [a]) seen ?_ hi')
      intro b
      rw [hs]
      constructor
      · rintro ⟨r, hr, he⟩
        exact ⟨r, by simp [hr], he⟩
      · rintro ⟨r, hr, he⟩
        rcases List.mem_append.1 hr with hr | hr
        · exact ⟨r, hr, he⟩
        · rw [List.mem_singleton] at hr
          subst hr
          obtain ⟨x, hx, hxe⟩ := List.any_eq_true.1 hb
          exact ⟨x, hx, by rw [(hi x (by simp [hx]) r (by simp)).2 hxe, he]⟩
    · rw [if_neg hb]
      refine .emit (s' := (serRow debug a :: seen, s')) (by simp only [distinct, h1, hmem, hb]; simp) (ih (before ++ [a]) _ ?_ hi')
      intro b
      rw [List.mem_cons, hs]
      constructor
      · rintro (rfl | ⟨r, hr, he⟩)
        · exact ⟨a, by simp, rfl⟩
        · exact ⟨r, by simp [hr], he⟩
      · rintro ⟨r, hr, he⟩
        rcases List.mem_append.1 hr with hr | hr
        · exact .inr ⟨r, hr, he⟩
        · rw [List.mem_singleton] at hr
          exact .inl (by rw [← he, hr])
  | @cont s s' xs e h1 h2 ih => exact .cont (by simp [distinct, h1]) (ih before seen hs hi)
  | @stop s e h1 => exact .stop (by simp [distinct, h1])

/-! ## Rows the serialization tells apart -/

/-- The kinds of value that have a serialization of their own. -/
inductive Kind where | int | big | str | bool | dec | null
  deriving DecidableEq, Repr

/-- The value is of this kind and in its range; decimals are neither NaN nor -0.0. -/
def Kind.has : Kind → Value → Prop
  | .int, v => ∃ i, v = new (.integer i) ∧ -2 ^ 31 ≤ i ∧ i < 2 ^ 31
  | .big, v => ∃ i, v = new (.bigInt i) ∧ -2 ^ 63 ≤ i ∧ i < 2 ^ 63
  | .str, v => ∃ s, v = new (.varLen s) ∧ s.length < 2 ^ 32
  | .bool, v => ∃ b, v = new (.boolean b)
  | .dec, v => ∃ x, v = new (.decimal x) ∧ x < 2 ^ 64 ∧ f64.nan x = false ∧ x ≠ 2 ^ 63
  | .null, v => isNull v = true

/-- The row has one value of each kind of the shape, in order. -/
def HasShape : List Kind → Row → Prop
  | [], [] => True
  | k :: ks, v :: vs => k.has v ∧ HasShape ks vs
  | _, _ => False

theorem toLE_inj {w x y : Nat} (hx : x < 256 ^ w) (hy : y < 256 ^ w) (h : toLE w x = toLE w y) : x = y := by
  rw [← ofLE_toLE hx, ← ofLE_toLE hy, h]

theorem leInt4_inj {i j : Int} (hi : -2 ^ 31 ≤ i ∧ i < 2 ^ 31) (hj : -2 ^ 31 ≤ j ∧ j < 2 ^ 31) (h : leInt 4 i = leInt 4 j) : i = j := by
  unfold leInt at h
  rw [show ((256 ^ 4 : Nat) : Int) = 4294967296 from rfl] at h
  have := toLE_inj (by omega) (by omega) h
  omega

theorem leInt8_inj {i j : Int} (hi : -2 ^ 63 ≤ i ∧ i < 2 ^ 63) (hj : -2 ^ 63 ≤ j ∧ j < 2 ^ 63) (h : leInt 8 i = leInt 8 j) : i = j := by
  unfold leInt at h
  rw [show ((256 ^ 8 : Nat) : Int) = 18446744073709551616 from rfl] at h
  have := toLE_inj (by omega) (by omega) h
  omega

theorem canon_plain {x : Nat} (h : x < 2 ^ 64) (hn : f64.nan x = false) (hz : x ≠ 2 ^ 63) : f64.canon x = x := by
  have e : f64.m + f64.e = 63 := rfl
  simp only [Fmt.canon, hn]
  simp only [Fmt.mag, Fmt.signed, Fmt.neg, e] at *
  split
  · omega
  · simp only [Bool.false_eq_true, if_false]
    split <;> rename_i h1 <;> simp at h1 <;> omega

theorem null_all {a b : Value} (ha : isNull a = true) (hb : isNull b = true) : valueEq a b = true := null_eq ha hb

theorem ser_kind {debug : Value → List Byte} {k : Kind} {a b : Value} (ha : k.has a) (hb : k.has b) {s t : List Byte}
    (h : serValue debug a ++ s = serValue debug b ++ t) : valueEq a b = true ∧ s = t := by
  cases k with
  | int =>
    obtain ⟨i, rfl, h1, h2⟩ := ha
    obtain ⟨j, rfl, g1, g2⟩ := hb
    obtain ⟨h, hs⟩ := List.append_inj h (by simp [serValue, val, new, newTyped, leInt])
    exact ⟨leInt4_inj ⟨h1, h2⟩ ⟨g1, g2⟩ h ▸ valueEq_refl _, hs⟩
  | big =>
    obtain ⟨i, rfl, h1, h2⟩ := ha
    obtain ⟨j, rfl, g1, g2⟩ := hb
    obtain ⟨h, hs⟩ := List.append_inj h (by simp [serValue, val, new, newTyped, leInt])
    exact ⟨leInt8_inj ⟨h1, h2⟩ ⟨g1, g2⟩ h ▸ valueEq_refl _, hs⟩
  | str =>
    obtain ⟨u, rfl, h1⟩ := ha
    obtain ⟨v, rfl, g1⟩ := hb
    simp only [serValue, val, new, newTyped, List.append_assoc] at h
    obtain ⟨hl, h⟩ := List.append_inj h (by simp)
    have hl := toLE_inj (w := 4) (by omega) (by omega) hl
    obtain ⟨rfl, rfl⟩ := List.append_inj h hl
    exact ⟨valueEq_refl _, rfl⟩
  | bool =>
    obtain ⟨u, rfl⟩ := ha
    obtain ⟨v, rfl⟩ := hb
    simp only [serValue, val, new, newTyped, List.singleton_append, List.cons.injEq] at h
    obtain ⟨h, rfl⟩ := h
    refine ⟨?_, rfl⟩
    cases u <;> cases v <;> first | exact valueEq_refl _ | (revert h; decide)
  | dec =>
    obtain ⟨x, rfl, h1, h2, h3⟩ := ha
    obtain ⟨y, rfl, g1, g2, g3⟩ := hb
    obtain ⟨h, hs⟩ := List.append_inj h (by simp [serValue, val, new, newTyped])
    have := toLE_inj (w := 8) (by omega) (by omega) h
    exact ⟨this ▸ valueEq_refl _, hs⟩
  | null =>
    have key : ∀ v : Value, isNull v = true → serValue debug v = [255] := by
      intro v hv
      unfold isNull at hv
      unfold serValue
      split at hv <;> simp_all
    rw [key a ha, key b hb] at h
    exact ⟨null_all ha hb, by simpa using h⟩

theorem kind_ser {debug : Value → List Byte} {k : Kind} {a b : Value} (ha : k.has a) (hb : k.has b) (h : valueEq a b = true) :
    serValue debug a = serValue debug b := by
  cases k with
  | int =>
    obtain ⟨i, rfl, -⟩ := ha
    obtain ⟨j, rfl, -⟩ := hb
    simp [new, newTyped, valueEq, valEq, tag, atoms] at h
    rw [h]
  | big =>
    obtain ⟨i, rfl, -⟩ := ha
    obtain ⟨j, rfl, -⟩ := hb
    simp [new, newTyped, valueEq, valEq, tag, atoms] at h
    rw [h]
  | str =>
    obtain ⟨u, rfl, -⟩ := ha
    obtain ⟨v, rfl, -⟩ := hb
    simp [new, newTyped, valueEq, valEq, tag, atoms, map_val_inj] at h
    rw [h]
  | bool =>
    obtain ⟨u, rfl⟩ := ha
    obtain ⟨v, rfl⟩ := hb
    cases u <;> cases v <;> first | rfl | exact absurd h (by decide)
  | dec =>
    obtain ⟨x, rfl, h1, h2, h3⟩ := ha
    obtain ⟨y, rfl, g1, g2, g3⟩ := hb
    simp [new, newTyped, valueEq, tag] at h
    rw [canon_plain h1 h2 h3, canon_plain g1 g2 g3] at h
    rw [h]
  | null =>
    have key : ∀ v : Value, isNull v = true → serValue debug v = [255] := by
      intro v hv
      unfold isNull at hv
      unfold serValue
      split at hv <;> simp_all
    rw [key a ha, key b hb]

theorem ser_shape {debug : Value → List Byte} {ks : List Kind} {a b : Row} (ha : HasShape ks a) (hb : HasShape ks b) :
    serRow debug a = serRow debug b ↔ valuesEq a b = true := by
  induction ks generalizing a b with
  | nil =>
    cases a <;> cases b <;> simp_all [HasShape, serRow, valuesEq]
  | cons k ks ih =>
    cases a with
    | nil => exact ha.elim
    | cons x a =>
      cases b with
      | nil => exact hb.elim
      | cons y b =>
        simp only [serRow, List.flatMap_cons, valuesEq, Bool.and_eq_true]
        constructor
        · intro h
          obtain ⟨h1, h2⟩ := ser_kind ha.1 hb.1 h
          exact ⟨h1, (ih ha.2 hb.2).1 h2⟩
        · rintro ⟨h1, h2⟩
          rw [kind_ser ha.1 hb.1 h1]
          congr 1
          exact (ih ha.2 hb.2).2 h2

/-- DISTINCT over rows that all have one shape (columns of Integer, BigInt, VarChar, Boolean or Decimal, or NULL in the same columns) gives each
different row exactly once, at its first occurrence, whatever the child. -/
theorem C42_distinct_partial {σ : Type} {debug : Value → List Byte} {child : Machine σ Row} {c : σ} {xs : List Row} {e : End} (h : Yields child c xs e)
    (ks : List Kind) (hs : ∀ r ∈ xs, HasShape ks r) : Yields (distinct debug child) ([], c) (firsts [] xs) e :=
  distinct_from h [] [] (by simp) fun a ha b hb => ser_shape (hs a (by simpa using ha)) (hs b (by simpa using hb))

/-- `firsts` means what it says: its rows are in the input, no two of them are equal, and every input row is equal to one of them. -/
theorem C42_firsts (xs : List Row) : (firsts [] xs).Sublist xs ∧ (firsts [] xs).Pairwise (fun a b => valuesEq a b = false) ∧
    ∀ r ∈ xs, ∃ s ∈ firsts [] xs, valuesEq s r = true := by
  have key : ∀ xs before, (firsts before xs).Sublist xs ∧ (firsts before xs).Pairwise (fun a b => valuesEq a b = false) ∧
      (∀ s ∈ firsts before xs, ∀ b ∈ before, valuesEq b s = false) ∧
      ∀ r ∈ xs, (∃ b ∈ before, valuesEq b r = true) ∨ ∃ s ∈ firsts before xs, valuesEq s r = true := by
    intro xs
    have vrefl : ∀ a, valuesEq a a = true := fun a => (valuesEq_iff a a).2 rfl
    have vtrans : ∀ {a b c}, valuesEq a b = true → valuesEq b c = true → valuesEq a c = true := fun h h' =>
      (valuesEq_iff _ _).2 (((valuesEq_iff _ _).1 h).trans ((valuesEq_iff _ _).1 h'))
    induction xs with
    | nil => intro before; simp [firsts]
    | cons x xs ih =>
      intro before
      obtain ⟨h1, h2, h3, h4⟩ := ih (before ++ [x])
      simp only [firsts]
      split
      · rename_i hany
        obtain ⟨b, hb, hbx⟩ := List.any_eq_true.1 hany
        refine ⟨h1.cons x, h2, fun s hs b hb => h3 s hs b (by simp [hb]), ?_⟩
        intro r hr
        rcases List.mem_cons.1 hr with rfl | hr
        · exact .inl ⟨b, hb, hbx⟩
        · rcases h4 r hr with ⟨b', hb', h⟩ | h
          · rcases List.mem_append.1 hb' with hb' | hb'
            · exact .inl ⟨b', hb', h⟩
            · rw [List.mem_singleton] at hb'
              subst hb'
              exact .inl ⟨b, hb, vtrans hbx h⟩
          · exact .inr h
      · rename_i hb
        refine ⟨h1.cons_cons x, List.pairwise_cons.2 ⟨fun s hs => h3 s hs x (by simp), h2⟩, ?_, ?_⟩
        · intro s hs b hb'
          rcases List.mem_cons.1 hs with rfl | hs
          · cases hv : valuesEq b s with
            | false => rfl
            | true => exact absurd (List.any_eq_true.2 ⟨b, hb', hv⟩) hb
          · exact h3 s hs b (by simp [hb'])
        · intro r hr
          rcases List.mem_cons.1 hr with rfl | hr
          · exact .inr ⟨r, List.mem_cons_self, vrefl r⟩
          · rcases h4 r hr with ⟨b', hb', h⟩ | ⟨s, hs, h⟩
            · rcases List.mem_append.1 hb' with hb' | hb'
              · exact .inl ⟨b', hb', h⟩
              · rw [List.mem_singleton] at hb'
                subst hb'
                exact .inr ⟨b', List.mem_cons_self, h⟩
            · exact .inr ⟨s, List.mem_cons_of_mem _ hs, h⟩
  obtain ⟨h1, h2, -, h4⟩ := key xs []
  exact ⟨h1, h2, fun r hr => (h4 r hr).resolve_left (by simp)⟩

/-- Rows with a number, a string and a NULL; the third equals the first. -/
def exDistinct : List Row := [[new (.integer (-1)), new (.varLen [65, 66]), newTyped .null 3], [new (.integer 5), new (.varLen []), newTyped .null 3],
  [new (.integer (-1)), new (.varLen [65, 66]), newTyped .null 3]]

example : (∀ r ∈ exDistinct, HasShape [.int, .str, .null] r) ∧ (firsts [] exDistinct).length = 2 := by
  refine ⟨?_, by decide⟩
  intro r hr
  simp only [exDistinct, List.mem_cons, List.not_mem_nil, or_false] at hr
  rcases hr with rfl | rfl | rfl <;>
    exact ⟨⟨_, rfl, by decide, by decide⟩, ⟨_, rfl, by decide⟩, rfl, trivial⟩

/-- DISTINCT loses a row: `(NULL, -1)` and `(-1, NULL)` have the same bytes. -/
theorem C42_null_fails (debug : Value → List Byte) : ∃ a b : Row, valuesEq a b = false ∧ Yields (distinct debug source) ([], [a, b]) [a] .done :=
  ⟨[newTyped .null 3, new (.integer (-1))], [new (.integer (-1)), newTyped .null 3], by decide,
    .emit rfl (.cont rfl (.stop rfl))⟩

/-- DISTINCT keeps two equal rows: 0.0 and -0.0 are equal and have different bytes. -/
theorem C42_zero_fails (debug : Value → List Byte) : ∃ a b : Row, valuesEq a b = true ∧ Yields (distinct debug source) ([], [a, b]) [a, b] .done :=
  ⟨[new (.decimal 0)], [new (.decimal (2 ^ 63))], by decide, .emit rfl (.emit rfl (.stop rfl))⟩

end Verif.Exec

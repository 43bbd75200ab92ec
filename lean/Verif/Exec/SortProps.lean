import Verif.Exec.Props
import Verif.Sql.ValueProps

/-!
# ORDER BY (C41)

Specification vocabulary: `Ordered specs a b` says that row `a` may stand before row `b`: at the first key on which they differ the key of `a` is
smaller (ASC) or greater (DESC). `SameKeys specs a b` says that the rows agree on all keys. `KeysOk` says that the keys of a row evaluate, to
values without NaN.
-/

namespace Verif.Exec

open Verif.Wire Verif.Bytes Verif.Sql

/-- Row `a` may stand before row `b`. -/
def Ordered : Specs → Row → Row → Prop
  | [], _, _ => True
  | (e, d) :: rest, a, b => ∃ x y, eval false (rowEnv a) e = .ok x ∧ eval false (rowEnv b) e = .ok y ∧
    ((d = .asc ∧ valueCmp x y = some .lt) ∨ (d = .desc ∧ valueCmp x y = some .gt) ∨ (valueEq x y = true ∧ Ordered rest a b))

/-- The rows agree on all keys. -/
def SameKeys (specs : Specs) (a b : Row) : Prop :=
  ∀ s ∈ specs, ∃ x y, eval false (rowEnv a) s.1 = .ok x ∧ eval false (rowEnv b) s.1 = .ok y ∧ valueEq x y = true

/-- The keys of the row evaluate, to values without NaN. -/
def KeysOk (specs : Specs) (row : Row) : Prop := ∀ s ∈ specs, ∃ v, eval false (rowEnv row) s.1 = .ok v ∧ nanFree v = true

/-! ## The comparison is a total preorder on such rows -/

theorem sortCmp_cons {e : Expr} {d : Dir} {rest : Specs} {a b : Row} {x y : Value} (hx : eval false (rowEnv a) e = .ok x)
    (hy : eval false (rowEnv b) e = .ok y) (nx : nanFree x = true) (ny : nanFree y = true) :
    ∃ o, valueCmp x y = some o ∧ sortCmp ((e, d) :: rest) a b = (d.apply o).then (sortCmp rest a b) := by
  obtain ⟨o, ho⟩ := Option.isSome_iff_exists.1 (value_ind total_ind x y nx ny)
  refine ⟨o, ho, ?_⟩
  simp only [sortCmp, hx, hy, ho]
  cases o <;> cases d <;> rfl

theorem KeysOk.tail {s : Expr × Dir} {rest : Specs} {r : Row} (h : KeysOk (s :: rest) r) : KeysOk rest r :=
  fun t ht => h t (List.mem_cons_of_mem _ ht)

theorem dir_swap (d : Dir) (o : Ordering) : d.apply o.swap = (d.apply o).swap := by cases d <;> cases o <;> rfl

theorem sortCmp_swap {specs : Specs} {a b : Row} (ha : KeysOk specs a) (hb : KeysOk specs b) : sortCmp specs b a = (sortCmp specs a b).swap := by
  induction specs with
  | nil => rfl
  | cons s rest ih =>
    obtain ⟨e, d⟩ := s
    obtain ⟨x, hx, nx⟩ := ha _ List.mem_cons_self
    obtain ⟨y, hy, ny⟩ := hb _ List.mem_cons_self
    obtain ⟨o, ho, h1⟩ := sortCmp_cons (d := d) (rest := rest) hx hy nx ny
    obtain ⟨o', ho', h2⟩ := sortCmp_cons (d := d) (rest := rest) hy hx ny nx
    rw [valueCmp_swap, ho] at ho'
    cases ho'
    rw [h1, h2, ih ha.tail hb.tail, dir_swap]
    cases d.apply o <;> rfl

theorem sortCmp_le {specs : Specs} {a b : Row} (ha : KeysOk specs a) (hb : KeysOk specs b) : sortCmp specs a b ≠ .gt ↔ Ordered specs a b := by
  induction specs with
  | nil => simp [sortCmp, Ordered]
  | cons s rest ih =>
    obtain ⟨e, d⟩ := s
    obtain ⟨x, hx, nx⟩ := ha _ List.mem_cons_self
    obtain ⟨y, hy, ny⟩ := hb _ List.mem_cons_self
    obtain ⟨o, ho, h1⟩ := sortCmp_cons (d := d) (rest := rest) hx hy nx ny
    simp only [Ordered, hx, hy, Res.ok.injEq]
    rw [h1]
    have ih := ih ha.tail hb.tail
    have he := valueCmp_eq_iff x y
    rw [ho] at he
    constructor
    · intro h
      refine ⟨x, y, rfl, rfl, ?_⟩
      rw [ho, ← he, ← ih]
      revert h
      cases o <;> cases d <;> simp [Dir.apply]
    · rintro ⟨x', y', rfl, rfl, h⟩
      rw [ho, ← he, ← ih] at h
      revert h
      cases o <;> cases d <;> simp [Dir.apply]

theorem sortCmp_eq {specs : Specs} {a b : Row} (ha : KeysOk specs a) (hb : KeysOk specs b) : sortCmp specs a b = .eq ↔ SameKeys specs a b := by
  induction specs with
  | nil => simp [sortCmp, SameKeys]
  | cons s rest ih =>
    obtain ⟨e, d⟩ := s
    obtain ⟨x, hx, nx⟩ := ha _ List.mem_cons_self
    obtain ⟨y, hy, ny⟩ := hb _ List.mem_cons_self
    obtain ⟨o, ho, h1⟩ := sortCmp_cons (d := d) (rest := rest) hx hy nx ny
    have ih := ih ha.tail hb.tail
    have he := valueCmp_eq_iff x y
    rw [ho] at he
    unfold SameKeys at *
    simp only [List.forall_mem_cons, hx, hy, Res.ok.injEq]
    rw [h1, ← ih]
    constructor
    · intro h
      have : o = .eq ∧ sortCmp rest a b = .eq := by
        revert h
        cases o <;> cases d <;> simp [Dir.apply]
      exact ⟨⟨x, y, rfl, rfl, he.1 (by rw [this.1])⟩, this.2⟩
    · rintro ⟨⟨x', y', rfl, rfl, h⟩, h'⟩
      cases he.2 h
      rw [h']
      cases d <;> rfl

theorem ordered_trans {specs : Specs} {a b c : Row} (h : Ordered specs a b) (h' : Ordered specs b c) : Ordered specs a c := by
  induction specs with
  | nil => trivial
  | cons s rest ih =>
    obtain ⟨e, d⟩ := s
    obtain ⟨x, y, hx, hy, h⟩ := h
    obtain ⟨y', z, hy', hz, h'⟩ := h'
    rw [hy] at hy'
    cases hy'
    refine ⟨x, z, hx, hz, ?_⟩
    rcases h with ⟨rfl, h⟩ | ⟨rfl, h⟩ | ⟨h, h2⟩ <;> rcases h' with ⟨h0, h'⟩ | ⟨h0, h'⟩ | ⟨h', h2'⟩
    · exact .inl ⟨rfl, valueCmp_trans h h'⟩
    · cases h0
    · exact .inl ⟨rfl, by rw [← valueCmp_congr' h']; exact h⟩
    · cases h0
    · refine .inr (.inl ⟨rfl, ?_⟩)
      have g := valueCmp_swap y x
      have g' := valueCmp_swap z y
      rw [valueCmp_swap, Option.map_eq_some_iff] at h h'
      obtain ⟨o, ho, hs⟩ := h
      obtain ⟨o', ho', hs'⟩ := h'
      cases o <;> cases hs
      cases o' <;> cases hs'
      rw [valueCmp_swap, valueCmp_trans ho' ho]
      rfl
    · exact .inr (.inl ⟨rfl, by rw [← valueCmp_congr' h']; exact h⟩)
    · exact .inl ⟨h0, by rw [valueCmp_congr h]; exact h'⟩
    · exact .inr (.inl ⟨h0, by rw [valueCmp_congr h]; exact h'⟩)
    · exact .inr (.inr ⟨valueEq_trans h h', ih h2 h2'⟩)

/-! ## Stable sorting -/

theorem insertStable_perm {α : Type} (le : α → α → Bool) (a : α) (l : List α) : (insertStable le a l).Perm (a :: l) := by
  induction l with
  | nil => exact .refl _
  | cons b l ih =>
    unfold insertStable
    split
    · exact .refl _
    · exact (ih.cons b).trans (.swap a b l)

theorem stableSort_perm {α : Type} (l : List α) (le : α → α → Bool) : (stableSort l le).Perm l := by
  induction l with
  | nil => exact .refl _
  | cons a l ih => exact (insertStable_perm le a _).trans (ih.cons a)

theorem pairwise_stableSort {α : Type} {le : α → α → Bool} (trans : ∀ a b c, le a b = true → le b c = true → le a c = true) (total : ∀ a b, (le a b || le b a) = true) (l : List α) :
    (stableSort l le).Pairwise fun a b => le a b = true := by
  have ins : ∀ (a : α) (l : List α), l.Pairwise (fun a b => le a b = true) → (insertStable le a l).Pairwise fun a b => le a b = true := by
    intro a l h
    induction l with
    | nil => exact List.pairwise_singleton _ _
    | cons b l ih =>
      obtain ⟨h1, h2⟩ := List.pairwise_cons.1 h
      unfold insertStable
      split
      · next hab => exact List.pairwise_cons.2 ⟨fun c hc => (List.mem_cons.1 hc).elim (· ▸ hab) fun hc => trans a b c hab (h1 c hc), h⟩
      · next hab =>
        refine List.pairwise_cons.2 ⟨fun c hc => ?_, ih h2⟩
        rcases List.mem_cons.1 ((insertStable_perm le a l).mem_iff.1 hc) with rfl | hc
        · have := total b c
          rw [Bool.or_eq_true] at this
          exact this.resolve_right hab
        · exact h1 c hc
  induction l with
  | nil => exact .nil
  | cons a l ih => exact ins a _ ih

theorem map_stableSort {α β : Type} {f : α → β} {r : α → α → Bool} {s : β → β → Bool} (h : ∀ a b, r a b = s (f a) (f b)) (l : List α) :
    (stableSort l r).map f = stableSort (l.map f) s := by
  have ins : ∀ (a : α) (l : List α), (insertStable r a l).map f = insertStable s (f a) (l.map f) := by
    intro a l
    induction l with
    | nil => rfl
    | cons b l ih =>
      simp only [insertStable, List.map_cons, ← h]
      split
      · rfl
      · rw [List.map_cons, ih]
  induction l with
  | nil => rfl
  | cons a l ih =>
    show (insertStable r a (stableSort l r)).map f = insertStable s (f a) (stableSort (l.map f) s)
    rw [ins, ih]

/-- What is in order stays as it is. -/
theorem sublist_stableSort {α : Type} {le : α → α → Bool} {c l : List α} (hc : c.Pairwise fun a b => le a b = true) (h : c.Sublist l) : c.Sublist (stableSort l le) := by
  have skip : ∀ (a : α) (l : List α), l.Sublist (insertStable le a l) := by
    intro a l
    induction l with
    | nil => exact List.nil_sublist _
    | cons b l ih =>
      unfold insertStable
      split
      · exact List.sublist_cons_self _ _
      · exact ih.cons_cons b
  have ins : ∀ (a : α) (c l : List α), (∀ b ∈ c, le a b = true) → c.Sublist l → (a :: c).Sublist (insertStable le a l) := by
    intro a c l hc h
    induction l with
    | nil =>
      cases List.sublist_nil.1 h
      exact .refl _
    | cons b l ih =>
      unfold insertStable
      split
      · exact h.cons_cons a
      · next hab =>
        cases h with
        | cons _ h => exact (ih h).cons b
        | cons_cons _ h => exact absurd (hc b List.mem_cons_self) hab
  induction h with
  | slnil => exact .refl _
  | cons a _ ih => exact (ih hc).trans (skip a _)
  | cons_cons a _ ih =>
    obtain ⟨h1, h2⟩ := List.pairwise_cons.1 hc
    exact ins a _ _ h1 (ih h2)

/-! ## The machine -/

theorem out_yields {σ : Type} {child : Machine σ Row} (specs : Specs) (rows : List Row) : Yields (sort specs child) (.out rows) rows .done := by
  induction rows with
  | nil => exact .stop rfl
  | cons r rows ih => exact .emit rfl ih

theorem sort_collects {σ : Type} {child : Machine σ Row} {c : σ} {xs : List Row} {e : End} (specs : Specs) (h : Yields child c xs e) (he : e ≠ .panic)
    (acc : List Row) : Yields (sort specs child) (.collect acc c) (stableSort (acc ++ xs) fun a b => sortCmp specs a b != .gt) .done := by
  induction h generalizing acc with
  | @emit s a s' xs e h1 h2 ih =>
    have := ih he (acc ++ [a])
    rw [List.append_assoc, List.singleton_append] at this
    exact .cont (by simp [sort, h1]) this
  | @cont s s' xs e h1 h2 ih => exact .cont (by simp [sort, h1]) (ih he acc)
  | @stop s e h1 =>
    rw [List.append_nil]
    refine .cont ?_ (out_yields specs _)
    cases e <;> simp_all [sort]

/-! ## C41 -/

theorem good_sort {specs : Specs} {xs : List Row} (hk : ∀ r ∈ xs, KeysOk specs r) :
    let out := stableSort xs fun a b => sortCmp specs a b != .gt
    out.Perm xs ∧ out.Pairwise (Ordered specs) ∧
      ∀ (r : Row) (same : Row → Bool), KeysOk specs r → (∀ x ∈ xs, same x = true ↔ SameKeys specs r x) → out.filter same = xs.filter same := by
  intro out
  let G := { r : Row // KeysOk specs r }
  let le : G → G → Bool := fun a b => sortCmp specs a.1 b.1 != .gt
  have hle : ∀ a b : G, le a b = true ↔ Ordered specs a.1 b.1 := fun a b => by
    simp only [le, bne_iff_ne]
    exact sortCmp_le a.2 b.2
  have trans : ∀ a b c : G, le a b = true → le b c = true → le a c = true := fun a b c h h' =>
    (hle a c).2 (ordered_trans ((hle a b).1 h) ((hle b c).1 h'))
  have total : ∀ a b : G, (le a b || le b a) = true := fun a b => by
    simp only [le, sortCmp_swap a.2 b.2]
    cases sortCmp specs a.1 b.1 <;> rfl
  let gs : List G := xs.attachWith (KeysOk specs) hk
  have hgs : gs.map Subtype.val = xs := List.attachWith_map_subtype_val _
  have hout : (stableSort gs le).map Subtype.val = out := by
    rw [map_stableSort (s := fun a b => sortCmp specs a b != .gt) (fun a b => rfl), hgs]
  have hperm : out.Perm xs := stableSort_perm _ _
  refine ⟨hperm, ?_, ?_⟩
  · rw [← hout, List.pairwise_map]
    exact (pairwise_stableSort trans total gs).imp fun {a b} h => (hle a b).1 h
  · intro r same hr hs
    let p : G → Bool := fun g => same g.1
    have hmem : ∀ g ∈ gs, p g = true ↔ SameKeys specs r g.1 := fun g hg => hs g.1 (by rw [← hgs]; exact List.mem_map_of_mem hg)
    have hpw : (gs.filter p).Pairwise fun a b => le a b = true := by
      rw [List.pairwise_iff_forall_sublist]
      intro a b hab
      have ha := List.mem_filter.1 (hab.subset List.mem_cons_self)
      have hb := List.mem_filter.1 (hab.subset (List.mem_cons_of_mem _ List.mem_cons_self))
      have ka := (sortCmp_eq hr a.2).2 ((hmem a ha.1).1 ha.2)
      have kb := (sortCmp_eq hr b.2).2 ((hmem b hb.1).1 hb.2)
      have : SameKeys specs a.1 b.1 := by
        intro s hs'
        obtain ⟨u, v, hu, hv, huv⟩ := (hmem a ha.1).1 ha.2 s hs'
        obtain ⟨u', w, hu', hw, huw⟩ := (hmem b hb.1).1 hb.2 s hs'
        rw [hu] at hu'
        cases hu'
        exact ⟨v, w, hv, hw, valueEq_trans (valueEq_symm huv) huw⟩
      simp only [le, (sortCmp_eq a.2 b.2).2 this]
      rfl
    have hsub : (gs.filter p).Sublist (stableSort gs le) := sublist_stableSort hpw List.filter_sublist
    have hsub' : (gs.filter p).Sublist ((stableSort gs le).filter p) := by
      have := hsub.filter p
      simpa using this
    have hlen : (gs.filter p).length = ((stableSort gs le).filter p).length := ((stableSort_perm gs le).filter p).length_eq.symm
    have := hsub'.eq_of_length hlen
    have e1 : ((stableSort gs le).filter p).map Subtype.val = out.filter same := by rw [← hout, List.filter_map]; rfl
    have e2 : (gs.filter p).map Subtype.val = xs.filter same := by
      conv => rhs; rw [← hgs, List.filter_map]
      rfl
    rw [← e1, ← e2, this]

/-- ORDER BY over any input that ends without an error, with keys that evaluate to values without NaN: the result is a permutation of the input, is
ordered by the keys with their directions, and rows with equal keys stand in the order of the input. -/
theorem C41_sort_partial {σ : Type} {child : Machine σ Row} {c : σ} {xs : List Row} (specs : Specs) (h : Yields child c xs .done)
    (hk : ∀ r ∈ xs, KeysOk specs r) : ∃ out, Yields (sort specs child) (.collect [] c) out .done ∧
      out.Perm xs ∧ out.Pairwise (Ordered specs) ∧
      ∀ (r : Row) (same : Row → Bool), KeysOk specs r → (∀ x ∈ xs, same x = true ↔ SameKeys specs r x) → out.filter same = xs.filter same :=
  ⟨_, sort_collects specs h (by decide) [], good_sort hk⟩

theorem cmp_ints {t : Nat} (ht : 1 ≤ t ∧ t ≤ 4) (m n : Int) : valueCmp (intVal t m) (intVal t n) = some (compare m n) := by
  have h4 : t = 1 ∨ t = 2 ∨ t = 3 ∨ t = 4 := by omega
  rcases h4 with rfl | rfl | rfl | rfl <;>
  · simp only [intVal, newTyped, valueCmp, valueEq, valEq, isNull, val, valCmp, tag, atoms, lex_single]
    by_cases h : m = n
    · subst h
      simp
    · simp [h]

theorem cmp_null_int {t s : Nat} (ht : 1 ≤ t ∧ t ≤ 4) (n : Int) : valueCmp (newTyped .null s) (intVal t n) = some .lt := by
  have h4 : t = 1 ∨ t = 2 ∨ t = 3 ∨ t = 4 := by omega
  rcases h4 with rfl | rfl | rfl | rfl <;> simp [intVal, newTyped, valueCmp, valueEq, valEq, isNull, val, tag]

theorem nanFree_int {t : Nat} (ht : 1 ≤ t ∧ t ≤ 4) (n : Int) : nanFree (intVal t n) = true := by
  have h4 : t = 1 ∨ t = 2 ∨ t = 3 ∨ t = 4 := by omega
  rcases h4 with rfl | rfl | rfl | rfl <;> rfl

/-- NULL (here `none`) before every number, numbers by size. -/
def cellLe : Option Int → Option Int → Prop
  | none, _ => True
  | some _, none => False
  | some m, some n => m ≤ n

/-- The order in plain numbers: ORDER BY one column holding integers of one type and NULLs gives the NULLs, then the numbers in ascending order; with
DESC the other way round. -/
theorem C41_integers {σ : Type} {child : Machine σ Row} {c : σ} {xs : List Row} {t i : Nat} {d : Dir} (ht : 1 ≤ t ∧ t ≤ 4)
    (h : Yields child c xs .done) (cell : Row → Option Int)
    (hc : ∀ r ∈ xs, match cell r with | some n => r[i]? = some (intVal t n) | none => ∃ s, r[i]? = some (newTyped .null s)) :
    ∃ out, Yields (sort [(.col 0 i, d)] child) (.collect [] c) out .done ∧ out.Perm xs ∧
      out.Pairwise fun a b => match d with | .asc => cellLe (cell a) (cell b) | .desc => cellLe (cell b) (cell a) := by
  have ev : ∀ r v, r[i]? = some v → eval false (rowEnv r) (.col 0 i) = .ok v := fun r v h => by simp only [eval, rowEnv, h]
  have hk : ∀ r ∈ xs, KeysOk [(.col 0 i, d)] r := by
    intro r hr s hs
    simp only [List.mem_singleton] at hs
    subst hs
    have := hc r hr
    cases hcr : cell r with
    | none => rw [hcr] at this; obtain ⟨s, hs⟩ := this; exact ⟨_, ev r _ hs, rfl⟩
    | some n => rw [hcr] at this; exact ⟨_, ev r _ this, nanFree_int ht n⟩
  obtain ⟨out, h1, h2, h3, -⟩ := C41_sort_partial _ h hk
  refine ⟨out, h1, h2, ?_⟩
  rw [List.pairwise_iff_forall_sublist] at h3 ⊢
  intro a b hab
  have ho := h3 hab
  have ha := hc a (h2.subset (hab.subset List.mem_cons_self))
  have hb := hc b (h2.subset (hab.subset (List.mem_cons_of_mem _ List.mem_cons_self)))
  obtain ⟨x, y, hx, hy, ho⟩ := ho
  have flip : ∀ n s, valueCmp (intVal t n) (newTyped .null s) = some .gt := fun n s => by
    rw [valueCmp_swap, cmp_null_int ht]; rfl
  have heq : valueEq x y = true ↔ valueCmp x y = some .eq := (valueCmp_eq_iff x y).symm
  rw [heq] at ho
  cases ca : cell a with
  | none =>
    rw [ca] at ha
    obtain ⟨s, ha⟩ := ha
    rw [ev a _ ha] at hx
    cases hx
    cases cb : cell b with
    | none => cases d <;> simp only [ca, cb, cellLe]
    | some n =>
      rw [cb] at hb
      rw [ev b _ hb] at hy
      cases hy
      rw [cmp_null_int ht] at ho
      cases d <;> simp_all [cellLe]
  | some m =>
    rw [ca] at ha
    rw [ev a _ ha] at hx
    cases hx
    cases cb : cell b with
    | none =>
      rw [cb] at hb
      obtain ⟨s, hb⟩ := hb
      rw [ev b _ hb] at hy
      cases hy
      rw [flip] at ho
      cases d <;> simp_all [cellLe]
    | some n =>
      rw [cb] at hb
      rw [ev b _ hb] at hy
      cases hy
      rw [cmp_ints ht] at ho
      simp only [Option.some.injEq] at ho
      have h1 := @Int.compare_eq_lt m n
      have h2 := @Int.compare_eq_gt m n
      have h3 := @Int.compare_eq_eq m n
      rw [h1, h2, h3] at ho
      cases d <;> simp only [ca, cb, cellLe] <;> simp [Ordered] at ho <;> omega

/-- Two rows with equal first keys and one NULL: ascending by the first column, then descending by the second. -/
def exSort : List Row := [[intVal 3 5, intVal 3 1], [newTyped .null 3, intVal 3 9], [intVal 3 5, intVal 3 2]]

example : ∀ r ∈ exSort, KeysOk [(.col 0 0, .asc), (.col 0 1, .desc)] r := by
  intro r hr s hs
  simp only [exSort, List.mem_cons, List.not_mem_nil, or_false] at hr hs
  rcases hr with rfl | rfl | rfl <;> rcases hs with rfl | rfl <;> exact ⟨_, rfl, by decide⟩

example : Yields (sort [(.col 0 0, .asc), (.col 0 1, .desc)] source) (.collect [] exSort)
    [[newTyped .null 3, intVal 3 9], [intVal 3 5, intVal 3 2], [intVal 3 5, intVal 3 1]] .done := by
  have h1 : sortCmp [(.col 0 0, .asc), (.col 0 1, .desc)] [intVal 3 5, intVal 3 1] [newTyped .null 3, intVal 3 9] = .gt := by decide
  have h2 : sortCmp [(.col 0 0, .asc), (.col 0 1, .desc)] [newTyped .null 3, intVal 3 9] [intVal 3 5, intVal 3 2] = .lt := by decide
  have h3 : sortCmp [(.col 0 0, .asc), (.col 0 1, .desc)] [intVal 3 5, intVal 3 1] [intVal 3 5, intVal 3 2] = .gt := by decide
  refine .cont rfl (.cont rfl (.cont rfl (.cont ?_ (out_yields _ _))))
  simp [sort, source, stableSort, insertStable, h1, h2, h3]

/-- What is missing: when the input fails, the sort gives out the rows it has and reports success. -/
theorem C41_input_error_fails : ∃ (rows : List Row) (specs : Specs) (out : List Row), Yields broken rows rows .err ∧
    Yields (sort specs broken) (.collect [] rows) out .done :=
  ⟨exSort, [], _, broken_yields _, sort_collects [] (broken_yields exSort) (by decide) []⟩

end Verif.Exec

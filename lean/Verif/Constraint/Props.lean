import Verif.Constraint.Model

/-!
# The constraint validator (C145)

Specification vocabulary: `Holds q c v`: the tuple asked about has the value `v` in the column `c`. The answer `[]` is acceptance.
-/

namespace Verif.Constraint

variable {V : Type} {O : Vals V}

/-- The tuple has the value `v` in the column `c`. -/
def Ask.Holds (q : Ask V) (c : Col) (v : V) : Prop := (c, v) ∈ q.cols.zip q.row

/-! ## One tuple -/

theorem columns_nil {s : Validator V} {table : Text} {cs : List Col} {vs : List V} (h : (vColumns O s table cs vs).2 = []) :
    ∀ x ∈ cs.zip vs, vNotNull O x.1 x.2 = [] ∧ vCheck O x.1 x.2 = [] ∧
      (x.1.unique = true → O.null x.2 = false → (keyOf table x.1.name, O.print x.2) ∉ s.unique ∧ (keyOf table x.1.name, O.print x.2) ∈ (vColumns O s table cs vs).1.unique) := by
  have mono : ∀ (cs : List Col) (vs : List V) (s : Validator V), ∀ k ∈ s.unique, k ∈ (vColumns O s table cs vs).1.unique := by
    intro cs
    induction cs with
    | nil => intro vs s k hk; exact hk
    | cons c cs ih =>
      intro vs s k hk
      cases vs with
      | nil => exact hk
      | cons v vs =>
        refine ih vs _ k ?_
        unfold vUnique
        split
        · exact hk
        · split
          · exact hk
          · exact List.mem_cons_of_mem _ hk
  induction cs generalizing vs s with
  | nil => intro x hx; simp at hx
  | cons c cs ih =>
    cases vs with
    | nil => intro x hx; simp at hx
    | cons v vs =>
      simp only [vColumns, List.append_eq_nil_iff] at h
      obtain ⟨⟨⟨h1, h2⟩, h3⟩, h4⟩ := h
      intro x hx
      rw [List.zip_cons_cons] at hx
      rcases List.mem_cons.1 hx with rfl | hx
      · refine ⟨h1, h3, ?_⟩
        intro hu hn
        dsimp only at hu hn
        have hstep : vUnique O s table c v = if s.unique.contains (keyOf table c.name, O.print v) then (s, [.unique c.name (O.print v)])
            else ({ s with unique := (keyOf table c.name, O.print v) :: s.unique }, []) := by
          unfold vUnique
          rw [if_neg (by simp [hu, hn])]
        by_cases hc : (keyOf table c.name, O.print v) ∈ s.unique
        · rw [hstep, if_pos (by simpa using hc)] at h2
          cases h2
        · refine ⟨hc, mono cs vs _ _ ?_⟩
          rw [hstep, if_neg (by simpa using hc)]
          simp
      · have := ih h4 x hx
        refine ⟨this.1, this.2.1, fun hu hn => ⟨fun hm => (this.2.2 hu hn).1 ?_, (this.2.2 hu hn).2⟩⟩
        unfold vUnique
        split
        · exact hm
        · split
          · exact hm
          · exact List.mem_cons_of_mem _ hm

theorem primary_unique (s : Validator V) (table : Text) (cs : List Col) (vs : List V) : (vPrimary O s table cs vs).1.unique = s.unique := by
  unfold vPrimary
  split
  · split
    · split <;> rfl
    · rfl
  · rfl

theorem accepted {s : Validator V} {q : Ask V} (h : (validate O s q.table q.cols q.row).2 = []) :
    (vColumns O s q.table q.cols q.row).2 = [] ∧ (vPrimary O (vColumns O s q.table q.cols q.row).1 q.table q.cols q.row).2 = [] := by
  simpa [validate] using h

/-- C145: a tuple that is accepted has no NULL in a NOT NULL column. -/
theorem C145_not_null {s : Validator V} {q : Ask V} (h : (validate O s q.table q.cols q.row).2 = []) {c : Col} {v : V} (hv : q.Holds c v) (hc : c.notNull = true) :
    O.null v = false := by
  have := (columns_nil (accepted h).1 (c, v) hv).1
  unfold vNotNull at this
  split at this
  · cases this
  · rename_i hn; simpa [hc] using hn

/-- C145 for the CHECK constraints whose text has one of the three known parts: a tuple that is accepted has a positive number in the column, or no number.
Missing: every other CHECK (`C145_check_fails`). -/
theorem C145_check_partial {s : Validator V} {q : Ask V} (h : (validate O s q.table q.cols q.row).2 = []) {c : Col} {v : V} {t : Text} (hv : q.Holds c v)
    (hc : c.check = some t) (hk : contains "price > 0".toList t = true ∨ contains "budget > 0".toList t = true ∨ contains "salary > 0".toList t = true) : O.nonpos v = false := by
  have := (columns_nil (accepted h).1 (c, v) hv).2.1
  unfold vCheck at this
  simp only [hc] at this
  split at this
  · cases this
  · rename_i hn
    have : known t = true := by unfold known; rcases hk with hk | hk | hk <;> rw [hk] <;> simp
    simpa [this] using hn

/-! ## Sequences -/

theorem columns_grow (O : Vals V) (s : Validator V) (table : Text) (cs : List Col) (vs : List V) : ∀ k ∈ s.unique, k ∈ (vColumns O s table cs vs).1.unique := by
  induction cs generalizing vs s with
  | nil => intro k hk; exact hk
  | cons c cs ih =>
    intro k hk
    cases vs with
    | nil => exact hk
    | cons v vs =>
      refine ih _ vs k ?_
      unfold vUnique
      split
      · exact hk
      · split
        · exact hk
        · exact List.mem_cons_of_mem _ hk

theorem validate_grow (O : Vals V) (s : Validator V) (q : Ask V) : ∀ k ∈ s.unique, k ∈ (validate O s q.table q.cols q.row).1.unique := by
  intro k hk
  simp only [validate, primary_unique]
  exact columns_grow O s _ _ _ k hk

theorem later_fresh {s : Validator V} {qs : List (Ask V)} {j : Nat} {q : Ask V} (hq : qs[j]? = some q) (ha : (answers O s qs)[j]? = some []) {c : Col} {v : V} (hv : q.Holds c v)
    (hu : c.unique = true) (hn : O.null v = false) : (keyOf q.table c.name, O.print v) ∉ s.unique := by
  induction qs generalizing s j with
  | nil => simp at hq
  | cons p qs ih =>
    cases j with
    | zero =>
      cases (by simpa using hq : p = q)
      have ha : (validate O s q.table q.cols q.row).2 = [] := by simpa [answers] using ha
      exact ((columns_nil (accepted ha).1 (c, v) hv).2.2 hu hn).1
    | succ j =>
      have := ih (s := (validate O s p.table p.cols p.row).1) (j := j) (by simpa using hq) (by simpa [answers] using ha)
      exact fun hm => this (validate_grow O s p _ hm)

/-- C145: of all the tuples a validator accepts, for whatever tables and in whatever order, no two have the same value, not NULL, as printed, in the same UNIQUE column of the
same table. -/
theorem C145_unique {s : Validator V} {qs : List (Ask V)} {i j : Nat} {q r : Ask V} (hij : i < j) (hq : qs[i]? = some q) (hr : qs[j]? = some r)
    (hqa : (answers O s qs)[i]? = some []) (hra : (answers O s qs)[j]? = some []) (ht : q.table = r.table) {c d : Col} {v w : V} (hc : q.Holds c v) (hd : r.Holds d w)
    (hcu : c.unique = true) (hdu : d.unique = true) (hn : c.name = d.name) (hv : O.null v = false) (hw : O.null w = false) : O.print v ≠ O.print w := by
  induction qs generalizing s i j with
  | nil => simp at hq
  | cons p qs ih =>
    cases j with
    | zero => omega
    | succ j =>
      cases i with
      | succ i =>
        exact ih (i := i) (j := j) (s := (validate O s p.table p.cols p.row).1) (by omega) (by simpa using hq) (by simpa using hr) (by simpa [answers] using hqa) (by simpa [answers] using hra)
      | zero =>
        cases (by simpa using hq : p = q)
        have ha : (validate O s q.table q.cols q.row).2 = [] := by simpa [answers] using hqa
        have hin := ((columns_nil (accepted ha).1 (c, v) hc).2.2 hcu hv).2
        have := later_fresh (s := (validate O s q.table q.cols q.row).1) (j := j) (q := r) (by simpa using hr) (by simpa [answers] using hra) hd hdu hw
        intro he
        refine this ?_
        simp only [validate, primary_unique]
        rw [← ht, ← hn, ← he]
        exact hin

/-- The texts of a UNIQUE column that have been asked about. -/
def asked (O : Vals V) (qs : List (Ask V)) (k p : Text) : Prop := ∃ q ∈ qs, ∃ c v, q.Holds c v ∧ c.unique = true ∧ O.null v = false ∧ keyOf q.table c.name = k ∧ O.print v = p

theorem unique_step (O : Vals V) (s : Validator V) (table : Text) (c : Col) (v : V) {k p : Text} (h : (k, p) ∈ (vUnique O s table c v).1.unique) :
    (k, p) ∈ s.unique ∨ (c.unique = true ∧ O.null v = false ∧ keyOf table c.name = k ∧ O.print v = p) := by
  unfold vUnique at h
  split at h
  · exact .inl h
  · rename_i hn
    split at h
    · exact .inl h
    · rcases List.mem_cons.1 h with h | h
      · cases h
        exact .inr ⟨by cases hu : c.unique <;> simp_all, by cases hu : O.null v <;> simp_all, rfl, rfl⟩
      · exact .inl h

theorem columns_from (O : Vals V) (s : Validator V) (table : Text) (cs : List Col) (vs : List V) {k p : Text} (h : (k, p) ∈ (vColumns O s table cs vs).1.unique) :
    (k, p) ∈ s.unique ∨ ∃ c v, (c, v) ∈ cs.zip vs ∧ c.unique = true ∧ O.null v = false ∧ keyOf table c.name = k ∧ O.print v = p := by
  induction cs generalizing vs s with
  | nil => exact .inl h
  | cons c cs ih =>
    cases vs with
    | nil => exact .inl h
    | cons v vs =>
      rcases ih _ vs h with h | ⟨d, w, hd, h⟩
      · rcases unique_step O s table c v h with h | h
        · exact .inl h
        · exact .inr ⟨c, v, by simp, h⟩
      · exact .inr ⟨d, w, by rw [List.zip_cons_cons]; exact List.mem_cons_of_mem _ hd, h⟩

theorem columns_reject {O : Vals V} {s : Validator V} {table : Text} {cs : List Col} {vs : List V} (hn : (cs.map (·.name)).Nodup) {n p : Text}
    (h : Violation.unique n p ∈ (vColumns O s table cs vs).2) : (keyOf table n, p) ∈ s.unique := by
  induction cs generalizing vs s with
  | nil => simp [vColumns] at h
  | cons c cs ih =>
    cases vs with
    | nil => simp [vColumns] at h
    | cons v vs =>
      rw [List.map_cons, List.nodup_cons] at hn
      simp only [vColumns, List.mem_append] at h
      rcases h with ((h | h) | h) | h
      · unfold vNotNull at h
        split at h <;> simp at h
      · unfold vUnique at h
        split at h
        · simp at h
        · split at h
          · rename_i hc
            cases List.mem_singleton.1 h
            simpa using hc
          · simp at h
      · unfold vCheck at h
        split at h
        · split at h <;> simp at h
        · simp at h
      · rcases unique_step O s table c v (ih hn.2 h) with h' | ⟨_, _, hk, _⟩
        · exact h'
        · have : n = c.name := by
            have := (List.append_cancel_left hk)
            injection this with _ this
            exact this.symm
          subst this
          have mem : ∀ (cs : List Col) (vs : List V) (s : Validator V), Violation.unique c.name p ∈ (vColumns O s table cs vs).2 → c.name ∈ cs.map (·.name) := by
            intro cs
            induction cs with
            | nil => intro vs s h; simp [vColumns] at h
            | cons d ds ih =>
              intro vs s h
              cases vs with
              | nil => simp [vColumns] at h
              | cons w ws =>
                simp only [vColumns, List.mem_append] at h
                rw [List.map_cons]
                rcases h with ((h | h) | h) | h
                · unfold vNotNull at h
                  split at h <;> simp at h
                · unfold vUnique at h
                  split at h
                  · simp at h
                  · split at h
                    · injection List.mem_singleton.1 h with h1 _
                      rw [h1]; simp
                    · simp at h
                · unfold vCheck at h
                  split at h
                  · split at h <;> simp at h
                  · simp at h
                · exact List.mem_cons_of_mem _ (ih ws _ h)
          exact absurd (mem cs vs _ h) hn.1

/-- C145: a tuple is refused for a UNIQUE column only if the validator was asked about the same printed value, not NULL, in a UNIQUE column of that name of that table before.
For columns with different names, and table names without a colon. -/
theorem C145_unique_only {qs : List (Ask V)} {j : Nat} {r : Ask V} {a : List Violation} {n p : Text} (hr : qs[j]? = some r) (ha : (answers O {} qs)[j]? = some a)
    (hv : .unique n p ∈ a) (hn : ∀ q ∈ qs, (q.cols.map (·.name)).Nodup) (hcol : ∀ q ∈ qs, ':' ∉ q.table) :
    ∃ i q, i < j ∧ qs[i]? = some q ∧ q.table = r.table ∧ ∃ c v, q.Holds c v ∧ c.name = n ∧ c.unique = true ∧ O.null v = false ∧ O.print v = p := by
  have inj : ∀ {t u a b : Text}, ':' ∉ t → ':' ∉ u → keyOf t a = keyOf u b → t = u ∧ a = b := by
    intro t
    induction t with
    | nil =>
      intro u a b _ hu h
      cases u with
      | nil => exact ⟨rfl, by injection h⟩
      | cons x xs => injection h with h _; exact absurd (by rw [← h]; simp) hu
    | cons y ys ih =>
      intro u a b ht hu h
      cases u with
      | nil => injection h with h _; exact absurd (by rw [h]; simp) ht
      | cons x xs =>
        injection h with h1 h2
        have := ih (fun h => ht (List.mem_cons_of_mem _ h)) (fun h => hu (List.mem_cons_of_mem _ h)) h2
        exact ⟨by rw [h1, this.1], this.2⟩
  have key : ∀ (qs : List (Ask V)) (s : Validator V) (j : Nat), qs[j]? = some r → (answers O s qs)[j]? = some a → (∀ q ∈ qs, (q.cols.map (·.name)).Nodup) →
      (keyOf r.table n, p) ∈ s.unique ∨ ∃ i q, i < j ∧ qs[i]? = some q ∧ ∃ c v, q.Holds c v ∧ c.unique = true ∧ O.null v = false ∧ keyOf q.table c.name = keyOf r.table n ∧ O.print v = p := by
    intro qs
    induction qs with
    | nil => intro s j h; simp at h
    | cons q qs ih =>
      intro s j hr ha hn
      cases j with
      | zero =>
        obtain rfl : r = q := by simpa using hr.symm
        have ha : (validate O s r.table r.cols r.row).2 = a := by simpa [answers] using ha
        rw [← ha] at hv
        simp only [validate, List.mem_append] at hv
        rcases hv with hv | hv
        · exact .inl (columns_reject (hn r (by simp)) hv)
        · unfold vPrimary at hv
          split at hv
          · split at hv
            · split at hv <;> simp at hv
            · simp at hv
          · simp at hv
      | succ j =>
        rcases ih (validate O s q.table q.cols q.row).1 j (by simpa using hr) (by simpa [answers] using ha) (fun q h => hn q (by simp [h])) with h | ⟨i, x, hi, hx, h⟩
        · simp only [validate, primary_unique] at h
          rcases columns_from O s _ _ _ h with h | ⟨c, v, hc, h⟩
          · exact .inl h
          · exact .inr ⟨0, q, by omega, by simp, c, v, hc, h⟩
        · exact .inr ⟨i + 1, x, by omega, by simpa using hx, h⟩
  rcases key qs {} j hr ha hn with h | ⟨i, q, hi, hq, c, v, hc, hu, hnull, hk, hp⟩
  · simp at h
  · have hqm : q ∈ qs := List.mem_of_getElem? hq
    have := inj (hcol q hqm) (hcol r (List.mem_of_getElem? hr)) hk
    exact ⟨i, q, hi, hq, this.1, c, v, hc, this.2, hu, hnull, hp⟩

/-- C145 for a primary key of one column and two tuples one after the other: the second is not accepted if it has the same key.
Missing: tuples with others between them, and keys of several columns (`C145_primary_fails`, `C145_composite_fails`). -/
theorem C145_primary_partial {s : Validator V} {q r : Ask V} {c d : Col} {v w : V} (ht : q.table = r.table) (hq : (q.cols.zip q.row).filter (·.1.primary) = [(c, v)])
    (hr : (r.cols.zip r.row).filter (·.1.primary) = [(d, w)]) (he : O.eq v w = true)
    (ha : (validate O s q.table q.cols q.row).2 = []) : (validate O (validate O s q.table q.cols q.row).1 r.table r.cols r.row).2 ≠ [] := by
  have cols_primary : ∀ (cs : List Col) (vs : List V) (s : Validator V) (t : Text), (vColumns O s t cs vs).1.primary = s.primary := by
    intro cs
    induction cs with
    | nil => intro vs s t; rfl
    | cons c cs ih =>
      intro vs s t
      cases vs with
      | nil => rfl
      | cons v vs =>
        show (vColumns O (vUnique O s t c v).1 t cs vs).1.primary = s.primary
        rw [ih]
        unfold vUnique
        split
        · rfl
        · split <;> rfl
  intro hb
  have h1 := (accepted ha).2
  have hl : ((validate O s q.table q.cols q.row).1.primary).lookup (keyOf q.table "pk".toList) = some v := by
    simp only [validate]
    generalize vColumns O s q.table q.cols q.row = z at h1
    unfold vPrimary at h1 ⊢
    rw [hq] at h1 ⊢
    dsimp only at h1 ⊢
    split
    · rename_i x hx
      rw [hx] at h1
      dsimp only at h1
      split
      · rename_i hy; rw [if_pos hy] at h1; cases h1
      · simp
    · simp
  have h2 := (accepted hb).2
  unfold vPrimary at h2
  rw [hr] at h2
  dsimp only at h2
  rw [cols_primary, ← ht, hl] at h2
  simp [he] at h2

/-- C145 for foreign keys: a value, not NULL, of a column with a foreign key is accepted if and only if its printed text is a key of the map given. -/
theorem C145_foreign {c : Col} {v : V} {keys : List Text} (hc : c.foreign = true) (hv : O.null v = false) : vForeign O c v keys = [] ↔ O.print v ∈ keys := by
  unfold vForeign
  by_cases h : O.print v ∈ keys <;> simp [hc, hv, h]

/-! ## Cases -/

/-- Values for the cases: integers and NULL. -/
def exVals : Vals (Option Int) := ⟨(·.isNone), fun v => match v with | some n => (toString n).toList | none => "NULL".toList, fun a b => a == b, fun v => match v with | some n => n ≤ 0 | none => false⟩

def exCols : List Col := [{ name := "id".toList, primary := true }, { name := "code".toList, unique := true }, { name := "price".toList, notNull := true, check := some "price > 0".toList }]

def exAsks (rows : List (List (Option Int))) : List (Ask (Option Int)) := rows.map fun r => ⟨"t".toList, exCols, r⟩

/-- Of six tuples, the first two and the last are accepted; a code is given twice, a price is missing and a price is not positive. -/
example : (answers exVals {} (exAsks [[some 1, some 7, some 5], [some 2, none, some 5], [some 3, some 7, some 5], [some 4, some 8, none], [some 5, some 9, some (-1)], [some 6, none, some 1]])).map (·.length)
    = [0, 0, 1, 1, 1, 0] := by decide +kernel

example : vForeign exVals { name := "c".toList, foreign := true } (some 3) ["3".toList] = [] ∧ vForeign exVals { name := "c".toList, foreign := true } (some 4) ["3".toList] ≠ [] := by decide +kernel

/-! ## What the validator does not check -/

/-- Only the last key is remembered: 1, 2, 1 are all accepted as primary keys. -/
theorem C145_primary_fails : ∃ cols : List Col, (∃ c ∈ cols, c.primary = true) ∧
    answers exVals {} ([[some 1], [some 2], [some 1]].map fun r => ⟨"t".toList, cols, r⟩) = [[], [], []] :=
  ⟨[{ name := "id".toList, primary := true }], ⟨_, List.mem_singleton.2 rfl, rfl⟩, by decide +kernel⟩

/-- NULL is accepted as a primary key. -/
theorem C145_primary_null_fails : answers exVals {} [⟨"t".toList, [{ name := "id".toList, primary := true }], [none]⟩] = [[]] := by decide +kernel

/-- A key of two columns is not checked: the same tuple is accepted twice. -/
theorem C145_composite_fails (row : List (Option Int)) (hr : row.length = 2) :
    answers exVals {} (List.replicate 2 ⟨"t".toList, [{ name := "a".toList, primary := true }, { name := "b".toList, primary := true }], row⟩) = [[], []] := by
  match row, hr with
  | [a, b], _ => rfl

/-- A tuple that is refused reserves its values of UNIQUE columns: the corrected tuple is refused as well. -/
theorem C145_reserved_fails : answers exVals {} (exAsks [[some 1, some 7, none], [some 1, some 7, some 5]]) ≠ [[.notNull "price".toList], []] ∧
    ((answers exVals {} (exAsks [[some 1, some 7, none], [some 1, some 7, some 5]]))[1]?.getD []).contains (.unique "code".toList "7".toList) = true ∧
    answers exVals {} (exAsks [[some 1, some 7, some 5]]) = [[]] := by decide +kernel

/-- A CHECK with a text other than the known ones accepts every value. -/
theorem C145_check_fails (v : Option Int) : answers exVals {} [⟨"t".toList, [{ name := "age".toList, check := some "age > 0".toList }], [v]⟩] = [[]] := by
  have : known "age > 0".toList = false := by decide +kernel
  have h : vCheck exVals { name := "age".toList, check := some "age > 0".toList } v = [] := by simp only [vCheck, this]; simp
  simp only [answers, validate, vColumns, h, vNotNull, vUnique, vPrimary]
  simp

/-- A CHECK with a known part in another sense refuses values that meet it: `saleprice > 0 OR ...`. -/
theorem C145_check_other_fails : answers exVals {} [⟨"t".toList, [{ name := "price".toList, check := some "NOT (price > 0)".toList }], [some (-1)]⟩] = [[.check "price".toList]] := by decide +kernel

/-- DEFAULT values are not filled in. -/
theorem C145_default_fails (cs : List Col) (row : List V) : applyDefaults cs row = row := rfl

end Verif.Constraint

import Verif.Dml.Lemmas
import Verif.Dml.Spec

/-!
# C78, C79, C80, C81: INSERT, constraints and stored types
-/

namespace Verif.Dml

open Verif.Wire Verif.Bytes Verif.Sql Verif.Exec

/-! ## Casts -/

/-- The conversions left open give values of the type asked for. -/
def TypedExt (ext : Value → Nat → Option Value) : Prop := ∀ v t w, ext v t = some w → ty w = t

theorem ty_newTyped (v : Val) (t : Nat) : ty (newTyped v t) = t := rfl

theorem castInt_ty {s : Nat} {i : Int} {t : Nat} {w : Value} (h : castInt s i t = .ok w) : ty w = t := by
  unfold castInt at h
  split at h
  all_goals first | (cases h <;> rfl) | skip
  all_goals (split at h <;> first | (cases h <;> rfl) | (split at h <;> cases h <;> rfl))

theorem castFloat_ty {f : Fmt} {x t : Nat} {w : Value} (h : castFloat f x t = .ok w) : ty w = t := by
  unfold castFloat at h
  split at h <;> cases h <;> rfl

theorem orErr_ty {α : Type} {o : Option α} {g : α → Value} {t : Nat} {w : Value} (hg : ∀ a, ty (g a) = t) (h : orErr (o.map g) = .ok w) : ty w = t := by
  cases o with
  | none => cases h
  | some a => cases h; exact hg a

theorem orOut_ty {α : Type} {o : Option α} {g : α → Value} {t : Nat} {w : Value} (hg : ∀ a, ty (g a) = t) (h : orOut (o.map g) = .ok w) : ty w = t := by
  cases o with
  | none => cases h
  | some a => cases h; exact hg a

theorem castStr_ty {s : List Byte} {t : Nat} {w : Value} (h : castStr s t = .ok w) : ty w = t := by
  unfold castStr at h
  split at h
  all_goals first | (cases h; rfl) | exact orErr_ty (fun _ => rfl) h | exact orOut_ty (fun _ => rfl) h | cases h

/-- A cast gives a value of the type asked for. -/
theorem castTo_ty {v : Value} {t : Nat} {w : Value} (h : castTo v t = .ok w) : ty w = t := by
  unfold castTo at h
  split at h
  · cases h; assumption
  · split at h
    · cases h; rfl
    · split at h
      all_goals first | exact castInt_ty h | exact castFloat_ty h | exact castStr_ty h | (cases h; rfl) | cases h | skip
      all_goals (split at h)
      all_goals first | (cases h; rfl) | cases h | skip
      all_goals (split at h)
      all_goals first | (cases h; rfl) | cases h

theorem cast_ty {ext : Value → Nat → Option Value} (hx : TypedExt ext) {v : Value} {t : Nat} {w : Value} (h : cast ext v t = some w) : ty w = t := by
  unfold cast at h
  split at h
  · cases h; rename_i h; exact castTo_ty h
  · cases h
  · exact hx _ _ _ h

theorem cast_same (ext : Value → Nat → Option Value) (v : Value) : cast ext v (ty v) = some v := by simp [cast, castTo]

theorem castOrNull_ty {ext : Value → Nat → Option Value} (hx : TypedExt ext) (v : Value) (t : Nat) : ty (castOrNull ext v t) = t := by
  unfold castOrNull
  cases h : cast ext v t with
  | none => rfl
  | some w => exact cast_ty hx h

theorem castOrNull_same (ext : Value → Nat → Option Value) {v : Value} {t : Nat} (h : ty v = t) : castOrNull ext v t = v := by
  subst h
  simp [castOrNull, cast_same]

/-! ## Rows -/

theorem mapRow_length (ext : Value → Nat → Option Value) (names : List String) (cols : List Column) (row : Row) : (mapRow ext names cols row).length = cols.length := by
  unfold mapRow
  split <;> simp

theorem mapRow_ty {ext : Value → Nat → Option Value} (hx : TypedExt ext) {names : List String} {cols : List Column} {row : Row} (j : Nat) (c : Column) (v : Value)
    (hc : cols[j]? = some c) (hv : (mapRow ext names cols row)[j]? = some v) : ty v = c.ty := by
  unfold mapRow at hv
  simp only at hv
  split at hv
  · simp only [List.getElem?_map, hc, Option.map_some, Option.some.injEq] at hv
    subst hv
    split
    · exact castOrNull_ty hx _ _
    · rfl
  · obtain ⟨hj, hcj⟩ := List.getElem?_eq_some_iff.1 hc
    have hz : ((List.range cols.length).zip cols)[j]? = some (j, c) := by
      rw [List.getElem?_eq_getElem (by simpa using hj)]
      simp [hcj]
    simp only [List.getElem?_map, hz, Option.map_some, Option.some.injEq] at hv
    subst hv
    split
    · exact castOrNull_ty hx _ _
    · rfl

/-- What `expand` does to a row of full length: a NULL in a primary key becomes a number, everything else stays. -/
theorem expand_full {cols : List Column} {row row' : Row} {n n' : Int} (hl : row.length = cols.length) (h : expand cols row n = some (row', n')) :
    row'.length = cols.length ∧ ∀ (j : Nat) c v, cols[j]? = some c → row[j]? = some v →
      ∃ v', row'[j]? = some v' ∧ Kept c v v' := by
  induction cols generalizing row row' n n' with
  | nil =>
    cases row with
    | nil => cases h; exact ⟨rfl, nofun⟩
    | cons _ _ => cases hl
  | cons c cols ih =>
    cases row with
    | nil => cases hl
    | cons v vs =>
      have hl : vs.length = cols.length := by simpa using hl
      simp only [expand] at h
      split at h
      · rename_i hcond
        obtain ⟨⟨r, m⟩, hr, he⟩ := Option.map_eq_some_iff.1 h
        cases he
        obtain ⟨i1, i2⟩ := ih hl hr
        refine ⟨by simp [i1], fun j c' v' hc hv => ?_⟩
        cases j with
        | zero =>
          cases hc; cases hv
          exact ⟨_, rfl, by rw [Kept, if_pos (by simpa using hcond)]; exact ⟨n, rfl⟩⟩
        | succ j => exact i2 j c' v' hc hv
      · rename_i hcond
        obtain ⟨⟨r, m⟩, hr, he⟩ := Option.map_eq_some_iff.1 h
        cases he
        obtain ⟨i1, i2⟩ := ih hl hr
        refine ⟨by simp [i1], fun j c' v' hc hv => ?_⟩
        cases j with
        | zero =>
          cases hc; cases hv
          exact ⟨_, rfl, by rw [Kept, if_neg (by simpa using hcond)]⟩
        | succ j => exact i2 j c' v' hc hv

theorem expand_some {cols : List Column} {row : Row} (n : Int) (hl : row.length = cols.length) : ∃ x, expand cols row n = some x := by
  induction cols generalizing row n with
  | nil =>
    cases row with
    | nil => exact ⟨_, rfl⟩
    | cons _ _ => cases hl
  | cons c cols ih =>
    cases row with
    | nil => cases hl
    | cons v vs =>
      have hl : vs.length = cols.length := by simpa using hl
      simp only [expand]
      split
      · obtain ⟨x, hx⟩ := ih (wrapI32 (n + 1)) hl
        exact ⟨_, by rw [hx]; rfl⟩
      · obtain ⟨x, hx⟩ := ih n hl
        exact ⟨_, by rw [hx]; rfl⟩

/-- However the loop of an INSERT ends, the rows behind the old ones are the first source rows, as mapped and completed, and each passed the foreign key check. -/
theorem insertRows_any {d : Disk} {ext : Value → Nat → Option Value} {seen : Seen} {txn : Nat} {names : List String} {cols : List Column} (hf : Fresh d) {rows : List Row} {s : Ins}
    {l : List (Rid × Slot)} (t : Table s.heap l) : ∃ added, Table (insertRows d ext seen txn names cols rows s).1.heap (l ++ added) ∧ added.length ≤ rows.length ∧
      ((insertRows d ext seen txn names cols rows s).2 = .done → added.length = rows.length) ∧
      (insertRows d ext seen txn names cols rows s).1.count = s.count + added.length ∧
      ∀ (i : Nat) x, added[i]? = some x → ∃ row h n row' n', rows[i]? = some row ∧ x.2 = ⟨⟨txn, false, false⟩, row'⟩ ∧
        fkOk (seen h) cols (mapRow ext names cols row) = true ∧ expand cols (mapRow ext names cols row) n = some (row', n') ∧ Table h (l ++ added.take i) := by
  induction rows generalizing s l with
  | nil => exact ⟨[], by simpa [insertRows] using t, by simp, fun _ => rfl, by simp [insertRows], fun i x hx => by simp at hx⟩
  | cons row rows ih =>
    have stop : ∀ (s' : Ins), Table s'.heap l → s'.count = s.count → ∀ e : End, e ≠ .done →
        ∃ added : List (Rid × Slot), Table s'.heap (l ++ added) ∧ added.length ≤ (row :: rows).length ∧ (e = .done → added.length = (row :: rows).length) ∧
          s'.count = s.count + added.length ∧
          ∀ (i : Nat) x, added[i]? = some x → ∃ row' h n row'' n', (row :: rows)[i]? = some row' ∧ x.2 = ⟨⟨txn, false, false⟩, row''⟩ ∧
            fkOk (seen h) cols (mapRow ext names cols row') = true ∧ expand cols (mapRow ext names cols row') n = some (row'', n') ∧ Table h (l ++ added.take i) :=
      fun s' t' hcnt e he => ⟨[], by simpa using t', by simp, fun h => absurd h he, by simpa using hcnt, fun i x hx => by simp at hx⟩
    simp only [insertRows]
    by_cases hfk : fkOk (seen s.heap) cols (mapRow ext names cols row) = true
    · simp only [hfk, if_true]
      cases hex : expand cols (mapRow ext names cols row) s.next with
      | none => exact stop s t rfl .err nofun
      | some x =>
        obtain ⟨row', n'⟩ := x
        simp only
        have hins := t.insert hf ⟨⟨txn, false, false⟩, row'⟩
        cases hp : s.heap.insert d ⟨⟨txn, false, false⟩, row'⟩ with
        | err h =>
          rw [hp] at hins
          exact stop { s with heap := h, next := n' } hins rfl .err nofun
        | ok h r =>
          rw [hp] at hins
          simp only
          obtain ⟨added, i1, i2, i3, i4, i5⟩ := ih (s := ⟨h, n', s.count + 1⟩) hins
          refine ⟨(r, ⟨⟨txn, false, false⟩, row'⟩) :: added, by simpa using i1, by simp; omega, fun he => by simp [i3 he], by rw [i4]; simp; omega, fun i x hx => ?_⟩
          cases i with
          | zero =>
            cases hx
            exact ⟨row, s.heap, s.next, row', n', rfl, rfl, hfk, hex, by simpa using t⟩
          | succ i =>
            obtain ⟨a, b, c, d', e, h1, h2, h3, h4, h5⟩ := i5 i x hx
            exact ⟨a, b, c, d', e, h1, h2, h3, h4, by simpa using h5⟩
    · simp only [hfk, if_false, Bool.false_eq_true]
      exact stop s t rfl .err nofun

/-! ## VALUES -/

theorem valuesRow_spec {ext : Value → Nat → Option Value} {ρ : Env} {cols : List Column} {es : List Expr} {row : Row} (h : valuesRow ext ρ cols es = .ok row) :
    row.length = es.length ∧ ∀ (k : Nat) e c, es[k]? = some e → cols[k]? = some c → ∃ v w, eval false ρ e = .ok v ∧ cast ext v c.ty = some w ∧ row[k]? = some w := by
  induction es generalizing cols row with
  | nil =>
    cases cols <;> (simp only [valuesRow] at h; cases h; exact ⟨rfl, fun k e c he => by simp at he⟩)
  | cons e es ih =>
    cases cols with
    | nil => simp only [valuesRow] at h; cases h
    | cons c cols =>
      simp only [valuesRow] at h
      split at h
      · rename_i v hv
        split at h
        · rename_i w hw
          cases hr : valuesRow ext ρ cols es with
          | error x => rw [hr] at h; cases h
          | ok r =>
            rw [hr] at h
            cases h
            obtain ⟨i1, i2⟩ := ih hr
            refine ⟨by simp [i1], fun k e' c' he hc => ?_⟩
            cases k with
            | zero =>
              cases he; cases hc
              refine ⟨v, w, hv, ?_, rfl⟩
              split at hw
              · rename_i ht
                cases hw
                rw [← ht]
                exact cast_same ext v
              · exact hw
            | succ k => exact i2 k e' c' he hc
        · cases h
      · cases h
      · cases h

theorem valuesRow_err {ext : Value → Nat → Option Value} {ρ : Env} {cols : List Column} {es : List Expr} : valuesRow ext ρ cols es ≠ .error .done := by
  induction es generalizing cols with
  | nil => cases cols <;> exact nofun
  | cons e es ih =>
    cases cols with
    | nil => exact nofun
    | cons c cols =>
      simp only [valuesRow]
      split
      · split
        · cases hr : valuesRow ext ρ cols es with
          | error x =>
            intro h
            cases h
            exact ih hr
          | ok r => exact nofun
        · exact nofun
      · exact nofun
      · exact nofun

theorem valuesRows_spec {ext : Value → Nat → Option Value} {cols : List Column} {rows : List (List Expr)} {rs : List Row} (h : valuesRows ext cols rows = .ok rs) :
    rs.length = rows.length ∧ ∀ (i : Nat) es, rows[i]? = some es → ∃ row, rs[i]? = some row ∧ valuesRow ext (rowEnv (nulls cols)) cols es = .ok row := by
  induction rows generalizing rs with
  | nil => cases h; exact ⟨rfl, fun i es he => by simp at he⟩
  | cons es rows ih =>
    simp only [valuesRows] at h
    split at h
    · cases h
    · rename_i r hr
      cases hrs : valuesRows ext cols rows with
      | error x => rw [hrs] at h; cases h
      | ok rs' =>
        rw [hrs] at h
        cases h
        obtain ⟨i1, i2⟩ := ih hrs
        refine ⟨by simp [i1], fun i es' he => ?_⟩
        cases i with
        | zero => cases he; exact ⟨r, rfl, hr⟩
        | succ i => exact i2 i es' he

theorem valuesRows_err {ext : Value → Nat → Option Value} {cols : List Column} {rows : List (List Expr)} : valuesRows ext cols rows ≠ .error .done := by
  induction rows with
  | nil => exact nofun
  | cons es rows ih =>
    simp only [valuesRows]
    split
    · rename_i e he
      intro h
      cases h
      exact valuesRow_err he
    · cases hr : valuesRows ext cols rows with
      | error x =>
        intro h
        cases h
        exact ih hr
      | ok r => exact nofun

theorem mapM_names {cols : List Column} {ns : List String} {target : List Column} (h : (ns.mapM fun n => cols.find? (·.name == n)) = some target) :
    target.map (·.name) = ns ∧ ∀ c ∈ target, c ∈ cols := by
  induction ns generalizing target with
  | nil => cases h; exact ⟨rfl, nofun⟩
  | cons n ns ih =>
    rw [List.mapM_cons] at h
    cases hc : cols.find? (·.name == n) with
    | none => rw [hc] at h; cases h
    | some c =>
      cases ht : (ns.mapM fun n => cols.find? (·.name == n)) with
      | none => rw [hc, ht] at h; cases h
      | some t =>
        rw [hc, ht] at h
        cases h
        obtain ⟨i1, i2⟩ := ih ht
        refine ⟨by simp [i1, by simpa using List.find?_some hc], fun c' hc' => ?_⟩
        rcases List.mem_cons.1 hc' with rfl | hc'
        · exact List.mem_of_find?_eq_some hc
        · exact i2 c' hc'

theorem listed_names {cols : List Column} {into : List String} {target : List Column} (h : listed cols into = some target) :
    target.map (·.name) = filled cols into ∧ ∀ c ∈ target, c ∈ cols := by
  cases into with
  | nil => cases h; exact ⟨by simp [filled], fun _ h => h⟩
  | cons n ns =>
    have := mapM_names h
    exact ⟨by rw [this.1]; simp [filled], this.2⟩

theorem distinct_eq {cols : List Column} (h : Distinct cols) {c c' : Column} (h1 : c ∈ cols) (h2 : c' ∈ cols) (e : c.name = c'.name) : c = c' := by
  induction cols with
  | nil => cases h1
  | cons a cols ih =>
    obtain ⟨n1, n2⟩ := List.nodup_cons.1 h
    rcases List.mem_cons.1 h1 with e1 | g1 <;> rcases List.mem_cons.1 h2 with e2 | g2
    · rw [e1, e2]
    · subst e1
      exact absurd (show c.name ∈ cols.map (·.name) from List.mem_map.2 ⟨c', g2, e.symm⟩) n1
    · subst e2
      exact absurd (show c'.name ∈ cols.map (·.name) from List.mem_map.2 ⟨c, g1, e⟩) n1
    · exact ih n2 g1 g2

/-- Values by name. -/
theorem mapRow_given (ext : Value → Nat → Option Value) {cols : List Column} {into : List String} {target : List Column} (h : listed cols into = some target) (row : Row) (j : Nat)
    (c : Column) (hc : cols[j]? = some c) : (mapRow ext (target.map (·.name)) cols row)[j]? =
      some (match given cols into row c with | some v => castOrNull ext v c.ty | none => newTyped .null c.ty) := by
  obtain ⟨h1, h2⟩ := listed_names h
  by_cases hne : target = []
  · subst hne
    have hf : filled cols into = [] := by rw [← h1]; rfl
    have hcols : cols = [] := by
      cases into with
      | nil => simpa [filled] using hf
      | cons n ns => simp [filled] at hf
    subst hcols
    cases hc
  · have hb : byName (target.map (·.name)) cols = true := by
      simp only [byName, Bool.and_eq_true, Bool.not_eq_true', List.isEmpty_eq_false_iff, ne_eq, List.map_eq_nil_iff, List.all_eq_true, List.any_eq_true, beq_iff_eq]
      refine ⟨hne, fun n hn => ?_⟩
      obtain ⟨c', hc', rfl⟩ := List.mem_map.1 hn
      exact ⟨c', h2 c' hc', rfl⟩
    rw [h1] at hb ⊢
    unfold mapRow
    simp only [hb, if_true, List.getElem?_map, hc, Option.map_some, given]
    cases ((filled cols into).findIdx? (· == c.name)).bind fun k => row[k]? <;> rfl

/-- The place of a column's name in the column list is the place of the column. -/
theorem target_at {cols : List Column} {into : List String} {target : List Column} (hd : Distinct cols) (h : listed cols into = some target) {c : Column} (hc : c ∈ cols) {k : Nat}
    (hk : (filled cols into).findIdx? (· == c.name) = some k) : target[k]? = some c := by
  obtain ⟨h1, h2⟩ := listed_names h
  rw [← h1] at hk
  obtain ⟨hlt, hp, _⟩ := List.findIdx?_eq_some_iff_getElem.1 hk
  simp only [List.length_map] at hlt
  simp only [List.getElem_map, beq_iff_eq] at hp
  rw [List.getElem?_eq_getElem hlt, distinct_eq hd (h2 _ (List.getElem_mem hlt)) hc hp]

/-- INSERT … VALUES which succeeds stores the given rows behind the old ones, in their order, and reports their number. In each new row a column that is listed (all are when none
is) holds the value of its expression, cast to the type of the column; a NULL in a primary key is replaced by a number. A column that is not listed holds NULL, or a number if it
is a primary key. Missing from the full property: the DEFAULT of a column that is not listed (`C78_default_fails`). -/
theorem C78_insert_values_partial {d : Disk} {ext : Value → Nat → Option Value} {seen : Seen} {txn : Nat} {cols : List Column} {into : List String} {rows : List (List Expr)} {s s' : Ins}
    {l : List (Rid × Slot)} (t : Table s.heap l) (hf : Fresh d) (hx : TypedExt ext) (hd : Distinct cols)
    (hconst : ∀ es ∈ rows, ∀ e ∈ es, ∀ ρ ρ', eval false ρ e = eval false ρ' e)
    (h : insertStmt d ext seen txn cols into (.values rows) s = (s', .done)) :
    ∃ added, Table s'.heap (l ++ added) ∧ added.length = rows.length ∧ s'.count = s.count + rows.length ∧
      ∀ (i : Nat) es, rows[i]? = some es → ∃ r row, added[i]? = some (r, ⟨⟨txn, false, false⟩, row⟩) ∧ row.length = cols.length ∧
        ∀ (j : Nat) c, cols[j]? = some c → ∃ v, row[j]? = some v ∧ match given cols into es c with
          | some e => ∃ v0 w, eval false (rowEnv []) e = .ok v0 ∧ cast ext v0 c.ty = some w ∧ Kept c w v
          | none => Kept c (newTyped .null c.ty) v := by
  simp only [insertStmt] at h
  split at h
  · rename_i e he
    cases h
    simp only [sourceRows] at he
    split at he
    · cases he
    · split at he
      · cases hv : valuesRows ext _ rows with
        | error x =>
          rw [hv] at he
          cases he
          exact absurd hv valuesRows_err
        | ok r => rw [hv] at he; cases he
      · cases he
  · rename_i names rs he
    simp only [sourceRows] at he
    split at he
    · cases he
    · rename_i target ht
      split at he
      · rename_i hlen
        cases hv : valuesRows ext target rows with
        | error x => rw [hv] at he; cases he
        | ok r =>
          rw [hv] at he
          cases he
          obtain ⟨v1, v2⟩ := valuesRows_spec hv
          obtain ⟨added, h1, _, h3, h4, h5⟩ := insertRows_any (ext := ext) (seen := seen) (txn := txn) (names := target.map (·.name)) (cols := cols) (rows := rs) hf t
          rw [h] at h1 h3 h4
          have hal := h3 rfl
          refine ⟨added, h1, by omega, by simp only at h4; omega, fun i es hes => ?_⟩
          obtain ⟨row, hrow, hval⟩ := v2 i es hes
          obtain ⟨hi, _⟩ := List.getElem?_eq_some_iff.1 hrow
          have hia : i < added.length := by omega
          obtain ⟨row0, _, n, row', n', g1, g2, _, g4, _⟩ := h5 i added[i] (List.getElem?_eq_getElem hia)
          rw [hrow] at g1
          cases g1
          refine ⟨added[i].1, row', by rw [List.getElem?_eq_getElem hia, ← g2], ?_⟩
          obtain ⟨e1, e2⟩ := expand_full (mapRow_length ..) g4
          refine ⟨e1, fun j c hc => ?_⟩
          have hm := mapRow_given ext ht row j c hc
          obtain ⟨v', hv', hk⟩ := e2 j c _ hc hm
          refine ⟨v', hv', ?_⟩
          obtain ⟨w1, w2⟩ := valuesRow_spec hval
          have hesl : es.length = target.length := by
            have := List.all_eq_true.1 hlen es (List.mem_of_getElem? hes)
            simpa using this
          simp only [given] at hk ⊢
          cases hfi : (filled cols into).findIdx? (· == c.name) with
          | none =>
            rw [hfi] at hk
            exact hk
          | some k =>
            rw [hfi] at hk
            have hta := target_at hd ht (List.mem_of_getElem? hc) hfi
            obtain ⟨hkt, _⟩ := List.getElem?_eq_some_iff.1 hta
            have hke : es[k]? = some es[k] := List.getElem?_eq_getElem (by omega)
            obtain ⟨v0, w, x1, x2, x3⟩ := w2 k _ c hke hta
            simp only [Option.bind_some, hke]
            rw [hconst es (List.mem_of_getElem? hes) _ (List.getElem_mem _) _ (rowEnv [])] at x1
            refine ⟨v0, w, x1, x2, ?_⟩
            simp only [Option.bind_some, x3, castOrNull_same ext (cast_ty hx x2)] at hk
            exact hk
      · cases he

/-- INSERT … SELECT which succeeds, when the columns of the SELECT have the names of the columns to fill, in this order: each source row is stored with every value in its column.
Missing from the full property: other names (`C78_select_swapped_fails`, `C78_select_first_column_fails`), LIMIT (`C78_select_limit_fails`) and DEFAULT. -/
theorem C78_insert_select_partial {d : Disk} {ext : Value → Nat → Option Value} {seen : Seen} {txn : Nat} {cols : List Column} {into : List String} {types : List Nat} {rows : List Row}
    {fin : End} {s s' : Ins} {l : List (Rid × Slot)} (t : Table s.heap l) (hf : Fresh d) (hd : Distinct cols)
    (hty : ∀ row ∈ rows, row.map ty = types)
    (h : insertStmt d ext seen txn cols into (.select (filled cols into) types rows fin none) s = (s', .done)) (hfin : fin = .done) :
    ∃ added, Table s'.heap (l ++ added) ∧ added.length = rows.length ∧ s'.count = s.count + rows.length ∧
      ∀ (i : Nat) src, rows[i]? = some src → ∃ r row, added[i]? = some (r, ⟨⟨txn, false, false⟩, row⟩) ∧ row.length = cols.length ∧
        ∀ (j : Nat) c, cols[j]? = some c → ∃ v, row[j]? = some v ∧ match given cols into src c with
          | some w => Kept c w v
          | none => Kept c (newTyped .null c.ty) v := by
  subst hfin
  simp only [insertStmt, sourceRows] at h
  cases ht : listed cols into with
  | none => rw [ht] at h; cases h
  | some target =>
    rw [ht] at h
    simp only at h
    by_cases htt : types = target.map (·.ty)
    · rw [if_pos htt] at h
      simp only at h
      obtain ⟨n1, n2⟩ := listed_names ht
      obtain ⟨added, h1, _, h3, h4, h5⟩ := insertRows_any (ext := ext) (seen := seen) (txn := txn) (names := filled cols into) (cols := cols) (rows := rows) hf t
      rw [h] at h1 h3 h4
      have hal := h3 rfl
      refine ⟨added, h1, by omega, by simp only at h4; omega, fun i src hsrc => ?_⟩
      obtain ⟨hi, _⟩ := List.getElem?_eq_some_iff.1 hsrc
      have hia : i < added.length := by omega
      obtain ⟨row0, _, n, row', n', g1, g2, _, g4, _⟩ := h5 i added[i] (List.getElem?_eq_getElem hia)
      rw [hsrc] at g1
      cases g1
      refine ⟨added[i].1, row', by rw [List.getElem?_eq_getElem hia, ← g2], ?_⟩
      obtain ⟨e1, e2⟩ := expand_full (mapRow_length ..) g4
      refine ⟨e1, fun j c hc => ?_⟩
      have hm := mapRow_given ext ht src j c hc
      rw [n1] at hm
      obtain ⟨v', hv', hk⟩ := e2 j c _ hc hm
      refine ⟨v', hv', ?_⟩
      cases hg : given cols into src c with
      | none =>
        rw [hg] at hk
        exact hk
      | some w =>
        rw [hg] at hk
        obtain ⟨k, hfi, hw⟩ := Option.bind_eq_some_iff.1 hg
        have hta := target_at hd ht (List.mem_of_getElem? hc) hfi
        have hwt : ty w = c.ty := by
          have h1 : (src.map ty)[k]? = some (ty w) := by simp [hw]
          rw [hty src (List.mem_of_getElem? hsrc), htt, List.getElem?_map, hta] at h1
          exact (Option.some.inj h1).symm
        simp only [castOrNull_same ext hwt] at hk
        exact hk
    · rw [if_neg htt] at h
      cases h

theorem valuesRow_total {ext : Value → Nat → Option Value} {ρ : Env} {cols : List Column} {es : List Expr} (hl : es.length = cols.length)
    (h : ∀ (k : Nat) e c, es[k]? = some e → cols[k]? = some c → ∃ v w, eval false ρ e = .ok v ∧ cast ext v c.ty = some w) : ∃ row, valuesRow ext ρ cols es = .ok row := by
  induction es generalizing cols with
  | nil => cases cols <;> exact ⟨_, rfl⟩
  | cons e es ih =>
    cases cols with
    | nil => cases hl
    | cons c cols =>
      obtain ⟨v, w, hv, hw⟩ := h 0 e c rfl rfl
      obtain ⟨row, hr⟩ := ih (by simpa using hl) fun k e c he hc => h (k + 1) e c he hc
      have : (if ty v = c.ty then some v else cast ext v c.ty) = some (if ty v = c.ty then v else w) := by
        split
        · rfl
        · exact hw
      exact ⟨_, by simp only [valuesRow, hv, this, hr]; rfl⟩

theorem valuesRows_total {ext : Value → Nat → Option Value} {cols : List Column} {rows : List (List Expr)}
    (h : ∀ es ∈ rows, ∃ row, valuesRow ext (rowEnv (nulls cols)) cols es = .ok row) : ∃ rs, valuesRows ext cols rows = .ok rs := by
  induction rows with
  | nil => exact ⟨_, rfl⟩
  | cons es rows ih =>
    obtain ⟨row, hr⟩ := h es List.mem_cons_self
    obtain ⟨rs, hrs⟩ := ih fun x hx => h x (List.mem_cons_of_mem _ hx)
    exact ⟨_, by simp only [valuesRows, hr, hrs]; rfl⟩

theorem fkOk_none {seen : String → Option (List Column × List Row)} {cols : List Column} (h : ∀ c ∈ cols, c.fk = none) (row : Row) : fkOk seen cols row = true := by
  induction cols generalizing row with
  | nil => rfl
  | cons c cols ih =>
    simp only [fkOk, h c List.mem_cons_self]
    exact ih (fun x hx => h x (List.mem_cons_of_mem _ hx)) _

theorem insertRows_total {d : Disk} {ext : Value → Nat → Option Value} {seen : Seen} {txn : Nat} {names : List String} {cols : List Column} (hf : Fresh d) (hk : ∀ c ∈ cols, c.fk = none)
    {rows : List Row} {s : Ins} {l : List (Rid × Slot)} (t : Table s.heap l) : (insertRows d ext seen txn names cols rows s).2 = .done ∨
      ((insertRows d ext seen txn names cols rows s).2 = .err ∧ ∃ h added slot, Table h (l ++ added) ∧ h.insert d slot = .err (insertRows d ext seen txn names cols rows s).1.heap) := by
  induction rows generalizing s l with
  | nil => exact .inl rfl
  | cons row rows ih =>
    obtain ⟨x, hx⟩ := expand_some s.next (mapRow_length ext names cols row)
    obtain ⟨row', n'⟩ := x
    have hins := t.insert hf ⟨⟨txn, false, false⟩, row'⟩
    cases hp : s.heap.insert d ⟨⟨txn, false, false⟩, row'⟩ with
    | err h' =>
      have : insertRows d ext seen txn names cols (row :: rows) s = ({ s with heap := h', next := n' }, .err) := by
        simp only [insertRows, fkOk_none hk, if_true, hx, hp]
      rw [this]
      exact .inr ⟨rfl, s.heap, [], _, by simpa using t, hp⟩
    | ok h' r =>
      rw [hp] at hins
      have : insertRows d ext seen txn names cols (row :: rows) s = insertRows d ext seen txn names cols rows ⟨h', n', s.count + 1⟩ := by
        simp only [insertRows, fkOk_none hk, if_true, hx, hp]
      rw [this]
      rcases ih (s := ⟨h', n', s.count + 1⟩) hins with h | ⟨h1, h, added, slot, h2, h3⟩
      · exact .inl h
      · exact .inr ⟨h1, h, _ :: added, slot, by simpa using h2, h3⟩

/-- INSERT … VALUES into columns that exist, with as many values in every row, which can be computed and cast to the types of their columns, into a table without foreign keys, succeeds,
unless the table could not take a row. -/
theorem C78_insert_values_runs_partial {d : Disk} {ext : Value → Nat → Option Value} {seen : Seen} {txn : Nat} {cols target : List Column} {into : List String} {rows : List (List Expr)}
    {s : Ins} {l : List (Rid × Slot)} (t : Table s.heap l) (hf : Fresh d) (hk : ∀ c ∈ cols, c.fk = none) (ht : target.map (·.name) = filled cols into) (hsub : ∀ c ∈ target, c ∈ cols) (hd : Distinct cols)
    (hl : ∀ es ∈ rows, es.length = target.length)
    (hv : ∀ es ∈ rows, ∀ (k : Nat) e c, es[k]? = some e → target[k]? = some c → ∀ ρ, ∃ v w, eval false ρ e = .ok v ∧ cast ext v c.ty = some w) :
    (insertStmt d ext seen txn cols into (.values rows) s).2 = .done ∨ ((insertStmt d ext seen txn cols into (.values rows) s).2 = .err ∧
      ∃ h added slot, Table h (l ++ added) ∧ h.insert d slot = .err (insertStmt d ext seen txn cols into (.values rows) s).1.heap) := by
  have hlist : listed cols into = some target := by
    have find : ∀ c ∈ cols, cols.find? (·.name == c.name) = some c := by
      intro c hc
      cases hfd : cols.find? (·.name == c.name) with
      | none => simpa using List.find?_eq_none.1 hfd c hc
      | some c' => rw [distinct_eq hd (List.mem_of_find?_eq_some hfd) hc (by simpa using List.find?_some hfd)]
    cases into with
    | nil =>
      simp only [filled, if_true] at ht
      have : ∀ (a b : List Column), (∀ c ∈ a, c ∈ cols) → (∀ c ∈ b, c ∈ cols) → a.map (·.name) = b.map (·.name) → a = b := by
        intro a
        induction a with
        | nil => intro b _ _ h; cases b with
          | nil => rfl
          | cons _ _ => cases h
        | cons x a ih => intro b ha hb h; cases b with
          | nil => cases h
          | cons y b =>
            simp only [List.map_cons, List.cons.injEq] at h
            rw [distinct_eq hd (ha x List.mem_cons_self) (hb y List.mem_cons_self) h.1,
              ih b (fun c hc => ha c (List.mem_cons_of_mem _ hc)) (fun c hc => hb c (List.mem_cons_of_mem _ hc)) h.2]
      rw [this target cols hsub (fun _ h => h) ht]
      rfl
    | cons n ns =>
      simp only [filled, reduceCtorEq, if_false] at ht
      simp only [listed]
      rw [← ht]
      clear hl hv ht
      induction target with
      | nil => rfl
      | cons c target ih =>
        simp only [List.map_cons, List.mapM_cons, find c (hsub c List.mem_cons_self), ih fun x hx => hsub x (List.mem_cons_of_mem _ hx)]
        rfl
  obtain ⟨rs, hrs⟩ := valuesRows_total (ext := ext) (cols := target) (rows := rows) fun es he =>
    valuesRow_total (hl es he) fun k e c h1 h2 => hv es he k e c h1 h2 _
  have hall : rows.all (·.length == target.length) = true := List.all_eq_true.2 fun es he => by simpa using hl es he
  have hs : sourceRows ext cols into (.values rows) = .ok (target.map (·.name), rs) := by
    simp only [sourceRows, hlist, hall, if_true, hrs]
    rfl
  simp only [insertStmt, hs]
  exact insertRows_total hf hk t

/-! ## Constraints and types -/

/-- What an INSERT adds to a table, however it ends. -/
theorem insert_adds {d : Disk} {ext : Value → Nat → Option Value} {seen : Seen} {txn : Nat} {cols : List Column} {into : List String} {src : Source} {s s' : Ins} {e : End}
    {l : List (Rid × Slot)} (t : Table s.heap l) (hf : Fresh d) (h : insertStmt d ext seen txn cols into src s = (s', e)) :
    ∃ names added, Table s'.heap (l ++ added) ∧ ∀ x ∈ added, ∃ row h n row' n', x.2 = ⟨⟨txn, false, false⟩, row'⟩ ∧
      fkOk (seen h) cols (mapRow ext names cols row) = true ∧ expand cols (mapRow ext names cols row) n = some (row', n') := by
  simp only [insertStmt] at h
  split at h
  · cases h
    exact ⟨[], [], by simpa using t, nofun⟩
  · rename_i names rows _
    obtain ⟨added, h1, _, _, _, h5⟩ := insertRows_any (ext := ext) (seen := seen) (txn := txn) (names := names) (cols := cols) (rows := rows) hf t
    rw [h] at h1
    refine ⟨names, added, h1, fun x hx => ?_⟩
    obtain ⟨i, hi⟩ := List.getElem?_of_mem hx
    obtain ⟨row, h', n, row', n', _, g2, g3, g4, _⟩ := h5 i x hi
    exact ⟨row, h', n, row', n', g2, g3, g4⟩

/-- An INSERT, however it ends, adds no row with a NULL in a primary key. -/
theorem C79_primary_key_not_null_partial {d : Disk} {ext : Value → Nat → Option Value} {seen : Seen} {txn : Nat} {cols : List Column} {into : List String} {src : Source} {s s' : Ins}
    {e : End} {l : List (Rid × Slot)} (t : Table s.heap l) (hf : Fresh d) (h : insertStmt d ext seen txn cols into src s = (s', e)) :
    ∃ added, Table s'.heap (l ++ added) ∧ ∀ x ∈ added, ∀ (j : Nat) c, cols[j]? = some c → c.pk = true → ∃ v, x.2.row[j]? = some v ∧ isNull v = false := by
  obtain ⟨names, added, h1, h2⟩ := insert_adds t hf h
  refine ⟨added, h1, fun x hx j c hc hpk => ?_⟩
  obtain ⟨row, _, n, row', n', g2, _, g4⟩ := h2 x hx
  obtain ⟨_, e2⟩ := expand_full (mapRow_length ..) g4
  obtain ⟨hj, _⟩ := List.getElem?_eq_some_iff.1 hc
  obtain ⟨v, hv, hk⟩ := e2 j c _ hc (List.getElem?_eq_getElem (by rw [mapRow_length]; exact hj))
  refine ⟨v, by rw [g2]; exact hv, ?_⟩
  simp only [Kept, hpk, and_true] at hk
  split at hk
  · obtain ⟨m, rfl⟩ := hk
    rfl
  · rename_i hn
    rw [hk]
    simpa using hn

/-- The value stands in the referenced column of a row the transaction sees. -/
def Referenced (seen : String → Option (List Column × List Row)) (k : String × String) (v : Value) : Prop :=
  ∃ cols rows c r w, ∃ (i : Nat), seen k.1 = some (cols, rows) ∧ cols[i]? = some c ∧ c.name = k.2 ∧ r ∈ rows ∧ r[i]? = some w ∧ valueEq w v = true

theorem refers_spec {seen : String → Option (List Column × List Row)} {k : String × String} {v : Value} (h : refers seen v k = true) : Referenced seen k v := by
  simp only [refers] at h
  split at h
  · cases h
  · rename_i cols rows hs
    split at h
    · cases h
    · rename_i i hi
      obtain ⟨r, hr, hv⟩ := List.any_eq_true.1 h
      split at hv
      · rename_i w hw
        obtain ⟨hlt, hp, _⟩ := List.findIdx?_eq_some_iff_getElem.1 hi
        exact ⟨cols, rows, cols[i], r, w, i, hs, List.getElem?_eq_getElem hlt, by simpa using hp, hr, hw, hv⟩
      · cases hv

theorem fkOk_spec {seen : String → Option (List Column × List Row)} {cols : List Column} {row : Row} (h : fkOk seen cols row = true) (j : Nat) (c : Column) (v : Value) (k : String × String)
    (hc : cols[j]? = some c) (hv : row[j]? = some v) (hk : c.fk = some k) : isNull v = true ∨ Referenced seen k v := by
  induction cols generalizing row j with
  | nil => cases hc
  | cons c0 cols ih =>
    simp only [fkOk] at h
    cases j with
    | zero =>
      cases hc
      rw [hk] at h
      cases row with
      | nil => cases hv
      | cons v0 vs =>
        cases hv
        simp only [Bool.and_eq_true, Bool.or_eq_true] at h
        exact h.1.imp id refers_spec
    | succ j =>
      cases row with
      | nil => cases hv
      | cons v0 vs =>
        cases hfk : c0.fk with
        | none =>
          rw [hfk] at h
          exact ih h j hc hv
        | some k0 =>
          rw [hfk] at h
          simp only [Bool.and_eq_true] at h
          exact ih h.2 j hc hv

/-- An INSERT, however it ends, adds no row whose foreign keys refer to nothing: in a column with a foreign key, which is not also a primary key, there is NULL or a value which
the transaction saw in the referenced column when the row was inserted. -/
theorem C79_foreign_key_partial {d : Disk} {ext : Value → Nat → Option Value} {seen : Seen} {txn : Nat} {cols : List Column} {into : List String} {src : Source} {s s' : Ins}
    {e : End} {l : List (Rid × Slot)} (t : Table s.heap l) (hf : Fresh d) (h : insertStmt d ext seen txn cols into src s = (s', e)) :
    ∃ added, Table s'.heap (l ++ added) ∧ ∀ x ∈ added, ∃ h', ∀ (j : Nat) c k, cols[j]? = some c → c.fk = some k → c.pk = false →
      ∃ v, x.2.row[j]? = some v ∧ (isNull v = true ∨ Referenced (seen h') k v) := by
  obtain ⟨names, added, h1, h2⟩ := insert_adds t hf h
  refine ⟨added, h1, fun x hx => ?_⟩
  obtain ⟨row, h', n, row', n', g2, g3, g4⟩ := h2 x hx
  refine ⟨h', fun j c k hc hk hpk => ?_⟩
  obtain ⟨_, e2⟩ := expand_full (mapRow_length ..) g4
  obtain ⟨hj, _⟩ := List.getElem?_eq_some_iff.1 hc
  have hg := List.getElem?_eq_getElem (l := mapRow ext names cols row) (i := j) (by rw [mapRow_length]; exact hj)
  obtain ⟨v, hv, hkept⟩ := e2 j c _ hc hg
  simp only [Kept, hpk, Bool.false_eq_true, and_false, if_false] at hkept
  exact ⟨v, by rw [g2]; exact hv, by rw [hkept]; exact fkOk_spec g3 j c _ k hc hg hk⟩

/-- An INSERT, however it ends, adds only rows whose values have the types of their columns, where a primary key is of type INTEGER (3). -/
theorem C80_insert_types_partial {d : Disk} {ext : Value → Nat → Option Value} {seen : Seen} {txn : Nat} {cols : List Column} {into : List String} {src : Source} {s s' : Ins}
    {e : End} {l : List (Rid × Slot)} (t : Table s.heap l) (hf : Fresh d) (hx : TypedExt ext) (hpk : ∀ c ∈ cols, c.pk = true → c.ty = 3)
    (h : insertStmt d ext seen txn cols into src s = (s', e)) :
    ∃ added, Table s'.heap (l ++ added) ∧ ∀ x ∈ added, x.2.row.map ty = cols.map (·.ty) := by
  obtain ⟨names, added, h1, h2⟩ := insert_adds t hf h
  refine ⟨added, h1, fun x hx' => ?_⟩
  obtain ⟨row, h', n, row', n', g2, _, g4⟩ := h2 x hx'
  obtain ⟨e1, e2⟩ := expand_full (mapRow_length ..) g4
  rw [g2]
  refine List.ext_getElem (by simp [e1]) fun j hj1 hj2 => ?_
  have hj : j < cols.length := by simpa using hj2
  have hc := List.getElem?_eq_getElem (l := cols) (i := j) hj
  have hg := List.getElem?_eq_getElem (l := mapRow ext names cols row) (i := j) (by rw [mapRow_length]; exact hj)
  obtain ⟨v, hv, hkept⟩ := e2 j _ _ hc hg
  obtain ⟨hjr, hve⟩ := List.getElem?_eq_some_iff.1 hv
  simp only [List.getElem_map, hve]
  simp only [Kept] at hkept
  split at hkept
  · rename_i hcond
    obtain ⟨m, rfl⟩ := hkept
    rw [hpk _ (List.getElem_mem hj) hcond.2]
    rfl
  · rw [hkept]
    exact mapRow_ty hx j _ _ hc hg

/-! ## Failures -/

/-- An INSERT of one row which fails leaves the rows of the table as they were. -/
theorem C81_one_row_partial {d : Disk} {ext : Value → Nat → Option Value} {seen : Seen} {txn : Nat} {cols : List Column} {into : List String} {es : List Expr} {s s' : Ins} {e : End}
    {l : List (Rid × Slot)} (t : Table s.heap l) (hf : Fresh d) (h : insertStmt d ext seen txn cols into (.values [es]) s = (s', e)) (he : e ≠ .done) : Table s'.heap l := by
  simp only [insertStmt] at h
  split at h
  · cases h
    exact t
  · rename_i names rows hsrc
    have hlen : rows.length = 1 := by
      simp only [sourceRows] at hsrc
      split at hsrc
      · cases hsrc
      · split at hsrc
        · rename_i target _ _
          cases hv : valuesRows ext target [es] with
          | error x => rw [hv] at hsrc; cases hsrc
          | ok r =>
            rw [hv] at hsrc
            cases hsrc
            exact (valuesRows_spec hv).1
        · cases hsrc
    obtain ⟨row, rfl⟩ := List.length_eq_one_iff.1 hlen
    simp only [insertRows] at h
    split at h
    · split at h
      · cases h; exact t
      · rename_i row' n' _
        have hins := t.insert hf ⟨⟨txn, false, false⟩, row'⟩
        split at h
        · cases h; exact absurd rfl he
        · rename_i h' hp
          rw [hp] at hins
          cases h
          exact hins
    · cases h; exact t

end Verif.Dml

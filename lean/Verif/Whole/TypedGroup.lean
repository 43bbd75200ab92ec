import Verif.Whole.TypedSelect

/-!
# GROUP BY in the values of SQL
-/

namespace Verif.Whole

open Verif.Wire Verif.Bytes Verif.Sql Verif.Exec Verif.Dml
open Verif.Catalog (Cat Tab Col ColDef FkDef ObjName)
open Verif.Plan (World Item cell valueOf selected matching ItemsKnown namesOf Refers Known keyOf theColumn groupCols sqlAgg Grouped)

/-! ## Equality of values -/

theorem rep_eq {t : Nat} {x y : SV} {v w : Value} (hx : Rep t x v) (hy : Rep t y w) : valueEq v w = true ↔ x = y := by
  refine ⟨(rep_order hx hy).2.2.2, ?_⟩
  rintro rfl
  cases x with
  | null =>
    obtain ⟨s, m, t', fs, rfl⟩ := null_form hx
    obtain ⟨s, m, t', fs, rfl⟩ := null_form hy
    simp [valueEq]
  | int i => obtain ⟨_, rfl⟩ := hx; obtain ⟨_, rfl⟩ := hy; exact valueEq_refl _
  | bool i => obtain ⟨_, rfl⟩ := hx; obtain ⟨_, rfl⟩ := hy; exact valueEq_refl _
  | str i => obtain ⟨_, rfl⟩ := hx; obtain ⟨_, rfl⟩ := hy; exact valueEq_refl _

/-- The values of the columns `gs`, as the code has them. -/
def keyR (gs : List Nat) (row : Row) : Row := gs.filterMap (row[·]?)

theorem reads_key (gs : List Nat) (row : Row) : reads (keyR gs row) = keyT gs (reads row) := by
  unfold reads keyR keyT
  rw [List.map_filterMap]
  refine congrArg (gs.filterMap ·) (funext fun i => ?_)
  rw [List.getElem?_map]

theorem row_at {ts : List Nat} {r : Row} (h : RowOf ts (reads r) r) {i : Nat} (hi : i < ts.length) : ∃ v, r[i]? = some v ∧ (reads r)[i]? = some (sv v) ∧ ∃ t, ts[i]? = some t ∧ Rep t (sv v) v := by
  have hl : i < r.length := by rw [h.2.1]; exact hi
  have h1 := List.getElem?_eq_getElem hl
  have h2 : (reads r)[i]? = some (sv r[i]) := by unfold reads; rw [List.getElem?_map, h1]; rfl
  exact ⟨_, h1, h2, _, List.getElem?_eq_getElem hi, h.2.2 i _ _ _ (List.getElem?_eq_getElem hi) h2 h1⟩

theorem key_len {ts : List Nat} {gs : List Nat} (hlt : ∀ i ∈ gs, i < ts.length) {r : Row} (h : RowOf ts (reads r) r) : (keyR gs r).length = gs.length := by
  induction gs with
  | nil => rfl
  | cons i gs ih =>
    obtain ⟨v, h1, _⟩ := row_at h (hlt i List.mem_cons_self)
    unfold keyR at ih ⊢
    rw [List.filterMap_cons, h1]
    simp [ih fun j hj => hlt j (List.mem_cons_of_mem _ hj)]

theorem key_at {ts : List Nat} {gs : List Nat} (hlt : ∀ i ∈ gs, i < ts.length) {r : Row} (h : RowOf ts (reads r) r) {j i : Nat} (hj : gs[j]? = some i) : (keyR gs r)[j]? = r[i]? := by
  induction gs generalizing j with
  | nil => cases hj
  | cons g gs ih =>
    obtain ⟨v, h1, _⟩ := row_at h (hlt g List.mem_cons_self)
    unfold keyR at ih ⊢
    rw [List.filterMap_cons, h1]
    cases j with
    | zero => cases hj; exact h1.symm
    | succ j => exact ih (fun j hj => hlt j (List.mem_cons_of_mem _ hj)) (by simpa using hj)

theorem keys_eq {ts : List Nat} {gs : List Nat} (hlt : ∀ i ∈ gs, i < ts.length) {r r' : Row} (h : RowOf ts (reads r) r) (h' : RowOf ts (reads r') r') :
    valuesEq (keyR gs r) (keyR gs r') = true ↔ keyT gs (reads r) = keyT gs (reads r') := by
  induction gs with
  | nil => simp [keyR, keyT, valuesEq]
  | cons i gs ih =>
    obtain ⟨v, h1, h2, t, h3, h4⟩ := row_at h (hlt i List.mem_cons_self)
    obtain ⟨v', k1, k2, t', k3, k4⟩ := row_at h' (hlt i List.mem_cons_self)
    cases h3.symm.trans k3
    have ih := ih fun j hj => hlt j (List.mem_cons_of_mem _ hj)
    unfold keyR keyT at ih ⊢
    simp only [List.filterMap_cons, h1, k1, h2, k2, valuesEq, Bool.and_eq_true, List.cons.injEq, ih, rep_eq h4 k4]

theorem firsts_spec {α : Type} [DecidableEq α] {f : Row → α} : ∀ (l before : List Row), (∀ a ∈ before ++ l, ∀ b ∈ before ++ l, valuesEq a b = true ↔ f a = f b) →
    ((firsts before l).map f).Nodup ∧ ∀ y, y ∈ (firsts before l).map f ↔ y ∈ l.map f ∧ y ∉ before.map f
  | [], before, _ => by simp [firsts]
  | r :: rs, before, h => by
    obtain ⟨h1, h2⟩ := firsts_spec rs (before ++ [r]) (by simpa using h)
    have hany : before.any (valuesEq · r) = true ↔ f r ∈ before.map f := by
      rw [List.any_eq_true, List.mem_map]
      exact exists_congr fun b => and_congr_right fun hb => h b (List.mem_append_left _ hb) r (List.mem_append_right _ List.mem_cons_self)
    unfold firsts
    by_cases hb : before.any (valuesEq · r) = true
    · rw [if_pos hb]
      have hm := hany.1 hb
      refine ⟨h1, fun y => ?_⟩
      rw [h2]
      simp only [List.map_append, List.mem_append, List.map_cons, List.map_nil, List.mem_cons, List.not_mem_nil, or_false]
      constructor
      · rintro ⟨g1, g2⟩; exact ⟨.inr g1, fun g => g2 (.inl g)⟩
      · rintro ⟨rfl | g1, g2⟩
        · exact absurd hm g2
        · refine ⟨g1, ?_⟩
          rintro (g | rfl)
          · exact g2 g
          · exact g2 hm
    · rw [if_neg hb]
      have hm : f r ∉ before.map f := fun g => hb (hany.2 g)
      refine ⟨?_, fun y => ?_⟩
      · rw [List.map_cons, List.nodup_cons]
        refine ⟨fun g => ?_, h1⟩
        have := ((h2 (f r)).1 g).2
        simp at this
      · rw [List.map_cons, List.mem_cons, h2]
        simp only [List.map_append, List.mem_append, List.map_cons, List.map_nil, List.mem_cons, List.not_mem_nil, or_false]
        constructor
        · rintro (rfl | ⟨g1, g2⟩)
          · exact ⟨.inl rfl, hm⟩
          · exact ⟨.inr g1, fun g => g2 (.inl g)⟩
        · rintro ⟨g1, g2⟩
          by_cases hy : y = f r
          · exact .inl hy
          · rcases g1 with g1 | g1
            · exact .inl g1
            · refine .inr ⟨g1, ?_⟩
              rintro (g | g)
              · exact g2 g
              · exact hy g

/-! ## Planning -/

section
variable {cols : List Col}

theorem cols_ok {gs : List Nat} {ns : List Plan.Name} (h : PR.list (planCol cols) gs = .ok ns) : ns = gs.map (nameAt cols) ∧ ∀ i ∈ gs, i < cols.length := by
  induction gs generalizing ns with
  | nil => cases h; exact ⟨rfl, nofun⟩
  | cons k gs ih =>
    obtain ⟨y, h1, h⟩ := bind_ok h
    obtain ⟨zs, h2, h⟩ := bind_ok h
    cases h
    obtain ⟨g1, g2⟩ := ih h2
    unfold planCol at h1
    split at h1
    · next hlt =>
      cases h1
      refine ⟨by rw [g1]; rfl, fun x hx => ?_⟩
      rcases List.mem_cons.1 hx with rfl | hx
      · exact hlt
      · exact g2 x hx
    · cases h1

theorem aggs_ok {fs : List TAgg} {as : List (Plan.Fn × Plan.Name)} (h : PR.list (planAgg cols) fs = .ok as) :
    as = fs.map (fun a => (a.fn, nameAt cols a.arg)) ∧ ∀ a ∈ fs, a.arg < cols.length := by
  induction fs generalizing as with
  | nil => cases h; exact ⟨rfl, nofun⟩
  | cons k gs ih =>
    obtain ⟨y, h1, h⟩ := bind_ok h
    obtain ⟨zs, h2, h⟩ := bind_ok h
    cases h
    obtain ⟨g1, g2⟩ := ih h2
    obtain ⟨n, h1', h⟩ := bind_ok (show (planCol cols k.arg).bind (fun n => PR.ok (k.fn, n)) = _ from h1)
    cases h
    clear h1
    have h1 := h1'
    unfold planCol at h1
    split at h1
    · next hlt =>
      cases h1
      refine ⟨by rw [g1]; rfl, fun x hx => ?_⟩
      rcases List.mem_cons.1 hx with rfl | hx
      · exact hlt
      · exact g2 x hx
    · cases h1

/-- The columns of the table an ORDER BY stands for. -/
def orderOn (gs : List Nat) (order : List (Nat × Dir)) : List (Nat × Dir) := order.map fun k => ((gs[k.1]?).getD 0, k.2)

theorem gkeys_ok {gs : List Nat} {order : List (Nat × Dir)} {ks : List (Plan.NExpr × Dir)} (h : PR.list (planGroupKey cols gs) order = .ok ks) :
    ks = (orderOn gs order).map (keyOn cols) ∧ ∀ k ∈ order, k.1 < gs.length := by
  induction order generalizing ks with
  | nil => cases h; exact ⟨rfl, nofun⟩
  | cons k order ih =>
    obtain ⟨y, h1, h⟩ := bind_ok h
    obtain ⟨zs, h2, h⟩ := bind_ok h
    cases h
    obtain ⟨g1, g2⟩ := ih h2
    unfold planGroupKey at h1
    split at h1
    · next i hi =>
      unfold planKey at h1
      split at h1
      · cases h1
        refine ⟨?_, fun x hx => ?_⟩
        · rw [g1]
          unfold orderOn
          rw [List.map_cons, List.map_cons, hi]
          rfl
        · rcases List.mem_cons.1 hx with rfl | hx
          · exact (List.getElem?_eq_some_iff.1 hi).1
          · exact g2 x hx
      · cases h1
    · cases h1

theorem inOrder_key {gs : List Nat} {ts : List Nat} (hlt : ∀ i ∈ gs, i < ts.length) {order : List (Nat × Dir)} (ho : ∀ k ∈ order, k.1 < gs.length) {a0 b0 : Row} (ha : RowOf ts (reads a0) a0)
    (hb : RowOf ts (reads b0) b0) {va vb : Row} (h : InOrder (orderOn gs order) (reads a0) (reads b0)) : InOrder order (reads (keyR gs a0 ++ va)) (reads (keyR gs b0 ++ vb)) := by
  have get : ∀ {r : Row} (v : Row), RowOf ts (reads r) r → ∀ {j : Nat}, j < gs.length → (reads (keyR gs r ++ v))[j]? = (reads r)[(gs[j]?).getD 0]? := by
    intro r v hr j hj
    have hg := List.getElem?_eq_getElem hj
    unfold reads
    rw [List.getElem?_map, List.getElem?_append_left (by rw [key_len hlt hr]; exact hj), key_at hlt hr hg, List.getElem?_map, hg, Option.getD_some]
  induction order with
  | nil => trivial
  | cons k order ih =>
    obtain ⟨x, y, h1, h2, h3⟩ := h
    have hk := ho k List.mem_cons_self
    refine ⟨x, y, by rw [get va ha hk]; exact h1, by rw [get vb hb hk]; exact h2, ?_⟩
    rcases h3 with h3 | h3 | ⟨h3, h4⟩
    · exact .inl h3
    · exact .inr (.inl h3)
    · exact .inr (.inr ⟨h3, ih (fun k hk => ho k (List.mem_cons_of_mem _ hk)) h4⟩)

end

/-! ## Names -/

theorem noAgg_plain {n : Catalog.Name} (h : NoAgg n) (f : Plan.Fn) : str n ≠ f.name ∧ Plan.startsWithFn f (str n) = false := by
  have hf : ¬f.name.toList <+: n := h _ (by cases f <;> decide)
  refine ⟨fun he => hf ?_, ?_⟩
  · rw [← he]
    unfold str
    simp
  · unfold Plan.startsWithFn
    rw [Bool.or_eq_false_iff]
    have key : ∀ x : String, (str n).startsWith (f.name ++ x) = false := by
      intro x
      rw [Bool.eq_false_iff]
      intro hs
      have hs := String.startsWith_string_iff.1 hs
      refine hf (List.IsPrefix.trans ?_ (l₂ := (f.name ++ x).toList) (by unfold str at hs; simpa using hs))
      simp
    exact ⟨key "(", key "_"⟩

section
variable {cols : List Col} (hnd : (cols.map Col.name).Nodup) {sc : Plan.Schema} (hcol : sc.map Plan.Name.col = cols.map fun c => str c.name)

include hnd in
theorem name_inj {i j : Nat} (hi : i < cols.length) (hj : j < cols.length) (h : (nameAt cols i).col = (nameAt cols j).col) : i = j := by
  rw [nameAt_some (List.getElem?_eq_getElem hi), nameAt_some (List.getElem?_eq_getElem hj)] at h
  have he := str_inj h
  exact (List.getElem_inj (h₀ := by simpa using hi) (h₁ := by simpa using hj) hnd (i := i) (j := j)).1 (by simpa using he)

include hnd hcol in
theorem scope_at {i : Nat} (hi : i < cols.length) : matching sc (nameAt cols i) = [i] := by
  rw [nameAt_some (List.getElem?_eq_getElem hi)]
  exact matching_at hnd hcol (List.getElem?_eq_getElem hi)

include hnd hcol in
theorem column_at {i : Nat} (hi : i < cols.length) : theColumn sc (nameAt cols i) = i := by
  unfold theColumn
  rw [scope_at hnd hcol hi]
  rfl

include hnd hcol in
theorem keyOf_eq {gs : List Nat} (hlt : ∀ i ∈ gs, i < cols.length) (r : Row) : keyOf sc (gs.map (nameAt cols)) r = keyR gs r := by
  unfold keyOf keyR
  rw [List.filterMap_map]
  induction gs with
  | nil => rfl
  | cons i gs ih =>
    have : (cell sc r ∘ nameAt cols) i = r[i]? := by
      show cell _ _ _ = _
      unfold cell
      rw [scope_at hnd hcol (hlt i List.mem_cons_self)]
    rw [List.filterMap_cons, List.filterMap_cons, this, ih fun j hj => hlt j (List.mem_cons_of_mem _ hj)]

include hnd in
theorem group_at {gs : List Nat} (hlt : ∀ i ∈ gs, i < cols.length) (hgs : gs.Nodup) (hno : ∀ i ∈ gs, ∀ c, cols[i]? = some c → NoAgg c.name) (fs : List (Plan.Fn × Plan.Name)) {j i : Nat}
    (hj : gs[j]? = some i) : matching (groupCols (gs.map (nameAt cols)) fs) (nameAt cols i) = [j] := by
  have hi := List.mem_of_getElem? hj
  have hjl := (List.getElem?_eq_some_iff.1 hj).1
  refine Plan.refers_unique (d := nameAt cols i) ?_ ⟨rfl, .inl rfl⟩ fun k e hk he => ?_
  · unfold groupCols
    rw [List.getElem?_append_left (by simpa using hjl), List.getElem?_map, hj]
    rfl
  · unfold groupCols at hk
    by_cases hlk : k < (gs.map (nameAt cols)).length
    · rw [List.getElem?_append_left hlk, List.getElem?_map] at hk
      obtain ⟨i', hi', rfl⟩ := Option.map_eq_some_iff.1 hk
      have := name_inj hnd (hlt _ (List.mem_of_getElem? hi')) (hlt _ hi) he
      subst this
      exact (List.getElem?_inj (List.getElem?_eq_some_iff.1 hi').1 hgs).1 (hi'.trans hj.symm)
    · rw [List.getElem?_append_right (Nat.le_of_not_lt hlk), List.getElem?_map] at hk
      obtain ⟨a, _, rfl⟩ := Option.map_eq_some_iff.1 hk
      have h1 := Plan.out_col a.1 a.2
      have hc := List.getElem?_eq_getElem (hlt i hi)
      rw [he, nameAt_some hc, (noAgg_plain (hno i hi _ hc) a.1).2] at h1
      cases h1

include hnd hcol in
theorem grouped_of {gs : List Nat} (hlt : ∀ i ∈ gs, i < cols.length) (hgs : gs.Nodup) (hno : ∀ i ∈ gs, ∀ c, cols[i]? = some c → NoAgg c.name) {fs : List TAgg}
    (hfs : ∀ a ∈ fs, a.arg < cols.length) (hfn : (fs.map fun a => a.fn.name).Nodup) {q : Plan.Select}
    (hq : q.items = (gs.map (nameAt cols)).map (fun n => Item.expr (.column n) none) ++ (fs.map fun a => (a.fn, nameAt cols a.arg)).map fun a => Item.expr (.agg a.1 a.2) none)
    (hg : gs ≠ [] ∨ fs ≠ []) (hgb : q.groupBy = gs.map (nameAt cols)) (hh : q.having = none) (hdd : q.distinct = false) :
    Grouped sc q (gs.map (nameAt cols)) (fs.map fun a => (a.fn, nameAt cols a.arg)) := by
  refine ⟨hq, hgb, by simpa using hg, ?_, fun n hn => ?_, fun a ha => ?_, by rw [List.map_map]; exact hfn, fun n hn f => ?_, hh, hdd⟩
  · rw [List.map_map]
    unfold List.Nodup
    rw [List.pairwise_map]
    exact List.Pairwise.imp_of_mem (fun {a b} ha hb hab he => hab (name_inj hnd (hlt a ha) (hlt b hb) he)) hgs
  · obtain ⟨i, hi, rfl⟩ := List.mem_map.1 hn
    exact ⟨i, scope_at hnd hcol (hlt i hi)⟩
  · obtain ⟨b, hb, rfl⟩ := List.mem_map.1 ha
    exact ⟨_, scope_at hnd hcol (hfs b hb)⟩
  · obtain ⟨i, hi, rfl⟩ := List.mem_map.1 hn
    have hc := List.getElem?_eq_getElem (hlt i hi)
    rw [nameAt_some hc]
    exact noAgg_plain (hno i hi _ hc) f

end

/-! ## Aggregates -/

section
variable (ts : List Nat)

/-- The type of a column. -/
def colTyp : Expr → Nat
  | .col _ i => (ts[i]?).getD 0
  | _ => 0

/-- The integer in a column. -/
def colNum : Expr → Row → Option Int
  | .col _ i, r => ((reads r)[i]?).bind intOf
  | _, _ => none

variable {ts}

theorem ints_col (i : Nat) (rows : List Row) : ints colNum (.col 0 i) rows = intsAt i (rows.map reads) := by
  unfold ints intsAt
  rw [List.filterMap_map]
  rfl

theorem eval_col {r : Row} {i : Nat} {v : Value} (h : r[i]? = some v) : eval false (rowEnv r) (.col 0 i) = .ok v := by
  simp [eval, rowEnv, h]

theorem means_col {r : Row} (h : RowOf ts (reads r) r) {i t : Nat} (hi : ts[i]? = some t) (ht : 1 ≤ t ∧ t ≤ 4) : Exec.Means (colTyp ts) colNum (.col 0 i) r := by
  obtain ⟨v, h1, h2, t', h3, h4⟩ := row_at h (List.getElem?_eq_some_iff.1 hi).1
  cases hi.symm.trans h3
  refine ⟨v, eval_col h1, ?_⟩
  unfold colNum colTyp
  dsimp only
  rw [h2, hi]
  generalize sv v = x at h4
  cases x with
  | null => exact h4
  | int z => exact h4.2
  | bool b => have := h4.1; omega
  | str b => have := h4.1; omega

theorem present_col {r : Row} (h : RowOf ts (reads r) r) {i : Nat} (hi : i < ts.length) : present (.col 0 i) r = ((reads r)[i]? != some .null) := by
  obtain ⟨v, h1, h2, t, _, h4⟩ := row_at h hi
  unfold present
  rw [eval_col h1, h2]
  dsimp only
  rw [rep_null h4]
  by_cases hv : sv v = .null <;> simp [hv]

theorem sv_intVal {t : Nat} (ht : 1 ≤ t ∧ t ≤ 4) (i : Int) : sv (intVal t i) = .int i := by
  have : t = 1 ∨ t = 2 ∨ t = 3 ∨ t = 4 := by omega
  rcases this with rfl | rfl | rfl | rfl <;> rfl

theorem sv_null {v : Value} (h : isNull v = true) : sv v = .null := by
  obtain ⟨s, m, t, fs, rfl⟩ := null_form h
  rfl

theorem fine_agg {rows : List Row} (hr : RowsIn ts rows) {a : TAgg} (ha : a.arg < ts.length) (hty : a.Typed ts) (h : AggFits ts (rows.map reads) a) :
    Exec.Fine (colTyp ts) colNum (sqlAgg a.fn (.col 0 a.arg)) rows := by
  have ht := List.getElem?_eq_getElem ha
  have hc : colTyp ts (.col 0 a.arg) = ts[a.arg] := by unfold colTyp; dsimp only; rw [ht]; rfl
  cases a with
  | countStar =>
    show rows.length < 2 ^ 63
    simpa [AggFits] using h
  | count i =>
    have h : _ ∧ _ := h
    refine ⟨by simpa using h.1, fun r hm => ?_⟩
    rw [show present (.col 0 (TAgg.count i).arg) r = ((reads r)[i]? != some .null) from present_col (hr r hm) ha]
    simpa using h.2 _ (List.mem_map_of_mem hm)
  | sum i =>
    have hb := hty _ ht
    refine ⟨by rw [hc]; exact hb, fun r hm => means_col (hr r hm) ht hb, fun p hp => ?_⟩
    rw [hc]
    rw [ints_col] at hp
    exact h _ ht p hp
  | min i =>
    have hb := hty _ ht
    exact ⟨by rw [hc]; exact hb, fun r hm => means_col (hr r hm) ht hb⟩
  | max i =>
    have hb := hty _ ht
    exact ⟨by rw [hc]; exact hb, fun r hm => means_col (hr r hm) ht hb⟩

theorem agg_of {rows : List Row} (hr : RowsIn ts rows) {a : TAgg} (ha : a.arg < ts.length) (hty : a.Typed ts) {v : Value} (h : Meets (colTyp ts) colNum (sqlAgg a.fn (.col 0 a.arg)) rows v) :
    AggOf (rows.map reads) (sv v) a := by
  have ht := List.getElem?_eq_getElem ha
  have hc : colTyp ts (.col 0 a.arg) = ts[a.arg] := by unfold colTyp; dsimp only; rw [ht]; rfl
  cases a with
  | countStar =>
    have h : v = _ := h
    subst h
    unfold AggOf
    dsimp only
    rw [List.length_map]
    rfl
  | count i =>
    have h : v = _ := h
    subst h
    unfold AggOf
    dsimp only
    rw [List.countP_map]
    show SV.int _ = _
    congr 2
    refine List.countP_congr fun r hm => ?_
    rw [show present (.col 0 (TAgg.count i).arg) r = ((reads r)[i]? != some .null) from present_col (hr r hm) ha]
    rfl
  | sum i =>
    unfold Meets sqlAgg TAgg.fn at h
    dsimp only at h
    rw [ints_col, hc] at h
    unfold AggOf
    dsimp only
    by_cases h0 : intsAt (TAgg.sum i).arg (rows.map reads) = []
    · rw [if_pos h0] at h; rw [if_pos (show intsAt i (rows.map reads) = [] from h0)]; exact sv_null h
    · rw [if_neg h0] at h; rw [if_neg (show ¬intsAt i (rows.map reads) = [] from h0)]; rw [h]; exact sv_intVal (hty _ ht) _
  | min i =>
    unfold Meets sqlAgg TAgg.fn at h
    dsimp only at h
    rw [ints_col, hc] at h
    unfold AggOf
    dsimp only
    by_cases h0 : intsAt (TAgg.min i).arg (rows.map reads) = []
    · rw [if_pos h0] at h; rw [if_pos (show intsAt i (rows.map reads) = [] from h0)]; exact sv_null h
    · rw [if_neg h0] at h; rw [if_neg (show ¬intsAt i (rows.map reads) = [] from h0)]
      obtain ⟨m, h1, rfl, h2⟩ := h
      exact ⟨m, h1, sv_intVal (hty _ ht) _, h2⟩
  | max i =>
    unfold Meets sqlAgg TAgg.fn at h
    dsimp only at h
    rw [ints_col, hc] at h
    unfold AggOf
    dsimp only
    by_cases h0 : intsAt (TAgg.max i).arg (rows.map reads) = []
    · rw [if_pos h0] at h; rw [if_pos (show intsAt i (rows.map reads) = [] from h0)]; exact sv_null h
    · rw [if_neg h0] at h; rw [if_neg (show ¬intsAt i (rows.map reads) = [] from h0)]
      obtain ⟨m, h1, rfl, h2⟩ := h
      exact ⟨m, h1, sv_intVal (hty _ ht) _, h2⟩

theorem group_rows {gs : List Nat} (hlt : ∀ i ∈ gs, i < ts.length) {rows : List Row} (hr : RowsIn ts rows) {r : Row} (h : r ∈ rows) :
    (rowsOf (keyR gs) rows (keyR gs r)).map reads = groupAt gs (rows.map reads) (keyT gs (reads r)) := by
  unfold rowsOf groupAt
  rw [List.filter_map]
  congr 1
  refine List.filter_congr fun x hx => ?_
  rw [Bool.eq_iff_iff, keys_eq hlt (hr r h) (hr x hx)]
  simp only [Function.comp, decide_eq_true_eq]
  exact eq_comm

end

/-! ## The answer -/

theorem fits_nil {ts : List Nat} {a : TAgg} (hty : a.Typed ts) : AggFits ts [] a := by
  cases a with
  | countStar => exact (by decide : 0 < 2 ^ 63)
  | count i => exact ⟨by decide, nofun⟩
  | sum i =>
    intro t ht p hp
    cases List.prefix_nil.1 hp
    have := hty t ht
    have : t = 1 ∨ t = 2 ∨ t = 3 ∨ t = 4 := by omega
    rcases this with rfl | rfl | rfl | rfl <;> decide
  | min i => trivial
  | max i => trivial

theorem group_any {ts gs : List Nat} (hlt : ∀ i ∈ gs, i < ts.length) {rows : List Row} (hr : RowsIn ts rows) (k : Row) :
    rowsOf (keyR gs) rows k = [] ∨ ∃ k', (rowsOf (keyR gs) rows k).map reads = groupAt gs (rows.map reads) k' := by
  by_cases h : rowsOf (keyR gs) rows k = []
  · exact .inl h
  · obtain ⟨r, hm⟩ := List.exists_mem_of_ne_nil _ h
    obtain ⟨h1, h2⟩ := List.mem_filter.1 hm
    refine .inr ⟨keyT gs (reads r), ?_⟩
    rw [← group_rows hlt hr h1]
    congr 1
    unfold rowsOf
    refine List.filter_congr fun x _ => ?_
    rw [Bool.eq_iff_iff, valuesEq_iff, valuesEq_iff, (valuesEq_iff _ _).1 h2]

theorem page_reads {limit offset : Option Nat} (L : List Row) {is : List Item} {w : Option Plan.NExpr} {ns : List Plan.Name} {ks : List (Plan.NExpr × Dir)} :
    (Plan.Select.page ⟨is, w, ns, none, false, ks, limit, offset⟩ L).map reads = pageOf limit offset (L.map reads) := by
  unfold Plan.Select.page pageOf
  cases limit <;> cases offset <;> simp [List.map_take, List.map_drop]

theorem names_plain {cols : List Col} {gs : List Nat} {fs : List TAgg} : ∀ n ∈ namesOf ((gs.map (nameAt cols)).map (fun n => Item.expr (.column n) none) ++
    (fs.map fun a => (a.fn, nameAt cols a.arg)).map fun a => Item.expr (.agg a.1 a.2) none), n.tbl = none := by
  induction gs with
  | nil =>
    induction fs with
    | nil => nofun
    | cons a fs ih =>
      intro n hn
      rcases List.mem_cons.1 hn with rfl | hn
      · rfl
      · exact ih n hn
  | cons i gs ih =>
    intro n hn
    rcases List.mem_cons.1 hn with rfl | hn
    · rfl
    · exact ih n hn

theorem says_group {cols : List Col} (hnd : (cols.map Col.name).Nodup) {ch : Choices} {f : Plan.From} {sc : Plan.Schema} (hcol : sc.map Plan.Name.col = cols.map fun c => str c.name) (hsc : f.scope = sc) {rows : Nat → List Row} (hfine : f.Fine (ch.world rows)) {gs : List Nat} {fs : List TAgg}
    {p : Option Ast} {order : List (Nat × Dir)} {limit offset : Option Nat} {q : Plan.Select} {r : Reply} (hq : planGroup cols gs fs p order limit offset = .ok q)
    (hsays : Says (ch.world rows) f q r) (hrows : RowsIn (typesOf cols) (f.rows (ch.world rows))) (hg : gs ≠ [] ∨ fs ≠ []) (hgs : gs.Nodup)
    (hfn : (fs.map fun a => a.fn.name).Nodup) (hwp : WellTyped (typesOf cols) p) (hty : ∀ a ∈ fs, a.Typed (typesOf cols)) (hno : ∀ i ∈ gs, ∀ c, cols[i]? = some c → NoAgg c.name)
    (hs : ∀ row ∈ f.rows (ch.world rows), ∀ a, p = some a → Calm (typesOf cols) (reads row) a)
    (hfit : ∀ a ∈ fs, ∀ k, AggFits (typesOf cols) (groupAt gs (((f.rows (ch.world rows)).map reads).filter fun row => holds (typesOf cols) p row) k) a)
    (hsum : gs = [] → (((f.rows (ch.world rows)).map reads).filter fun row => holds (typesOf cols) p row) = [] → ∀ a ∈ fs, ∀ i, a ≠ .sum i) :
    ∃ out l, r = .rows out ∧ GroupsOf gs fs (((f.rows (ch.world rows)).map reads).filter fun row => holds (typesOf cols) p row) l ∧ l.Pairwise (InOrder order) ∧ out.map reads = pageOf limit offset l := by
  obtain ⟨pe, hpe, hq⟩ := bind_ok hq
  obtain ⟨ns, hns, hq⟩ := bind_ok hq
  obtain ⟨as, has, hq⟩ := bind_ok hq
  obtain ⟨ks, hks, hq⟩ := bind_ok hq
  cases hq
  obtain ⟨rfl, hlt⟩ := cols_ok hns
  obtain ⟨rfl, hfs⟩ := aggs_ok has
  obtain ⟨rfl, hol⟩ := gkeys_ok hks
  have htl : (typesOf cols).length = cols.length := by simp [typesOf]
  have hlt' : ∀ i ∈ gs, i < (typesOf cols).length := fun i hi => htl ▸ hlt i hi
  let keep : Row → Bool := fun row => holds (typesOf cols) p (reads row)
  have hkept : RowsIn (typesOf cols) ((f.rows (ch.world rows)).filter keep) := fun r hr => hrows r (List.mem_filter.1 hr).1
  have hfm : ((f.rows (ch.world rows)).map reads).filter (fun row => holds (typesOf cols) p row) = ((f.rows (ch.world rows)).filter keep).map reads := List.filter_map
  rw [hfm] at hfit hsum ⊢
  have hkey : keyOf sc (gs.map (nameAt cols)) = keyR gs := funext fun r => keyOf_eq hnd hcol hlt r
  have hordlt : ∀ k ∈ orderOn gs order, k.1 < cols.length ∧ ∃ j : Nat, gs[j]? = some k.1 := by
    intro k hk
    obtain ⟨k0, h0, rfl⟩ := List.mem_map.1 hk
    have hj := List.getElem?_eq_getElem (hol k0 h0)
    dsimp only
    rw [hj, Option.getD_some]
    exact ⟨hlt _ (List.mem_of_getElem? hj), _, hj⟩
  have hcell : ∀ {a0 : Row}, RowOf (typesOf cols) (reads a0) a0 → ∀ vals : Row, ∀ k ∈ orderOn gs order,
      cell (groupCols (gs.map (nameAt cols)) (fs.map fun a => (a.fn, nameAt cols a.arg))) (keyR gs a0 ++ vals) (nameAt cols k.1) = a0[k.1]? := by
    intro a0 ha vals k hk
    obtain ⟨_, j, hj⟩ := hordlt k hk
    unfold cell
    rw [group_at hnd hlt hgs hno _ hj]
    dsimp only
    rw [List.getElem?_append_left (by rw [key_len hlt' ha]; exact (List.getElem?_eq_some_iff.1 hj).1), key_at hlt' ha hj]
  have B : ByGroups (ch.world rows) f
      ⟨(gs.map (nameAt cols)).map (fun n => Item.expr (.column n) none) ++ (fs.map fun a => (a.fn, nameAt cols a.arg)).map (fun a => Item.expr (.agg a.1 a.2) none), pe.map (named cols),
        gs.map (nameAt cols), none, false, (orderOn gs order).map (keyOn cols), limit, offset⟩ (gs.map (nameAt cols)) (fs.map fun a => (a.fn, nameAt cols a.arg))
      (colTyp (typesOf cols)) colNum keep := by
    refine ⟨hfine, ?_, ?_, ?_, ?_, ?_, ?_, ?_⟩
    · rw [hsc]
      exact grouped_of hnd hcol hlt hgs hno hfs hfn rfl hg rfl rfl rfl
    · intro n hn
      refine .inl ?_
      exact names_plain n hn
    · rw [hsc]
      rcases planWhere_ok hpe with ⟨rfl, rfl⟩ | ⟨a, e, t, rfl, rfl, hpa⟩
      · exact fun _ _ => rfl
      · refine ⟨fun n hn => ?_, known_named hnd hcol e, fun row hr => ?_⟩
        · obtain ⟨c, _, rfl⟩ := List.mem_map.1 hn
          exact .inl rfl
        have hl : row.length = cols.length := by rw [(hrows row hr).2.1]; simp [typesOf]
        obtain ⟨w1, w2⟩ := hwp a rfl
        unfold Plan.Settled Plan.HasTruth Plan.IsTrue
        show _ ∧ (holds (typesOf cols) (some a) (reads row) = true ↔ _)
        rw [valueOf_named hnd hcol hl, holds_some]
        by_cases hsafe : Safe (typesOf cols) (reads row) a
        · obtain ⟨g1, x, v, g2, g3⟩ := where_ok (hrows row hr) w1 w2 hpa hsafe
          refine ⟨.inl ⟨v, x, g2, g3⟩, ?_⟩
          rw [and_iff_right hsafe, ← g1]
          rfl
        · have he := (C124_errors_partial (hrows row hr) w1 w2 hpa (hs row hr a rfl)).2 hsafe
          refine ⟨.inr he, fun h => absurd h.1 hsafe, fun ⟨v, h, _⟩ => ?_⟩
          rw [he] at h
          cases h
    · intro a ha k
      obtain ⟨b, hb, rfl⟩ := List.mem_map.1 ha
      rw [hsc, hkey, column_at hnd hcol (hfs b hb)]
      refine fine_agg (fun r hr => hkept r (List.mem_filter.1 hr).1) (htl ▸ hfs b hb) (hty b hb) ?_
      show AggFits _ ((rowsOf (keyR gs) ((f.rows (ch.world rows)).filter keep) k).map reads) b
      rcases group_any hlt' hkept k with h | ⟨k', h⟩
      · rw [h]; exact fits_nil (hty b hb)
      · rw [h]; exact hfit b hb k'
    · intro h0 hk a ha he
      obtain ⟨b, hb, rfl⟩ := List.mem_map.1 ha
      have := hsum (List.map_eq_nil_iff.1 h0) (by rw [show (f.rows (ch.world rows)).filter keep = [] from hk]; rfl) b hb
      cases b with
      | sum i => exact this i rfl
      | _ => cases he
    · intro k hk
      obtain ⟨k0, h0, rfl⟩ := List.mem_map.1 hk
      intro n hn
      cases List.mem_singleton.1 hn
      obtain ⟨_, j, hj⟩ := hordlt k0 h0
      exact ⟨j, group_at hnd hlt hgs hno _ hj⟩
    · intro k hk vals _ _
      rw [hsc] at hk
      rcases Plan.mem_keysOf hk with ⟨h0, rfl⟩ | ⟨a0, ha0, he⟩
      · have h0 : gs = [] := List.map_eq_nil_iff.1 h0
        subst h0
        have : order = [] := List.eq_nil_iff_forall_not_mem.2 fun k hk => absurd (hol k hk) (Nat.not_lt_zero _)
        subst this
        exact nofun
      rw [hkey] at he
      subst he
      exact keys_have (hkept a0 ha0) (fun k hk => (hordlt k hk).1) (hcell (hkept a0 ha0) vals)
  obtain ⟨out, hr, l, res, hperm, hres, hord, hout⟩ := hsays.groups _ _ _ _ _ B
  rw [hsc] at hperm hres
  rw [hkey] at hres
  generalize hK : (f.rows (ch.world rows)).filter keep = kept at *
  by_cases hg0 : gs = []
  · subst hg0
    have ho0 : order = [] := List.eq_nil_iff_forall_not_mem.2 fun k hk => absurd (hol k hk) (Nat.not_lt_zero _)
    subst ho0
    have hl : l = [res []] := List.perm_singleton.1 hperm
    subst hl
    obtain ⟨e1, e2⟩ := hres [] (List.mem_singleton_self _)
    rw [List.length_map] at e1
    have hall : rowsOf (keyR []) kept [] = kept := List.filter_eq_self.2 fun _ _ => rfl
    have hall' : groupAt [] (kept.map reads) [] = kept.map reads := List.filter_eq_self.2 fun _ _ => rfl
    refine ⟨out, [reads (res [])], hr, ⟨List.pairwise_singleton .., fun k => ?_, fun g hg' => ?_⟩, List.pairwise_singleton .., ?_⟩
    · show k ∈ [[]] ↔ _
      rw [List.mem_singleton]
      refine ⟨fun h => .inr ⟨rfl, h⟩, ?_⟩
      rintro (h | ⟨_, h⟩)
      · obtain ⟨_, _, rfl⟩ := List.mem_map.1 h
        rfl
      · exact h
    · cases List.mem_singleton.1 hg'
      refine ⟨by unfold reads; rw [List.length_map, e1, List.length_nil, Nat.zero_add], fun i a ha => ?_⟩
      have hi : i < (res []).length := by rw [e1]; exact (List.getElem?_eq_some_iff.1 ha).1
      have hm := List.mem_of_getElem? ha
      have := e2 i (a.fn, nameAt cols a.arg) _ (by rw [List.getElem?_map, ha]; rfl) (List.getElem?_eq_getElem hi)
      dsimp only at this
      rw [column_at hnd hcol (hfs a hm), hall] at this
      refine ⟨sv (res [])[i], ?_, ?_⟩
      · unfold reads
        rw [List.length_nil, Nat.zero_add, List.getElem?_map, List.getElem?_eq_getElem hi]
        rfl
      · show AggOf (groupAt [] (kept.map reads) []) _ _
        rw [hall']
        exact agg_of hkept (htl ▸ hfs a hm) (hty a hm) this
    · rw [hout]
      exact page_reads _
  have hks : Plan.keysOf sc (gs.map (nameAt cols)) kept = firsts [] (kept.map (keyR gs)) := by
    unfold Plan.keysOf
    rw [if_neg (by simpa using hg0), hkey]
  rw [hks] at hperm hres
  have hkm : ∀ k ∈ firsts [] (kept.map (keyR gs)), ∃ a0 ∈ kept, keyR gs a0 = k := fun k hk => List.mem_map.1 ((C42_firsts (kept.map (keyR gs))).1.subset hk)
  have hlm : ∀ g ∈ l, ∃ a0 ∈ kept, keyR gs a0 ∈ firsts [] (kept.map (keyR gs)) ∧ g = keyR gs a0 ++ res (keyR gs a0) := by
    intro g hg'
    obtain ⟨k, hk, rfl⟩ := List.mem_map.1 (hperm.mem_iff.1 hg')
    obtain ⟨a0, h1, rfl⟩ := hkm k hk
    exact ⟨a0, h1, hk, rfl⟩
  have htake : ∀ a0 ∈ kept, ∀ v, (reads (keyR gs a0 ++ v)).take gs.length = keyT gs (reads a0) := by
    intro a0 h0 v
    rw [← reads_key]
    unfold reads
    rw [List.map_append, List.take_append_of_le_length (by rw [List.length_map, key_len hlt' (hkept a0 h0)]; exact Nat.le_refl _),
      List.take_of_length_le (by rw [List.length_map, key_len hlt' (hkept a0 h0)]; exact Nat.le_refl _)]
  have hfirst := firsts_spec (f := reads) (kept.map (keyR gs)) [] (fun a ha b hb => by
    obtain ⟨a0, h1, rfl⟩ := List.mem_map.1 ha
    obtain ⟨b0, h2, rfl⟩ := List.mem_map.1 hb
    rw [reads_key, reads_key]
    exact keys_eq hlt' (hkept a0 h1) (hkept b0 h2))
  have hkeys : ((l.map reads).map (·.take gs.length)).Perm ((firsts [] (kept.map (keyR gs))).map reads) := by
    rw [List.map_map]
    refine (hperm.map _).trans (.of_eq ?_)
    rw [List.map_map]
    refine List.map_congr_left fun k hk => ?_
    obtain ⟨a0, h1, rfl⟩ := hkm k hk
    show (reads (keyR gs a0 ++ _)).take gs.length = _
    rw [htake a0 h1, reads_key]
  refine ⟨out, l.map reads, hr, ⟨?_, fun k => ?_, fun g hg' => ?_⟩, ?_, ?_⟩
  · exact hkeys.nodup_iff.2 hfirst.1
  · rw [hkeys.mem_iff, hfirst.2, List.map_map, List.map_map]
    simp only [List.map_nil, List.not_mem_nil, not_false_eq_true, and_true]
    rw [show reads ∘ keyR gs = keyT gs ∘ reads from funext fun r => reads_key gs r]
    exact (or_iff_left fun h => hg0 h.1).symm
  · obtain ⟨g0, hg0, rfl⟩ := List.mem_map.1 hg'
    obtain ⟨a0, h1, h2, rfl⟩ := hlm g0 hg0
    obtain ⟨e1, e2⟩ := hres _ h2
    rw [List.length_map] at e1
    rw [htake a0 h1]
    refine ⟨?_, fun i a ha => ?_⟩
    · unfold reads
      rw [List.length_map, List.length_append, key_len hlt' (hkept a0 h1), e1]
    · have hi : i < (res (keyR gs a0)).length := by rw [e1]; exact (List.getElem?_eq_some_iff.1 ha).1
      have hm := List.mem_of_getElem? ha
      have := e2 i (a.fn, nameAt cols a.arg) _ (by rw [List.getElem?_map, ha]; rfl) (List.getElem?_eq_getElem hi)
      dsimp only at this
      rw [column_at hnd hcol (hfs a hm)] at this
      refine ⟨sv (res (keyR gs a0))[i], ?_, ?_⟩
      · unfold reads
        rw [List.getElem?_map, List.getElem?_append_right (by rw [key_len hlt' (hkept a0 h1)]; exact Nat.le_add_right _ _), key_len hlt' (hkept a0 h1), Nat.add_sub_cancel_left,
          List.getElem?_eq_getElem hi]
        rfl
      · rw [← group_rows hlt' hkept h1]
        exact agg_of (fun r hr => hkept r (List.mem_filter.1 hr).1) (htl ▸ hfs a hm) (hty a hm) this
  · rw [List.pairwise_map]
    refine List.Pairwise.imp_of_mem (fun {a b} ha hb h => ?_) hord
    obtain ⟨a0, h1, _, rfl⟩ := hlm a ha
    obtain ⟨b0, h2, _, rfl⟩ := hlm b hb
    exact inOrder_key hlt' hol (hkept a0 h1) (hkept b0 h2) (in_order (hkept a0 h1) (hkept b0 h2) (fun k hk => (hordlt k hk).1) (hcell (hkept a0 h1) _) (hcell (hkept b0 h2) _) h)
  · rw [hout]
    exact page_reads l

end Verif.Whole

import Verif.Whole.TypedOrder

/-!
# SELECT in the values of SQL
-/

namespace Verif.Whole

open Verif.Wire Verif.Bytes Verif.Sql Verif.Exec Verif.Dml
open Verif.Catalog (Cat Tab Col ColDef FkDef ObjName)
open Verif.Plan (World Item cell valueOf selected matching ItemsKnown namesOf Refers Known)

section
variable {cols : List Col} (hnd : (cols.map Col.name).Nodup) {sc : Plan.Schema} (hcol : sc.map Plan.Name.col = cols.map fun c => str c.name)

include hnd hcol in
theorem matching_at {i : Nat} {c : Col} (h : cols[i]? = some c) : matching sc ⟨none, str c.name⟩ = [i] := by
  have hat : ∀ j, (sc[j]?).map Plan.Name.col = (cols[j]?).map fun c : Col => str c.name := fun j => by
    rw [← List.getElem?_map, hcol, List.getElem?_map]
  have hi := hat i
  rw [h] at hi
  obtain ⟨d, hd, hdc⟩ := Option.map_eq_some_iff.1 hi
  refine Plan.refers_unique (d := d) hd ⟨hdc.symm, .inl rfl⟩ fun j e hj he => ?_
  have hj' := hat j
  rw [hj] at hj'
  obtain ⟨c', hc', hce⟩ := Option.map_eq_some_iff.1 hj'.symm
  have he := str_inj (hce.trans he)
  obtain ⟨h1, h2⟩ := List.getElem?_eq_some_iff.1 h
  obtain ⟨g1, g2⟩ := List.getElem?_eq_some_iff.1 hc'
  exact (List.getElem_inj (h₀ := by simpa using g1) (h₁ := by simpa using h1) hnd (i := j) (j := i)).1 (by simpa [h2, g2] using he)

include hnd hcol in
theorem cell_at {i : Nat} {c : Col} (h : cols[i]? = some c) (r : Row) : cell sc r ⟨none, str c.name⟩ = r[i]? := by
  unfold cell
  rw [matching_at hnd hcol h]

theorem mapM_all {α β : Type} {f : α → Option β} {l : List α} {ys : List β} (hl : ys.length = l.length) (h : ∀ (i : Nat) x, l[i]? = some x → f x = ys[i]?) : l.mapM f = some ys := by
  induction l generalizing ys with
  | nil => cases ys with
    | nil => rfl
    | cons _ _ => cases hl
  | cons a as ih => cases ys with
    | nil => cases hl
    | cons y ys =>
      have h0 := h 0 a rfl
      have := ih (ys := ys) (by simpa using hl) fun i x hx => by
        have := h (i + 1) x (by simpa using hx)
        simpa using this
      rw [List.mapM_cons, h0, this]
      rfl

include hnd hcol in
theorem valueOf_named {r : Row} (hl : r.length = cols.length) (e : Expr) : valueOf sc r (named cols e) = eval false (rowEnv r) e := by
  unfold valueOf named
  dsimp only
  rw [mapM_all (ys := r) (by simpa using hl) fun i x hx => ?_]
  rw [List.getElem?_map] at hx
  obtain ⟨c, hc, rfl⟩ := Option.map_eq_some_iff.1 hx
  exact cell_at hnd hcol hc r

include hnd hcol in
theorem known_named (e : Expr) : Known sc (named cols e) := by
  intro n hn
  obtain ⟨c, hc, rfl⟩ := List.mem_map.1 hn
  obtain ⟨i, hi⟩ := List.mem_iff_getElem?.1 hc
  exact ⟨i, matching_at hnd hcol hi⟩

theorem planItem_ok {x : Ast × String} {it : Item} (h : planItem cols x = .ok it) :
    (∃ i c, x.1 = .col i ∧ cols[i]? = some c ∧ it = .expr (.column ⟨none, str c.name⟩) none) ∨ ∃ e t, parse (typesOf cols) x.1 = .ok (e, t) ∧ it = .expr (.scalar (named cols e) x.2) none := by
  obtain ⟨y, h1, h2⟩ := bind_ok h
  cases h2
  split
  · next i hi =>
    rw [hi] at h1
    simp only [parse] at h1
    split at h1
    · next t ht =>
      obtain ⟨c, hc, _⟩ := col_at ht
      exact .inl ⟨i, c, hi, hc, by unfold nameAt; rw [hc]; rfl⟩
    · cases h1
  · exact .inr ⟨y.1, y.2, h1, rfl⟩

include hnd hcol in
theorem items_known {items : List (Ast × String)} {is : List Item} (h : PR.list (planItem cols) items = .ok is) :
    ItemsKnown sc is ∧ ∀ n ∈ namesOf is, n.tbl = none := by
  induction items generalizing is with
  | nil => cases h; exact ⟨trivial, nofun⟩
  | cons x xs ih =>
    obtain ⟨y, h1, h⟩ := bind_ok h
    obtain ⟨zs, h2, h⟩ := bind_ok h
    cases h
    obtain ⟨k1, k2⟩ := ih h2
    rcases planItem_ok h1 with ⟨i, c, _, hc, rfl⟩ | ⟨e, t, _, rfl⟩
    · refine ⟨⟨⟨i, matching_at hnd hcol hc⟩, k1⟩, fun n hn => ?_⟩
      rcases List.mem_cons.1 hn with rfl | hn
      · rfl
      · exact k2 n hn
    · refine ⟨⟨known_named hnd hcol e, k1⟩, fun n hn => ?_⟩
      rcases List.mem_append.1 hn with hn | hn
      · obtain ⟨c, _, rfl⟩ := List.mem_map.1 hn
        rfl
      · exact k2 n hn

include hnd hcol in
theorem items_value {items : List (Ast × String)} {is : List Item} (h : PR.list (planItem cols) items = .ok is) {r : Row} (hr : RowOf (typesOf cols) (reads r) r)
    (hw : ∀ x ∈ items, (∃ f, WT (typesOf cols) x.1 f) ∧ LitItems x.1) (hs : ∀ x ∈ items, Safe (typesOf cols) (reads r) x.1) :
    ∃ ys, selected sc r is = some ys ∧ (reads ys).map some = items.map fun x => den (reads r) x.1 := by
  have hl : r.length = cols.length := by rw [hr.2.1]; simp [typesOf]
  induction items generalizing is with
  | nil => cases h; exact ⟨[], rfl, rfl⟩
  | cons x xs ih =>
    obtain ⟨y, h1, h⟩ := bind_ok h
    obtain ⟨zs, h2, h⟩ := bind_ok h
    cases h
    obtain ⟨ys, k1, k2⟩ := ih h2 (fun z hz => hw z (List.mem_cons_of_mem _ hz)) (fun z hz => hs z (List.mem_cons_of_mem _ hz))
    rcases planItem_ok h1 with ⟨i, c, hx, hc, rfl⟩ | ⟨e, t, hp, rfl⟩
    · obtain ⟨v, hv⟩ := at_lt hl (lt_of_at hc)
      refine ⟨v :: ys, ?_, ?_⟩
      · simp only [selected, cell_at hnd hcol hc, hv, k1]
        rfl
      · rw [List.map_cons, hx]
        simp only [den]
        unfold reads at k2 ⊢
        rw [List.map_cons, List.map_cons, k2, List.getElem?_map, hv]
        rfl
    · obtain ⟨⟨f, w1⟩, w2⟩ := hw x List.mem_cons_self
      obtain ⟨v, hv⟩ := (C124_evaluates_partial hr w1 w2 hp).2 (hs x List.mem_cons_self)
      obtain ⟨s, d1, d2⟩ := C124_value_partial hr w1 w2 hp hv
      refine ⟨v :: ys, ?_, ?_⟩
      · simp only [selected, valueOf_named hnd hcol hl, hv, k1]
        rfl
      · rw [List.map_cons, d1]
        unfold reads at k2 ⊢
        rw [List.map_cons, List.map_cons, k2, rep_sv d2]

/-! ### ORDER BY -/

/-- A column of ORDER BY as it is planned. -/
def keyOn (cols : List Col) (k : Nat × Dir) : Plan.NExpr × Dir := (⟨[nameAt cols k.1], .col 0 0⟩, k.2)

theorem keys_ok {order : List (Nat × Dir)} {ks : List (Plan.NExpr × Dir)} (h : PR.list (planKey cols) order = .ok ks) :
    ks = order.map (keyOn cols) ∧ ∀ k ∈ order, k.1 < cols.length := by
  induction order generalizing ks with
  | nil => cases h; exact ⟨rfl, nofun⟩
  | cons k order ih =>
    obtain ⟨y, h1, h⟩ := bind_ok h
    obtain ⟨zs, h2, h⟩ := bind_ok h
    cases h
    obtain ⟨g1, g2⟩ := ih h2
    unfold planKey at h1
    split at h1
    · next hlt =>
      cases h1
      refine ⟨by rw [g1]; rfl, fun x hx => ?_⟩
      rcases List.mem_cons.1 hx with rfl | hx
      · exact hlt
      · exact g2 x hx
    · cases h1

theorem nameAt_some {i : Nat} {c : Col} (h : cols[i]? = some c) : nameAt cols i = ⟨none, str c.name⟩ := by
  unfold nameAt
  rw [h]
  rfl

theorem valueOf_key {s : Plan.Schema} {row : Row} {n : Plan.Name} {v : Value} (h : cell s row n = some v) : valueOf s row ⟨[n], .col 0 0⟩ = .ok v := by
  unfold valueOf
  simp [h, eval, rowEnv]

/-- The keys of ORDER BY on the rows `a` and `b` are columns of the rows `a0` and `b0` of the table. -/
theorem in_order {s : Plan.Schema} {a b a0 b0 : Row} (ha : RowOf (typesOf cols) (reads a0) a0) (hb : RowOf (typesOf cols) (reads b0) b0) {order : List (Nat × Dir)}
    (hlt : ∀ k ∈ order, k.1 < cols.length) (hca : ∀ k ∈ order, cell s a (nameAt cols k.1) = a0[k.1]?) (hcb : ∀ k ∈ order, cell s b (nameAt cols k.1) = b0[k.1]?)
    (h : Plan.Before s (order.map (keyOn cols)) a b) : InOrder order (reads a0) (reads b0) := by
  induction order with
  | nil => trivial
  | cons k order ih =>
    have hk := hlt k List.mem_cons_self
    have la : k.1 < a0.length := by rw [ha.2.1]; simpa [typesOf] using hk
    have lb : k.1 < b0.length := by rw [hb.2.1]; simpa [typesOf] using hk
    have ea := (hca k List.mem_cons_self).trans (List.getElem?_eq_getElem la)
    have eb := (hcb k List.mem_cons_self).trans (List.getElem?_eq_getElem lb)
    obtain ⟨x, y, hx, hy, hcase⟩ := h
    have hx := (valueOf_key ea).symm.trans hx
    have hy := (valueOf_key eb).symm.trans hy
    cases hx
    cases hy
    have ra : (reads a0)[k.1]? = some (sv a0[k.1]) := by unfold reads; rw [List.getElem?_map, List.getElem?_eq_getElem la]; rfl
    have rb : (reads b0)[k.1]? = some (sv b0[k.1]) := by unfold reads; rw [List.getElem?_map, List.getElem?_eq_getElem lb]; rfl
    have ht : (typesOf cols)[k.1]? = some cols[k.1].ty := by unfold typesOf; rw [List.getElem?_map, List.getElem?_eq_getElem hk]; rfl
    have pa := ha.2.2 k.1 _ _ _ ht ra (List.getElem?_eq_getElem la)
    have pb := hb.2.2 k.1 _ _ _ ht rb (List.getElem?_eq_getElem lb)
    obtain ⟨_, o1, o2, o3⟩ := rep_order pa pb
    refine ⟨_, _, ra, rb, ?_⟩
    rcases hcase with ⟨h1, h2⟩ | ⟨h1, h2⟩ | ⟨h1, h2⟩
    · exact .inl ⟨h1, o1 h2⟩
    · exact .inr (.inl ⟨h1, o2 h2⟩)
    · exact .inr (.inr ⟨o3 h1, ih (fun k hk => hlt k (List.mem_cons_of_mem _ hk)) (fun k hk => hca k (List.mem_cons_of_mem _ hk)) (fun k hk => hcb k (List.mem_cons_of_mem _ hk)) h2⟩)

theorem keys_have {s : Plan.Schema} {a a0 : Row} (ha : RowOf (typesOf cols) (reads a0) a0) {order : List (Nat × Dir)}
    (hlt : ∀ k ∈ order, k.1 < cols.length) (hca : ∀ k ∈ order, cell s a (nameAt cols k.1) = a0[k.1]?) : Plan.KeysHave s (order.map (keyOn cols)) a := by
  intro x hx
  obtain ⟨k, hk, rfl⟩ := List.mem_map.1 hx
  have la : k.1 < a0.length := by rw [ha.2.1]; simpa [typesOf] using hlt k hk
  have ea := (hca k hk).trans (List.getElem?_eq_getElem la)
  have ra : (reads a0)[k.1]? = some (sv a0[k.1]) := by unfold reads; rw [List.getElem?_map, List.getElem?_eq_getElem la]; rfl
  have lk := hlt k hk
  have ht : (typesOf cols)[k.1]? = some cols[k.1].ty := by unfold typesOf; rw [List.getElem?_map, List.getElem?_eq_getElem lk]; rfl
  have pa := ha.2.2 k.1 _ _ _ ht ra (List.getElem?_eq_getElem la)
  exact ⟨_, valueOf_key ea, (rep_order pa pa).1⟩

/-- The name of an item in the answer. -/
def outNm (cols : List Col) (x : Ast × String) : Plan.Name := match x.1 with
  | .col i => nameAt cols i
  | _ => ⟨none, x.2⟩

theorem planItem_name {x : Ast × String} {it : Item} (h : planItem cols x = .ok it) : ∃ e, it = .expr e none ∧
    (∀ s rest, Plan.outCols s (it :: rest) = outNm cols x :: Plan.outCols s rest) ∧ (∀ i, x.1 = .col i → i < cols.length ∧ e = .column (nameAt cols i)) := by
  obtain ⟨y, h1, h2⟩ := bind_ok h
  cases h2
  refine ⟨_, rfl, fun s rest => ?_, fun i hi => ?_⟩
  · obtain ⟨a, tx⟩ := x
    cases a <;> rfl
  · rw [hi] at h1
    simp only [parse] at h1
    split at h1
    · next t ht =>
      obtain ⟨c, hc, _⟩ := col_at ht
      refine ⟨lt_of_at hc, ?_⟩
      rw [hi]
    · cases h1

theorem outCols_eq {items : List (Ast × String)} {is : List Item} (h : PR.list (planItem cols) items = .ok is) (s : Plan.Schema) :
    Plan.outCols s is = items.map (outNm cols) := by
  induction items generalizing is with
  | nil => cases h; rfl
  | cons x xs ih =>
    obtain ⟨y, h1, h⟩ := bind_ok h
    obtain ⟨zs, h2, h⟩ := bind_ok h
    cases h
    obtain ⟨e, _, g, _⟩ := planItem_name h1
    rw [g, ih h2]
    rfl

theorem item_lt {items : List (Ast × String)} {is : List Item} (h : PR.list (planItem cols) items = .ok is) {x : Ast × String} (hx : x ∈ items) {i : Nat} (hi : x.1 = .col i) :
    i < cols.length := by
  obtain ⟨y, hy⟩ := list_some.1 ⟨is, h⟩ x hx
  obtain ⟨_, _, _, g⟩ := planItem_name hy
  exact (g i hi).1

theorem selected_at {items : List (Ast × String)} {is : List Item} (h : PR.list (planItem cols) items = .ok is) {s : Plan.Schema} {r ys : Row} (hs : selected s r is = some ys)
    {j i : Nat} {tx : String} (hj : items[j]? = some (.col i, tx)) : ys[j]? = cell s r (nameAt cols i) := by
  induction items generalizing is ys j with
  | nil => cases hj
  | cons x xs ih =>
    obtain ⟨y, h1, h⟩ := bind_ok h
    obtain ⟨zs, h2, h⟩ := bind_ok h
    cases h
    obtain ⟨e, rfl, _, g⟩ := planItem_name h1
    cases j with
    | zero =>
      cases hj
      obtain ⟨_, rfl⟩ := g i rfl
      simp only [selected] at hs
      cases hc : cell s r (nameAt cols i) with
      | none => rw [hc] at hs; cases hs
      | some v =>
        rw [hc] at hs
        cases hz : selected s r zs with
        | none => rw [hz] at hs; cases hs
        | some w => rw [hz] at hs; cases hs; rfl
    | succ j =>
      have hj : xs[j]? = some (.col i, tx) := by simpa using hj
      have : ∃ v w, ys = v :: w ∧ selected s r zs = some w := by
        cases e with
        | column n =>
          simp only [selected] at hs
          cases hc : cell s r n with
          | none => rw [hc] at hs; cases hs
          | some v =>
            rw [hc] at hs
            cases hz : selected s r zs with
            | none => rw [hz] at hs; cases hs
            | some w => rw [hz] at hs; cases hs; exact ⟨_, _, rfl, rfl⟩
        | scalar e' t' =>
          simp only [selected] at hs
          split at hs
          · obtain ⟨w, hw, rfl⟩ := Option.map_eq_some_iff.1 hs
            exact ⟨_, _, rfl, hw⟩
          · cases hs
        | agg _ _ => cases hs
      obtain ⟨v, w, rfl, hw⟩ := this
      rw [List.getElem?_cons_succ]
      exact ih h2 hw hj

/-- The name of a column of ORDER BY in the answer. -/
theorem matching_out (hnd : (cols.map Col.name).Nodup) {items : List (Ast × String)} {is : List Item} (h : PR.list (planItem cols) items = .ok is) {i : Nat}
    (hi : i < cols.length) (one : OneItem (cols.map fun c => (c.name, c.ty)) items i) (s : Plan.Schema) :
    (∃ j tx, items[j]? = some (.col i, tx) ∧ matching (Plan.outCols s is) (nameAt cols i) = [j]) ∨ matching (Plan.outCols s is) (nameAt cols i) = [] := by
  have hc := List.getElem?_eq_getElem hi
  have key : ∀ (j : Nat) e, (Plan.outCols s is)[j]? = some e → e.col = (nameAt cols i).col → ∃ tx, items[j]? = some (.col i, tx) := by
    intro j e hj he
    rw [outCols_eq h, List.getElem?_map] at hj
    obtain ⟨x, hx, rfl⟩ := Option.map_eq_some_iff.1 hj
    have hm := List.mem_of_getElem? hx
    obtain ⟨a, tx⟩ := x
    unfold outNm at he
    rw [nameAt_some hc] at he
    by_cases hcol : ∃ k, a = .col k
    · obtain ⟨k, rfl⟩ := hcol
      have hk := item_lt h hm rfl
      have hck := List.getElem?_eq_getElem hk
      dsimp only at he
      rw [nameAt_some hck] at he
      have he := str_inj he
      have : k = i := (List.getElem_inj (h₀ := by simpa using hk) (h₁ := by simpa using hi) hnd (i := k) (j := i)).1 (by simpa using he)
      subst this
      exact ⟨tx, hx⟩
    · refine absurd ?_ (one.2 (cols[i].name, cols[i].ty) (by rw [List.getElem?_map, hc]; rfl) _ hm fun k hk => hcol ⟨k, hk⟩)
      cases a <;> first | exact absurd ⟨_, rfl⟩ hcol | exact he
  by_cases hex : ∃ (j : Nat) (tx : String), items[j]? = some (Ast.col i, tx)
  · obtain ⟨j, tx, hj⟩ := hex
    refine .inl ⟨j, tx, hj, Plan.refers_unique (d := nameAt cols i) (by rw [outCols_eq h, List.getElem?_map, hj]; rfl) ⟨rfl, .inl rfl⟩ fun j' e hj' he => ?_⟩
    obtain ⟨tx', h'⟩ := key j' e hj' he
    exact one.1 _ _ _ _ h' hj
  · refine .inr ?_
    unfold matching
    rw [List.filter_eq_nil_iff]
    intro j hj hany
    rw [List.getElem?_eq_getElem (List.mem_range.1 hj), Option.any_some, decide_eq_true_eq] at hany
    obtain ⟨tx, h'⟩ := key j _ (List.getElem?_eq_getElem (List.mem_range.1 hj)) hany.1.symm
    exact hex ⟨j, tx, h'⟩

/-- A rearrangement of images is the image of a rearrangement. -/
theorem perm_map_inv {α β : Type} (f : α → β) {l : List β} {k : List α} (h : l.Perm (k.map f)) : ∃ k' : List α, k'.Perm k ∧ l = k'.map f := by
  generalize hm : k.map f = m at h
  induction h generalizing k with
  | nil => exact ⟨k, .refl _, hm.symm⟩
  | cons x _ ih =>
    cases k with
    | nil => cases hm
    | cons a k =>
      cases hm
      obtain ⟨k', h1, rfl⟩ := ih rfl
      exact ⟨a :: k', h1.cons a, rfl⟩
  | swap x y l =>
    match k, hm with
    | a :: b :: k, hm =>
      cases hm
      exact ⟨b :: a :: k, .swap a b k, rfl⟩
  | trans _ _ ih1 ih2 =>
    obtain ⟨k2, h2, rfl⟩ := ih2 hm
    obtain ⟨k1, h1, rfl⟩ := ih1 rfl
    exact ⟨k1, h1.trans h2, rfl⟩

end

/-- A list that is a function of the rows. -/
theorem map_page {α β : Type} (f : α → β) (limit offset : Option Nat) (l : List α) :
    (match limit with | some n => (match offset with | some n => (l.map f).drop n | none => l.map f).take n | none => match offset with | some n => (l.map f).drop n | none => l.map f) =
    (match limit with | some n => (match offset with | some n => l.drop n | none => l).take n | none => match offset with | some n => l.drop n | none => l).map f := by
  cases limit <;> cases offset <;> simp [List.map_take, List.map_drop]

theorem says_select {cols : List Col} (hnd : (cols.map Col.name).Nodup) (hne : cols ≠ []) {ch : Choices} {f : Plan.From} {sc : Plan.Schema} (hcol : sc.map Plan.Name.col = cols.map fun c => str c.name) (hsc : f.scope = sc) {rows : Nat → List Row} (hfine : f.Fine (ch.world rows)) {items : List (Ast × String)}
    {p : Option Ast} {order : List (Nat × Dir)} {limit offset : Option Nat} {q : Plan.Select} {r : Reply} (hq : planSel cols items p order limit offset = .ok q)
    (hsays : Says (ch.world rows) f q r) (hrows : RowsIn (typesOf cols) (f.rows (ch.world rows))) (hi : items ≠ [])
    (hwp : WellTyped (typesOf cols) p) (hw : ∀ x ∈ items, (∃ f, WT (typesOf cols) x.1 f) ∧ LitItems x.1) (hone : ∀ k ∈ order, OneItem (cols.map fun c => (c.name, c.ty)) items k.1)
    (hs : ∀ row ∈ f.rows (ch.world rows), (∀ a, p = some a → Calm (typesOf cols) (reads row) a) ∧ (holds (typesOf cols) p (reads row) = true → ∀ x ∈ items, Safe (typesOf cols) (reads row) x.1)) :
    ∃ out l, r = .rows out ∧ l.Perm (((f.rows (ch.world rows)).map reads).filter fun row => holds (typesOf cols) p row) ∧ l.Pairwise (InOrder order) ∧
      (order = [] → l = ((f.rows (ch.world rows)).map reads).filter fun row => holds (typesOf cols) p row) ∧
      (out.map reads).map (·.map some) = (pageOf limit offset l).map fun row => items.map fun x => den row x.1 := by
  obtain ⟨pe, hpe, hq⟩ := bind_ok hq
  obtain ⟨is, his, hq⟩ := bind_ok hq
  obtain ⟨ks, hks, hq⟩ := bind_ok hq
  cases hq
  obtain ⟨rfl, hlt⟩ := keys_ok hks
  have hisne : is ≠ [] := by
    rintro rfl
    have := (list_ok his).1
    exact hi (List.length_eq_zero_iff.1 this.symm)
  have hval := fun row hr hh => items_value hnd hcol his (hrows row hr) hw ((hs row hr).2 hh)
  have hk := items_known hnd hcol his
  let sel : Row → Row := fun row => (selected sc row is).getD []
  let keep : Row → Bool := fun row => holds (typesOf cols) p (reads row)
  have hsel : ∀ row ∈ f.rows (ch.world rows), keep row = true → selected sc row is = some (sel row) := fun row hr hh => by
    obtain ⟨ys, h1, _⟩ := hval row hr hh
    show _ = some ((selected sc row is).getD [])
    rw [h1]
    rfl
  have hplain : Plan.Plain (Plan.From.rows (ch.world rows) f) f.scope
      ⟨is, pe.map (named cols), [], none, false, order.map (keyOn cols), limit, offset⟩ keep sel := by
    refine ⟨?_, hisne, ?_, rfl, rfl, ?_, ?_, ?_, nofun⟩
    · rw [hsc]; exact hk.1
    · rw [hsc]; rintro rfl; exact hne (List.length_eq_zero_iff.1 (by simpa using (congrArg List.length hcol).symm))
    · intro row hr
      rw [(hrows row hr).2.1, hsc]
      have := congrArg List.length hcol
      simp [typesOf] at this ⊢
      omega
    · rw [hsc]
      rcases planWhere_ok hpe with ⟨rfl, rfl⟩ | ⟨a, e, t, rfl, rfl, hpa⟩
      · exact fun _ _ => rfl
      · refine ⟨known_named hnd hcol e, fun row hr => ?_⟩
        have hl : row.length = cols.length := by rw [(hrows row hr).2.1]; simp [typesOf]
        obtain ⟨w1, w2⟩ := hwp a rfl
        unfold Plan.Settled Plan.HasTruth Plan.IsTrue
        show _ ∧ (holds (typesOf cols) (some a) (reads row) = true ↔ _)
        rw [valueOf_named hnd hcol hl, holds_some]
        by_cases hsafe : Safe (typesOf cols) (reads row) a
        · obtain ⟨g1, x, v, g2, g3⟩ := where_ok (hrows row hr) w1 w2 hpa hsafe
          refine ⟨.inl ⟨v, x, g2, g3⟩, ?_⟩
          rw [and_iff_right hsafe, ← g1]
          rfl
        · have he := (C124_errors_partial (hrows row hr) w1 w2 hpa ((hs row hr).1 a rfl)).2 hsafe
          refine ⟨.inr he, fun h => absurd h.1 hsafe, fun ⟨v, h, _⟩ => ?_⟩
          rw [he] at h
          cases h
    · intro row hr hh
      rw [hsc]
      exact hsel row hr hh
  have hfilter : ∀ e, pe.map (named cols) = some e → ∀ n ∈ e.cols, Plan.Clear f.schema n := by
    intro e he n hn
    obtain ⟨e', _, rfl⟩ := Option.map_eq_some_iff.1 he
    obtain ⟨c, _, rfl⟩ := List.mem_map.1 hn
    exact .inl rfl
  have hitems : ∀ n ∈ namesOf is, Plan.Clear f.schema n := fun n hn => .inl (hk.2 n hn)
  have hclear : ∀ s, ∀ k ∈ order.map (keyOn cols), ∀ n ∈ k.1.cols, Plan.Clear s n := by
    intro s k hk' n hn
    obtain ⟨k, _, rfl⟩ := List.mem_map.1 hk'
    cases List.mem_singleton.1 hn
    exact .inl rfl
  -- the answer, from an order of the rows of the table
  have finish : ∀ l0 : List Row, l0.Perm ((f.rows (ch.world rows)).filter keep) → l0.Pairwise (fun a b => InOrder order (reads a) (reads b)) → (order = [] → l0 = (f.rows (ch.world rows)).filter keep) →
      ∀ out, r = .rows out → out = Plan.Select.page ⟨is, pe.map (named cols), [], none, false, order.map (keyOn cols), limit, offset⟩ (l0.map sel) →
      ∃ out l, r = .rows out ∧ l.Perm (((f.rows (ch.world rows)).map reads).filter fun row => holds (typesOf cols) p row) ∧ l.Pairwise (InOrder order) ∧
        (order = [] → l = ((f.rows (ch.world rows)).map reads).filter fun row => holds (typesOf cols) p row) ∧
        (out.map reads).map (·.map some) = (pageOf limit offset l).map fun row => items.map fun x => den row x.1 := by
    intro l0 hp ho hn out hr hout
    refine ⟨out, l0.map reads, hr, ?_, List.pairwise_map.2 ho, fun h => ?_, ?_⟩
    · rw [List.filter_map]; exact hp.map reads
    · rw [List.filter_map, hn h]; rfl
    · have hout : out = ((match (generalizing := false) limit with
          | some n => (match (generalizing := false) offset with | some n => ((l0.map sel).drop n) | none => l0.map sel).take n
          | none => match (generalizing := false) offset with | some n => (l0.map sel).drop n | none => l0.map sel)) := hout
      rw [hout, map_page sel, List.map_map, List.map_map]
      have hpage : ∀ L : List Row, pageOf limit offset (L.map reads) = (match limit with
          | some n => (match offset with | some n => L.drop n | none => L).take n
          | none => match offset with | some n => L.drop n | none => L).map reads := by
        intro L
        unfold pageOf
        cases limit <;> cases offset <;> simp [List.map_take, List.map_drop]
      rw [hpage, List.map_map]
      refine List.map_congr_left fun row hr => ?_
      have hmem : row ∈ l0 := by
        revert hr
        cases limit <;> cases offset <;> intro hr
        · exact hr
        · exact List.mem_of_mem_drop hr
        · exact List.mem_of_mem_take hr
        · exact List.mem_of_mem_drop (List.mem_of_mem_take hr)
      have hmem := hp.mem_iff.1 hmem
      obtain ⟨ys, h1, h2⟩ := hval row (List.mem_filter.1 hmem).1 (List.mem_filter.1 hmem).2
      show (reads ((selected sc row is).getD [])).map some = _
      rw [h1]
      exact h2
  by_cases hall : ∀ k ∈ order, matching (Plan.outCols sc is) (nameAt cols k.1) ≠ []
  · -- all columns of ORDER BY are in the answer
    have hat : ∀ k ∈ order, ∃ j tx, items[j]? = some (.col k.1, tx) ∧ matching (Plan.outCols sc is) (nameAt cols k.1) = [j] := by
      intro k hk'
      rcases matching_out hnd his (hlt k hk') (hone k hk') sc with h | h
      · exact h
      · exact absurd h (hall k hk')
    have hcell : ∀ row ∈ f.rows (ch.world rows), keep row = true → ∀ k ∈ order, cell (Plan.outCols sc is) (sel row) (nameAt cols k.1) = row[k.1]? := by
      intro row hr hh k hk'
      obtain ⟨j, tx, h1, h2⟩ := hat k hk'
      unfold cell
      rw [h2]
      dsimp only
      rw [selected_at his (hsel row hr hh) h1, nameAt_some (List.getElem?_eq_getElem (hlt k hk')), cell_at hnd hcol (List.getElem?_eq_getElem (hlt k hk'))]
    have B : ByOutput (ch.world rows) f ⟨is, pe.map (named cols), [], none, false, order.map (keyOn cols), limit, offset⟩ keep sel := by
      refine ⟨hfine, hplain, hfilter, hitems, fun k hk' => ⟨fun n hn => ?_, hclear _ k hk'⟩, fun row hr hh => ?_⟩
      · rw [hsc]
        obtain ⟨k, hko, rfl⟩ := List.mem_map.1 hk'
        cases List.mem_singleton.1 hn
        obtain ⟨j, _, _, h⟩ := hat k hko
        exact ⟨j, h⟩
      · rw [hsc]
        exact keys_have (hrows row hr) hlt (hcell row hr hh)
    obtain ⟨out, hr, l, hp, ho, hn, hout⟩ := hsays.output _ _ B
    have honce : ∀ l, Plan.Select.once ⟨is, pe.map (named cols), [], none, false, order.map (keyOn cols), limit, offset⟩ l = l := fun _ => rfl
    rw [honce] at hp hn
    have conv : ∀ l0 : List Row, l0.Perm ((f.rows (ch.world rows)).filter keep) → (l0.map sel).Pairwise (Plan.Before (Plan.outCols sc is) (order.map (keyOn cols))) →
        l0.Pairwise (fun a b => InOrder order (reads a) (reads b)) := by
      intro l0 h0 h1
      refine List.Pairwise.imp_of_mem (fun {a b} ha hb h => ?_) (List.pairwise_map.1 h1)
      have ha := List.mem_filter.1 (h0.mem_iff.1 ha)
      have hb := List.mem_filter.1 (h0.mem_iff.1 hb)
      exact in_order (hrows a ha.1) (hrows b hb.1) hlt (hcell a ha.1 ha.2) (hcell b hb.1 hb.2) h
    rw [hsc] at ho
    by_cases he : order = []
    · have hl := hn (by rw [he]; rfl)
      subst hl
      exact finish _ (.refl _) (conv _ (.refl _) ho) (fun _ => rfl) out hr hout
    · obtain ⟨l0, h1, rfl⟩ := perm_map_inv sel hp
      exact finish l0 h1 (conv l0 h1 ho) (fun h => absurd h he) out hr hout
  · -- some is not: the rows are ordered before the items are computed
    have hcell : ∀ row : Row, ∀ k ∈ order, cell sc row (nameAt cols k.1) = row[k.1]? := by
      intro row k hk'
      rw [nameAt_some (List.getElem?_eq_getElem (hlt k hk')), cell_at hnd hcol (List.getElem?_eq_getElem (hlt k hk'))]
    have hex : ∃ k ∈ order, matching (Plan.outCols sc is) (nameAt cols k.1) = [] := by
      refine Classical.byContradiction fun h => hall fun k hk' h' => h ⟨k, hk', h'⟩
    have B : ByInput (ch.world rows) f ⟨is, pe.map (named cols), [], none, false, order.map (keyOn cols), limit, offset⟩ keep sel := by
      refine ⟨hfine, hplain, hfilter, hitems, ?_, fun k hk' => ⟨fun n hn => ?_, hclear _ k hk'⟩, fun row hr hh => ?_⟩
      · obtain ⟨k, hk', h⟩ := hex
        refine ⟨keyOn cols k, List.mem_map_of_mem hk', _, List.mem_singleton.2 rfl, ?_⟩
        rw [outCols_eq his] at h
        rw [outCols_eq his, outCols_eq his]
        exact ⟨h, h⟩
      · rw [hsc]
        obtain ⟨k, hko, rfl⟩ := List.mem_map.1 hk'
        cases List.mem_singleton.1 hn
        exact ⟨k.1, by rw [nameAt_some (List.getElem?_eq_getElem (hlt k hko))]; exact matching_at hnd hcol (List.getElem?_eq_getElem (hlt k hko))⟩
      · rw [hsc]
        exact keys_have (hrows row hr) hlt (hcell row)
    obtain ⟨out, hr, l, hp, ho, hout⟩ := hsays.input _ _ B
    rw [hsc] at ho
    refine finish l hp ?_ (fun h => ?_) out hr hout
    · refine List.Pairwise.imp_of_mem (fun {a b} ha hb h => ?_) ho
      have ha := List.mem_filter.1 (hp.mem_iff.1 ha)
      have hb := List.mem_filter.1 (hp.mem_iff.1 hb)
      exact in_order (hrows a ha.1) (hrows b hb.1) hlt (hcell a) (hcell b) h
    · subst h
      obtain ⟨k, hk', _⟩ := hex
      cases hk'

end Verif.Whole

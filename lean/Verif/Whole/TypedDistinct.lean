import Verif.Whole.TypedSelect

/-!
# SELECT DISTINCT in the values of SQL
-/

namespace Verif.Whole

open Verif.Wire Verif.Bytes Verif.Sql Verif.Exec Verif.Dml
open Verif.Catalog (Cat Tab Col ColDef FkDef ObjName)
open Verif.Plan (World Item cell valueOf selected matching ItemsKnown namesOf Refers Known)

/-- The kind of a value of the type, if it is not NULL. -/
def kindOf (t : Nat) : Exec.Kind := match t with
  | 0 => .bool
  | 3 => .int
  | 4 => .big
  | _ => .str

theorem rep_kind {t : Nat} {s : SV} {v : Value} (h : Rep t s v) (h1 : t ≠ 1) (h2 : t ≠ 2) (hn : s ≠ .null) (hs : ∀ x, s = .str x → x.length < 2 ^ 32) : (kindOf t).has v := by
  cases s with
  | null => exact absurd rfl hn
  | int i =>
    obtain ⟨hf, rfl⟩ := h
    rcases fits_cases hf with ⟨rfl, _⟩ | ⟨rfl, _⟩ | ⟨rfl, g⟩ | ⟨rfl, g⟩
    · exact absurd rfl h1
    · exact absurd rfl h2
    · exact ⟨i, rfl, by omega, by omega⟩
    · exact ⟨i, rfl, by omega, by omega⟩
  | bool b => obtain ⟨rfl, rfl⟩ := h; exact ⟨b, rfl⟩
  | str x => obtain ⟨rfl, rfl⟩ := h; exact ⟨x, rfl, hs x rfl⟩

theorem kind_sv {k : Exec.Kind} (hk : k ≠ .dec) {a b : Value} (ha : k.has a) (hb : k.has b) : valueEq a b = true ↔ sv a = sv b := by
  cases k with
  | int =>
    obtain ⟨i, rfl, -⟩ := ha
    obtain ⟨j, rfl, -⟩ := hb
    simp [new, newTyped, valueEq, valEq, tag, atoms, sv, val]
  | big =>
    obtain ⟨i, rfl, -⟩ := ha
    obtain ⟨j, rfl, -⟩ := hb
    simp [new, newTyped, valueEq, valEq, tag, atoms, sv, val]
  | str =>
    obtain ⟨u, rfl, -⟩ := ha
    obtain ⟨v, rfl, -⟩ := hb
    simp [new, newTyped, valueEq, valEq, tag, atoms, map_val_inj, sv, val]
  | bool =>
    obtain ⟨u, rfl⟩ := ha
    obtain ⟨v, rfl⟩ := hb
    cases u <;> cases v <;> decide
  | dec => exact absurd rfl hk
  | null =>
    have ha : isNull a = true := ha
    have hb : isNull b = true := hb
    have e : ∀ v, isNull v = true → sv v = .null := fun v h => rep_sv (t := 20) (s := .null) h
    rw [e a ha, e b hb]
    exact ⟨fun _ => rfl, fun _ => null_eq ha hb⟩

theorem shape_reads {ks : List Exec.Kind} (hk : Exec.Kind.dec ∉ ks) {a b : Row} (ha : HasShape ks a) (hb : HasShape ks b) : valuesEq a b = true ↔ reads a = reads b := by
  induction ks generalizing a b with
  | nil => cases a <;> cases b <;> simp_all [HasShape, valuesEq, reads]
  | cons k ks ih =>
    cases a with
    | nil => exact ha.elim
    | cons x a =>
      cases b with
      | nil => exact hb.elim
      | cons y b =>
        rw [List.mem_cons, not_or] at hk
        have := ih hk.2 ha.2 hb.2
        unfold reads at this ⊢
        rw [List.map_cons, List.map_cons, List.cons.injEq, ← kind_sv (Ne.symm hk.1) ha.1 hb.1, ← this]
        simp only [valuesEq, Bool.and_eq_true]

/-- The first rows, as a client reads them. -/
theorem firsts_reads (l : List Row) : ∀ (before : List Row), (∀ a ∈ before ++ l, ∀ b ∈ before ++ l, valuesEq a b = true ↔ reads a = reads b) →
    (firsts before l).map reads = ((l.map reads).filter fun x => !(before.map reads).contains x).eraseDups := by
  induction l with
  | nil => intro before _; rfl
  | cons r l ih =>
    intro before h
    have ih := ih (before ++ [r]) (fun a ha b hb => h a (by simpa using ha) b (by simpa using hb))
    have hm : (before.map reads).contains (reads r) = before.any (valuesEq · r) := by
      rw [Bool.eq_iff_iff, List.contains_iff_mem, List.mem_map, List.any_eq_true]
      constructor
      · rintro ⟨b, hb, e⟩
        exact ⟨b, hb, (h b (by simp [hb]) r (by simp)).2 e⟩
      · rintro ⟨b, hb, e⟩
        exact ⟨b, hb, (h b (by simp [hb]) r (by simp)).1 e⟩
    unfold firsts
    rw [List.map_cons, List.filter_cons]
    have hc : ∀ x : TRow, (((before ++ [r]).map reads).contains x) = ((before.map reads).contains x || (x == reads r)) := by
      intro x
      rw [List.map_append, List.contains_eq_mem, List.contains_eq_mem, Bool.eq_iff_iff]
      simp
    cases hb : before.any (valuesEq · r) with
    | true =>
      rw [if_pos rfl, ih, hm, hb]
      simp only [Bool.not_true, Bool.false_eq_true, if_false]
      congr 1
      refine List.filter_congr fun x _ => ?_
      rw [hc]
      cases hx : (x == reads r) with
      | false => simp
      | true =>
        have hx := eq_of_beq hx
        subst hx
        rw [hm, hb]
        rfl
    | false =>
      rw [if_neg (by simp), hm, hb]
      simp only [Bool.not_false, if_true]
      rw [List.map_cons, ih, List.eraseDups_cons, List.filter_filter]
      congr 2
      refine List.filter_congr fun x _ => ?_
      rw [hc]
      cases (before.map reads).contains x <;> cases (x == reads r) <;> rfl

section
variable {cols : List Col} (hnd : (cols.map Col.name).Nodup) {sc : Plan.Schema} (hcol : sc.map Plan.Name.col = cols.map fun c => str c.name)

include hnd hcol in
theorem items_shape {items : List (Ast × String)} {is : List Item} (h : PR.list (planItem cols) items = .ok is) {r : Row} (hr : RowOf (typesOf cols) (reads r) r)
    (hw : ∀ x ∈ items, (∃ f, WT (typesOf cols) x.1 f) ∧ LitItems x.1) {k : Ast × String → Exec.Kind}
    (hk : ∀ x ∈ items, ∀ s v, den (reads r) x.1 = some s → Rep (exprTy (typesOf cols) x.1) s v → (k x).has v) {ys : Row} (hy : selected sc r is = some ys) :
    HasShape (items.map k) ys := by
  have hl : r.length = cols.length := by rw [hr.2.1]; simp [typesOf]
  induction items generalizing is ys with
  | nil => cases h; cases hy; trivial
  | cons x xs ih =>
    obtain ⟨y, h1, h⟩ := bind_ok h
    obtain ⟨zs, h2, h⟩ := bind_ok h
    cases h
    have ih := fun {ys} => ih h2 (fun z hz => hw z (List.mem_cons_of_mem _ hz)) (fun z hz => hk z (List.mem_cons_of_mem _ hz)) (ys := ys)
    have hkx := hk x List.mem_cons_self
    rcases planItem_ok h1 with ⟨i, c, hx, hc, rfl⟩ | ⟨e, t, hp, rfl⟩
    · obtain ⟨v, hv⟩ := at_lt hl (lt_of_at hc)
      simp only [selected, cell_at hnd hcol hc, hv] at hy
      cases hz : selected sc r zs with
      | none => rw [hz] at hy; cases hy
      | some w =>
        rw [hz] at hy
        cases hy
        refine ⟨?_, ih hz⟩
        have ht : (typesOf cols)[i]? = some c.ty := by unfold typesOf; rw [List.getElem?_map, hc]; rfl
        have hs : (reads r)[i]? = some (sv v) := by unfold reads; rw [List.getElem?_map, hv]; rfl
        rw [hx] at hkx
        refine hkx (sv v) v (by simp only [den]; exact hs) ?_
        have : exprTy (typesOf cols) (.col i) = c.ty := by simp only [exprTy, ht]; rfl
        rw [this]
        exact hr.2.2 i _ _ _ ht hs hv
    · obtain ⟨⟨f, w1⟩, w2⟩ := hw x List.mem_cons_self
      simp only [selected, valueOf_named hnd hcol hl] at hy
      split at hy
      · next v hv =>
        obtain ⟨w, hz, rfl⟩ := Option.map_eq_some_iff.1 hy
        obtain ⟨s, d1, d2⟩ := C124_value_partial hr w1 w2 hp hv
        rw [(parse_ty _ _ w1 hp).2] at d2
        exact ⟨hkx s v d1 d2, ih hz⟩
      · cases hy

end

/-- The columns of ORDER BY of a SELECT DISTINCT, by their places in the table. -/
def orderAt (items : List (Ast × String)) (order : List (Nat × Dir)) : List (Nat × Dir) := order.map fun (k : Nat × Dir) => ((match items[k.1]? with
  | some (.col i, _) => i
  | _ => 0), k.2)

theorem itemKeys_ok {cols : List Col} {items : List (Ast × String)} {order : List (Nat × Dir)} {ks : List (Plan.NExpr × Dir)} (h : PR.list (planItemKey cols items) order = .ok ks) :
    ks = (orderAt items order).map (keyOn cols) := by
  induction order generalizing ks with
  | nil => cases h; rfl
  | cons k order ih =>
    obtain ⟨y, h1, h⟩ := bind_ok h
    obtain ⟨zs, h2, h⟩ := bind_ok h
    cases h
    rw [ih h2]
    unfold planItemKey at h1
    unfold orderAt
    rw [List.map_cons, List.map_cons]
    split at h1
    · next i s hk =>
      rw [hk]
      unfold planKey at h1
      split at h1
      · cases h1; rfl
      · cases h1
    · cases h1

/-- The places in the table and in the answer. -/
theorem inOrder_at {items : List (Ast × String)} {order : List (Nat × Dir)} {a b a' b' : TRow}
    (h : ∀ k ∈ order, ∀ i s, items[k.1]? = some (.col i, s) → a[i]? = a'[k.1]? ∧ b[i]? = b'[k.1]?) (hat : ∀ k ∈ order, ∃ i s, items[k.1]? = some (.col i, s))
    (ho : InOrder (orderAt items order) a b) : InOrder order a' b' := by
  induction order with
  | nil => trivial
  | cons k order ih =>
    obtain ⟨i, s, hk⟩ := hat k List.mem_cons_self
    obtain ⟨e1, e2⟩ := h k List.mem_cons_self i s hk
    unfold orderAt at ho
    rw [List.map_cons, hk] at ho
    obtain ⟨x, y, hx, hy, hc⟩ := ho
    refine ⟨x, y, e1 ▸ hx, e2 ▸ hy, ?_⟩
    rcases hc with hc | hc | hc
    · exact .inl hc
    · exact .inr (.inl hc)
    · exact .inr (.inr ⟨hc.1, ih (fun k hk => h k (List.mem_cons_of_mem _ hk)) (fun k hk => hat k (List.mem_cons_of_mem _ hk)) hc.2⟩)

theorem says_distinct {cols : List Col} (hnd : (cols.map Col.name).Nodup) (hne : cols ≠ []) {ch : Choices} {f : Plan.From} {sc : Plan.Schema} (hcol : sc.map Plan.Name.col = cols.map fun c => str c.name) (hsc : f.scope = sc) {rows : Nat → List Row} (hfine : f.Fine (ch.world rows)) {items : List (Ast × String)}
    {p : Option Ast} {order : List (Nat × Dir)} {limit offset : Option Nat} {q : Plan.Select} {r : Reply} (hq : planDistinct cols items p order limit offset = .ok q)
    (hsays : Says (ch.world rows) f q r) (hrows : RowsIn (typesOf cols) (f.rows (ch.world rows))) (hi : items ≠ [])
    (hwp : WellTyped (typesOf cols) p) (hw : ∀ x ∈ items, (∃ f, WT (typesOf cols) x.1 f) ∧ LitItems x.1)
    (hone : ∀ k ∈ order, ∃ i s, items[k.1]? = some (.col i, s) ∧ OneItem (cols.map fun c => (c.name, c.ty)) items i)
    (hty : ∀ x ∈ items, exprTy (typesOf cols) x.1 ≠ 1 ∧ exprTy (typesOf cols) x.1 ≠ 2)
    (hs : ∀ row ∈ f.rows (ch.world rows), (∀ a, p = some a → Calm (typesOf cols) (reads row) a) ∧ (holds (typesOf cols) p (reads row) = true → ∀ x ∈ items, Safe (typesOf cols) (reads row) x.1))
    (hap : ∀ x ∈ items, ToldApart (((f.rows (ch.world rows)).map reads).filter fun row => holds (typesOf cols) p row) x.1) :
    ∃ (out : List Row) (l l' : List TRow), r = .rows out ∧ l.map (·.map some) = (((f.rows (ch.world rows)).map reads).filter fun row => holds (typesOf cols) p row).map (fun row => items.map fun x => den row x.1) ∧
      l'.Perm l.eraseDups ∧ l'.Pairwise (InOrder order) ∧ (order = [] → l' = l.eraseDups) ∧ out.map reads = pageOf limit offset l' := by
  obtain ⟨q', hq', hq⟩ := bind_ok hq
  obtain ⟨ks', hks', hq⟩ := bind_ok hq
  cases hq
  cases itemKeys_ok hks'
  obtain ⟨pe, hpe, hq⟩ := bind_ok hq'
  obtain ⟨is, his, hq⟩ := bind_ok hq
  obtain ⟨ks, hks, hq⟩ := bind_ok hq
  cases hq
  cases hks
  have hisne : is ≠ [] := by
    rintro rfl
    have := (list_ok his).1
    exact hi (List.length_eq_zero_iff.1 this.symm)
  have hval := fun row hr hh => items_value hnd hcol his (hrows row hr) hw ((hs row hr).2 hh)
  have hk := items_known hnd hcol his
  let sel : Row → Row := fun row => (selected sc row is).getD []
  let keep : Row → Bool := fun row => holds (typesOf cols) p (reads row)
  have hsel : ∀ row ∈ f.rows (ch.world rows), keep row = true → selected sc row is = some (sel row) := fun row hr hh => by
    obtain ⟨ys, h1, _⟩ := hval row hr hh
    show _ = some ((selected sc row is).getD [])
    rw [h1]
    rfl
  have hread : ∀ row ∈ (f.rows (ch.world rows)).filter keep, (reads (sel row)).map some = items.map fun x => den (reads row) x.1 := fun row hr => by
    obtain ⟨ys, h1, h2⟩ := hval row (List.mem_filter.1 hr).1 (List.mem_filter.1 hr).2
    show (reads ((selected sc row is).getD [])).map some = _
    rw [h1]
    exact h2
  -- the kinds of the items
  have hshape : ∃ ks : List Exec.Kind, Exec.Kind.dec ∉ ks ∧ ∀ row ∈ f.rows (ch.world rows), keep row = true → HasShape ks (sel row) := by
    classical
    let k : Ast × String → Exec.Kind := fun x =>
      if ∀ row ∈ ((f.rows (ch.world rows)).map reads).filter (fun row => holds (typesOf cols) p row), den row x.1 = some .null then .null else kindOf (exprTy (typesOf cols) x.1)
    refine ⟨items.map k, fun hm => ?_, fun row hr hh => items_shape hnd hcol his (hrows row hr) hw (fun x hx s v hd hrep => ?_) (hsel row hr hh)⟩
    · obtain ⟨x, _, hx⟩ := List.mem_map.1 hm
      revert hx
      show (if _ then _ else _) = Exec.Kind.dec → False
      split
      · nofun
      · unfold kindOf
        split <;> nofun
    · have hmem : reads row ∈ ((f.rows (ch.world rows)).map reads).filter (fun row => holds (typesOf cols) p row) := List.mem_filter.2 ⟨List.mem_map_of_mem hr, hh⟩
      show (if _ then _ else _ : Exec.Kind).has v
      split
      · next hall =>
        have := hall _ hmem
        rw [hd] at this
        cases this
        exact hrep
      · next hall =>
        rcases hap x hx with h | h
        · exact absurd h hall
        · obtain ⟨g1, g2⟩ := h _ hmem
          refine rep_kind hrep (hty x hx).1 (hty x hx).2 (fun e => g1 (by rw [hd, e])) fun y e => g2 y (by rw [hd, e])
  obtain ⟨ks, hdec, hshape⟩ := hshape
  have hplain : Plan.Plain (Plan.From.rows (ch.world rows) f) f.scope
      ⟨is, pe.map (named cols), [], none, true, (orderAt items order).map (keyOn cols), limit, offset⟩ keep sel := by
    refine ⟨?_, hisne, ?_, rfl, rfl, ?_, ?_, ?_, fun _ => ⟨ks, hshape⟩⟩
    · rw [hsc]; exact hk.1
    · rw [hsc]; rintro rfl; exact hne (List.length_eq_zero_iff.1 (by simpa using (congrArg List.length hcol).symm))
    · intro row hr
      rw [(hrows row hr).2.1, hsc]
      have := congrArg List.length hcol
      simp [typesOf] at this ⊢
      omega
    · rw [hsc]
      rcases planWhere_ok hpe with ⟨rfl, rfl⟩ | ⟨a, e, t, rfl, rfl, hpa⟩
      · exact fun _ _ => rfl
      · refine ⟨known_named hnd hcol e, fun row hr => ?_⟩
        have hl : row.length = cols.length := by rw [(hrows row hr).2.1]; simp [typesOf]
        obtain ⟨w1, w2⟩ := hwp a rfl
        unfold Plan.Settled Plan.HasTruth Plan.IsTrue
        show _ ∧ (holds (typesOf cols) (some a) (reads row) = true ↔ _)
        rw [valueOf_named hnd hcol hl, holds_some]
        by_cases hsafe : Safe (typesOf cols) (reads row) a
        · obtain ⟨g1, x, v, g2, g3⟩ := where_ok (hrows row hr) w1 w2 hpa hsafe
          refine ⟨.inl ⟨v, x, g2, g3⟩, ?_⟩
          rw [and_iff_right hsafe, ← g1]
          rfl
        · have he := (C124_errors_partial (hrows row hr) w1 w2 hpa ((hs row hr).1 a rfl)).2 hsafe
          refine ⟨.inr he, fun h => absurd h.1 hsafe, fun ⟨v, h, _⟩ => ?_⟩
          rw [he] at h
          cases h
    · intro row hr hh
      rw [hsc]
      exact hsel row hr hh
  -- the columns of ORDER BY in the answer
  have hat : ∀ k ∈ order, ∃ i s, items[k.1]? = some (.col i, s) ∧ i < cols.length ∧ matching (Plan.outCols sc is) (nameAt cols i) = [k.1] := by
    intro k hk'
    obtain ⟨i, s, hi', one⟩ := hone k hk'
    have hlt := item_lt his (List.mem_of_getElem? hi') rfl
    refine ⟨i, s, hi', hlt, ?_⟩
    rcases matching_out hnd his hlt one sc with ⟨j, tx, hj, hm⟩ | hm
    · rw [hm, one.1 _ _ _ _ hj hi']
    · refine absurd ?_ (List.not_mem_nil (a := k.1))
      rw [← hm]
      have hout : (Plan.outCols sc is)[k.1]? = some (nameAt cols i) := by rw [outCols_eq his, List.getElem?_map, hi']; rfl
      unfold matching
      refine List.mem_filter.2 ⟨List.mem_range.2 (List.getElem?_eq_some_iff.1 hout).1, ?_⟩
      rw [hout, Option.any_some, decide_eq_true_eq]
      exact ⟨rfl, .inl rfl⟩
  have hko : ∀ k' ∈ orderAt items order, ∃ k ∈ order, ∃ s, items[k.1]? = some (.col k'.1, s) ∧ k'.1 < cols.length ∧ matching (Plan.outCols sc is) (nameAt cols k'.1) = [k.1] := by
    intro k' hk'
    obtain ⟨k, hk, rfl⟩ := List.mem_map.1 hk'
    obtain ⟨i, s, h1, h2, h3⟩ := hat k hk
    refine ⟨k, hk, s, ?_⟩
    rw [h1]
    exact ⟨rfl, h2, h3⟩
  have hlt : ∀ k' ∈ orderAt items order, k'.1 < cols.length := fun k' hk' => by
    obtain ⟨_, _, _, _, h, _⟩ := hko k' hk'
    exact h
  have hplace : ∀ row ∈ f.rows (ch.world rows), keep row = true → ∀ k ∈ order, ∀ i s, items[k.1]? = some (.col i, s) → (sel row)[k.1]? = row[i]? := by
    intro row hr hh k hk i s hi'
    have hlt := item_lt his (List.mem_of_getElem? hi') rfl
    rw [selected_at his (hsel row hr hh) hi', nameAt_some (List.getElem?_eq_getElem hlt), cell_at hnd hcol (List.getElem?_eq_getElem hlt)]
  have hcell : ∀ row ∈ f.rows (ch.world rows), keep row = true → ∀ k' ∈ orderAt items order, cell (Plan.outCols sc is) (sel row) (nameAt cols k'.1) = row[k'.1]? := by
    intro row hr hh k' hk'
    obtain ⟨k, hk, s, h1, _, h2⟩ := hko k' hk'
    unfold cell
    rw [h2]
    exact hplace row hr hh k hk _ s h1
  have B : ByOutput (ch.world rows) f ⟨is, pe.map (named cols), [], none, true, (orderAt items order).map (keyOn cols), limit, offset⟩ keep sel := by
    refine ⟨hfine, hplain, fun e he n hn => ?_, fun n hn => .inl (hk.2 n hn), fun k hk' => ⟨fun n hn => ?_, fun n hn => ?_⟩, fun row hr hh => ?_⟩
    · obtain ⟨e', _, rfl⟩ := Option.map_eq_some_iff.1 he
      obtain ⟨c, _, rfl⟩ := List.mem_map.1 hn
      exact .inl rfl
    · rw [hsc]
      obtain ⟨k', hk'', rfl⟩ := List.mem_map.1 hk'
      cases List.mem_singleton.1 hn
      obtain ⟨k, _, _, _, _, h⟩ := hko k' hk''
      exact ⟨k.1, h⟩
    · obtain ⟨k', _, rfl⟩ := List.mem_map.1 hk'
      cases List.mem_singleton.1 hn
      exact .inl rfl
    · rw [hsc]
      exact keys_have (hrows row hr) hlt (hcell row hr hh)
  obtain ⟨out, hr, l, hp, ho, hl, hout⟩ := hsays.output _ _ B
  have hp : l.Perm (firsts [] (((f.rows (ch.world rows)).filter keep).map sel)) := hp
  have hl : order = [] → l = firsts [] (((f.rows (ch.world rows)).filter keep).map sel) := fun h => hl (by rw [h]; rfl)
  rw [hsc] at ho
  have hout : out = (match (generalizing := false) limit with
      | some n => (match (generalizing := false) offset with | some n => l.drop n | none => l).take n
      | none => match (generalizing := false) offset with | some n => l.drop n | none => l) := hout
  have hf := firsts_reads (((f.rows (ch.world rows)).filter keep).map sel) [] fun a ha b hb => by
    obtain ⟨x, hx, rfl⟩ := List.mem_map.1 ha
    obtain ⟨y, hy, rfl⟩ := List.mem_map.1 hb
    exact shape_reads hdec (hshape x (List.mem_filter.1 hx).1 (List.mem_filter.1 hx).2) (hshape y (List.mem_filter.1 hy).1 (List.mem_filter.1 hy).2)
  have hid : ∀ L : List TRow, (L.filter fun x => !(([] : List Row).map reads).contains x) = L := fun L => List.filter_eq_self.2 fun _ _ => rfl
  rw [hid] at hf
  refine ⟨out, (((f.rows (ch.world rows)).filter keep).map sel).map reads, l.map reads, hr, ?_, ?_, ?_, ?_, ?_⟩
  · rw [List.filter_map, List.map_map, List.map_map, List.map_map]
    exact List.map_congr_left fun row hr => hread row hr
  · rw [← hf]
    exact hp.map reads
  · refine List.pairwise_map.2 (List.Pairwise.imp_of_mem (fun {a b} ha hb h => ?_) ho)
    obtain ⟨x, hx, rfl⟩ := List.mem_map.1 ((C42_firsts _).1.subset (hp.mem_iff.1 ha))
    obtain ⟨y, hy, rfl⟩ := List.mem_map.1 ((C42_firsts _).1.subset (hp.mem_iff.1 hb))
    have hx := List.mem_filter.1 hx
    have hy := List.mem_filter.1 hy
    refine inOrder_at (fun k hk i s hi' => ?_) (fun k hk => ?_) (in_order (hrows x hx.1) (hrows y hy.1) hlt (hcell x hx.1 hx.2) (hcell y hy.1 hy.2) h)
    · unfold reads
      rw [List.getElem?_map, List.getElem?_map, List.getElem?_map, List.getElem?_map, hplace x hx.1 hx.2 k hk i s hi', hplace y hy.1 hy.2 k hk i s hi']
      exact ⟨rfl, rfl⟩
    · obtain ⟨i, s, h, _⟩ := hone k hk
      exact ⟨i, s, h⟩
  · intro he
    rw [hl he]
    exact hf
  · rw [hout]
    unfold pageOf
    cases limit <;> cases offset <;> simp [List.map_take, List.map_drop]

end Verif.Whole

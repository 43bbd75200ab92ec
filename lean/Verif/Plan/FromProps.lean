import Verif.Plan.FromSpec
import Verif.Plan.GroupProps

/-!
# FROM with several tables (C109)
-/

namespace Verif.Plan

open Verif.Wire Verif.Bytes Verif.Sql Verif.Exec

/-! ## Names -/

/-- The planner's schema: a name is kept or loses its table. -/
def Coarse (s s' : Schema) : Prop := s.length = s'.length ∧ ∀ (j : Nat) c c', s[j]? = some c → s'[j]? = some c' → c' = c ∨ c' = ⟨none, c.col⟩

theorem coarse_append {s s' t t' : Schema} (h : Coarse s s') (g : Coarse t t') : Coarse (s ++ t) (s' ++ t') := by
  refine ⟨by simp [h.1, g.1], fun j c c' h1 h2 => ?_⟩
  by_cases hj : j < s.length
  · rw [List.getElem?_append_left hj] at h1
    rw [List.getElem?_append_left (h.1 ▸ hj)] at h2
    exact h.2 j c c' h1 h2
  · rw [List.getElem?_append_right (by omega)] at h1
    rw [List.getElem?_append_right (by have := h.1; omega), ← h.1] at h2
    exact g.2 _ c c' h1 h2

theorem coarse_cons {s s' : Schema} (n : Name) (h : Coarse s s') : Coarse (n :: s) (n :: s') := by
  refine ⟨by simp [h.1], fun j c c' h1 h2 => ?_⟩
  cases j with
  | zero => simp_all
  | succ j => exact h.2 j c c' h1 h2

theorem coarse_nil : Coarse [] [] := ⟨rfl, fun j c c' h => by simp at h⟩

theorem coarse_from : ∀ f : From, Coarse f.scope f.schema
  | .table T => by
    refine ⟨by simp [From.scope, From.schema, Table.scope, Table.schema], fun j c c' h1 h2 => ?_⟩
    simp only [From.scope, From.schema, Table.scope, Table.schema, List.getElem?_map, Option.map_eq_some_iff] at h1 h2
    obtain ⟨a, ha, rfl⟩ := h1
    obtain ⟨b, hb, rfl⟩ := h2
    rw [ha] at hb
    cases hb
    cases T.alias_ with
    | none => exact .inr rfl
    | some _ => exact .inl rfl
  | .join _ l r _ => coarse_append (coarse_from l) (coarse_from r)

theorem count_one {s : Schema} {n : Name} (h : s.count n ≤ 1) {i j : Nat} (hi : s[i]? = some n) (hj : s[j]? = some n) : j = i := by
  induction s generalizing i j with
  | nil => simp at hi
  | cons a as ih =>
    rw [List.count_cons] at h
    have none_left : ∀ k : Nat, (a == n) = true → as[k]? ≠ some n := fun k ha hk => by
      have := List.count_pos_iff.2 (List.mem_of_getElem? hk)
      rw [if_pos ha] at h
      omega
    cases i with
    | zero =>
      have ha : (a == n) = true := by simpa using hi
      cases j with
      | zero => rfl
      | succ j => exact (none_left j ha hj).elim
    | succ i => cases j with
      | zero =>
        have ha : (a == n) = true := by simpa using hj
        exact (none_left i ha hi).elim
      | succ j => rw [ih (by split at h <;> omega) hi hj]

theorem resolve_coarse {s s' : Schema} {n : Name} {i : Nat} (hc : Coarse s s') (h : matching s n = [i]) (hn : Clear s' n) : resolve s' n = some i := by
  obtain ⟨c, hsi, hd⟩ := mem_matching.1 (by rw [h]; exact List.mem_singleton_self i : i ∈ matching s n)
  have hu : ∀ j d, s[j]? = some d → Denotes n d → j = i := fun j d hj hd => by
    have := mem_matching.2 ⟨d, hj, hd⟩
    rwa [h, List.mem_singleton] at this
  obtain ⟨hi, _⟩ := List.getElem?_eq_some_iff.1 hsi
  have hget : ∀ {j : Nat} {d' : Name}, s'[j]? = some d' → ∃ d, s[j]? = some d ∧ (d' = d ∨ d' = ⟨none, d.col⟩) := fun {j d'} hj => by
    have hj' := (List.getElem?_eq_some_iff.1 hj).1
    have : s[j]? = some (s[j]'(by have := hc.1; omega)) := List.getElem?_eq_getElem _
    exact ⟨_, this, hc.2 j _ _ this hj⟩
  have hs'i : s'[i]? = some (s'[i]'(by have := hc.1; omega)) := List.getElem?_eq_getElem _
  have hi' := hc.2 i _ _ hsi hs'i
  generalize s'[i]'(by have := hc.1; omega) = c' at hs'i hi'
  obtain ⟨nt, nc⟩ := n
  obtain ⟨ct, cc⟩ := c
  obtain ⟨hcol, htbl⟩ := hd
  simp only at hcol htbl
  subst hcol
  cases nt with
  | none =>
    have hall : ∀ j d', s'[j]? = some d' → d'.col = nc → j = i := fun j d' hj hcol => by
      obtain ⟨d, hd, he⟩ := hget hj
      refine hu j d hd ⟨?_, .inl rfl⟩
      rcases he with rfl | rfl <;> exact hcol.symm
    have hc'col : c'.col = nc := by rcases hi' with rfl | rfl <;> rfl
    unfold resolve
    by_cases hq : c'.tbl = none
    · have : index s' ⟨none, nc⟩ = some i := findIdx_only hs'i (by
        obtain ⟨a, b⟩ := c'
        simp only at hq hc'col
        subst hq hc'col
        simp) fun j d hj hd => hall j d hj (by simp at hd; rw [hd])
      rw [this]
    · have h0 : index s' ⟨none, nc⟩ = none := findIdx_none fun j d hj => by
        simp only [beq_eq_false_iff_ne]
        rintro rfl
        have := hall j _ hj rfl
        subst this
        rw [hs'i] at hj
        cases hj
        exact hq rfl
      rw [h0]
      exact findIdx_only hs'i (by simp [hc'col, Option.isSome_iff_ne_none, hq]) fun j d hj hd => hall j d hj (by simp at hd; exact hd.2)
  | some q =>
    have hex : ∀ j d', s'[j]? = some d' → d' = ⟨some q, nc⟩ → j = i := fun j d' hj hd' => by
      obtain ⟨d, hd, he⟩ := hget hj
      refine hu j d hd ?_
      rcases he with rfl | rfl
      · subst hd'; exact ⟨rfl, .inr (.inr rfl)⟩
      · cases hd'
    unfold resolve
    by_cases hq : c' = ⟨some q, nc⟩
    · have : index s' ⟨some q, nc⟩ = some i := findIdx_only hs'i (by simp [hq]) fun j d hj hd => hex j d hj (by simpa using hd)
      rw [this]
    · have h0 : index s' ⟨some q, nc⟩ = none := findIdx_none fun j d hj => by
        simp only [beq_eq_false_iff_ne]
        rintro rfl
        have := hex j _ hj rfl
        subst this
        rw [hs'i] at hj
        cases hj
        exact hq rfl
      have hc' : c' = ⟨none, nc⟩ := by
        rcases hi' with rfl | rfl
        · rcases htbl with h | h | h
          · cases h
          · rw [h]
          · exact (hq (by rw [← h])).elim
        · rfl
      rw [h0]
      refine findIdx_only hs'i (by simp [hc']) fun j d hj hd => ?_
      rcases hn with hn | hn
      · cases hn
      · simp only [beq_iff_eq] at hd
        exact count_one hn (hc' ▸ hs'i) (hd ▸ hj)

theorem parse_coarse {s s' : Schema} {e : NExpr} (hc : Coarse s s') (hk : Known s e) (hn : ∀ n ∈ e.cols, Clear s' n) : parse s' e = parse s e := by
  have : e.cols.mapM (resolve s') = e.cols.mapM (resolve s) := by
    revert hk hn
    unfold Known
    induction e.cols with
    | nil => intros; rfl
    | cons n ns ih =>
      intro hk hn
      obtain ⟨i, hi⟩ := hk n List.mem_cons_self
      rw [List.mapM_cons, List.mapM_cons, resolve_coarse hc hi (hn n List.mem_cons_self), (resolve_refers hi).1,
        ih (fun m hm => hk m (List.mem_cons_of_mem _ hm)) fun m hm => hn m (List.mem_cons_of_mem _ hm)]
  simp only [parse, this, hc.1]

theorem projection_coarse {s s' : Schema} {items : List Item} (hc : Coarse s s') (hk : ItemsKnown s items) (hn : ∀ n ∈ namesOf items, Clear s' n) :
    projection s' s' items = (projection s s items).map fun r => (r.1, outCols s' items) := by
  induction items with
  | nil => rfl
  | cons it rest ih =>
    match it, hk with
    | .star, hk =>
      have := ih hk hn
      simp only [projection, this, hc.1, Option.map_map]
      rfl
    | .expr (.column n) a, hk =>
      have := ih hk.2 fun m hm => hn m (List.mem_cons_of_mem _ hm)
      have hp := parse_coarse (e := .column n) hc (fun m hm => by
        rw [List.mem_singleton.1 hm]; exact hk.1) fun m hm => by
        rw [List.mem_singleton.1 hm]; exact hn n List.mem_cons_self
      simp only [projection, parseS, this, hp]
      cases parse s (.column n) with
      | none => rfl
      | some x => cases projection s s rest with
        | none => rfl
        | some r => cases a <;> rfl
    | .expr (.scalar e text) a, hk =>
      have := ih hk.2 fun m hm => hn m (List.mem_append_right _ hm)
      have hp := parse_coarse hc hk.1 fun m hm => hn m (List.mem_append_left _ hm)
      simp only [projection, parseS, this, hp]
      cases parse s e with
      | none => rfl
      | some x => cases projection s s rest with
        | none => rfl
        | some r => cases a <;> rfl

theorem outCols_coarse {s s' : Schema} (hc : Coarse s s') (items : List Item) : Coarse (outCols s items) (outCols s' items) := by
  induction items with
  | nil => exact coarse_nil
  | cons it rest ih =>
    match it with
    | .star => exact coarse_append hc ih
    | .expr (.column n) none => exact coarse_cons _ ih
    | .expr (.column n) (some a) => exact coarse_cons _ ih
    | .expr (.scalar e text) none => exact coarse_cons _ ih
    | .expr (.scalar e text) (some a) => exact coarse_cons _ ih
    | .expr (.agg f n) none => exact ih
    | .expr (.agg f n) (some a) => exact coarse_cons _ ih

theorem mapM_keys {s s' : Schema} {keys : List (NExpr × Dir)} (h : ∀ k ∈ keys, parse s' k.1 = parse s k.1) :
    keys.mapM (fun k => (parse s' k.1).map fun e => (e, k.2)) = keys.mapM (fun k => (parse s k.1).map fun e => (e, k.2)) := by
  induction keys with
  | nil => rfl
  | cons k ks ih => rw [List.mapM_cons, List.mapM_cons, h k List.mem_cons_self, ih fun k' hk => h k' (List.mem_cons_of_mem _ hk)]

section
variable {w : World} {ix : Nat → Option Nat} {isConst : Expr → Bool} {known : Nat → Bool} {s s' : Schema} {q : Select} {base : Plan} {rows : List Row} {keep : Row → Bool}
  {sel : Row → Row}

/-- The planner, with its schema `s'`, makes the plan it would make with the names of SQL. -/
theorem planOn_coarse (hc : Coarse s s') (h : Plain rows s q keep sel) (hw : ∀ e, q.where_ = some e → ∀ n ∈ e.cols, Clear s' n)
    (hi : ∀ n ∈ namesOf q.items, Clear s' n)
    (ho : (∀ k ∈ q.orderBy, Known (outCols s q.items) k.1 ∧ ∀ n ∈ k.1.cols, Clear (outCols s' q.items) n) ∨
      ((∃ k ∈ q.orderBy, ∃ n ∈ k.1.cols, matching (outCols s q.items) n = []) ∧ (∃ k ∈ q.orderBy, ∃ n ∈ k.1.cols, matching (outCols s' q.items) n = []) ∧
        ∀ k ∈ q.orderBy, Known s k.1 ∧ ∀ n ∈ k.1.cols, Clear s' n)) : planOn s' base q = planOn s base q := by
  have h1 : planWhere s' base q = planWhere s base q := by
    unfold planWhere
    have hwh := h.where_
    cases hq : q.where_ with
    | none => rfl
    | some e =>
      rw [hq] at hwh
      simp only [parse_coarse hc hwh.1 (hw e hq)]
  obtain ⟨es, he, _⟩ := projection_value h.items
  have he' : projection s' s' q.items = some (es, outCols s' q.items) := by rw [projection_coarse hc h.items hi, he]; rfl
  have hb : ∀ b, planBody s q b = some (.project es b, outCols s q.items) := fun b => by simp [planBody, h.no_group, known_aggs h.items, he, h.no_having]
  have hb' : ∀ b, planBody s' q b = some (.project es b, outCols s' q.items) := fun b => by simp [planBody, h.no_group, known_aggs h.items, he', h.no_having]
  have hoo : ∀ b p, planOrder s' q b p (outCols s' q.items) = planOrder s q b p (outCols s q.items) := fun b p => by
    unfold planOrder
    rcases ho with ho | ⟨hn, hn', ho⟩
    · rw [mapM_keys fun k hk => parse_coarse (outCols_coarse hc q.items) (ho k hk).1 (ho k hk).2]
      by_cases hq : q.orderBy = []
      · simp only [if_pos hq]
      · simp only [if_neg hq]
        obtain ⟨specs, hs, _⟩ := keys_parse fun k hk => (ho k hk).1
        simp only [hs]
    · rw [keys_unknown hn, keys_unknown hn', mapM_keys fun k hk => parse_coarse hc (ho k hk).1 (ho k hk).2, he, he']
      rfl
  simp only [planOn, h1, Option.bind_eq_bind]
  cases planWhere s base q with
  | none => rfl
  | some b => simp only [Option.bind_some, hb, hb', hoo]

end

/-! ## Joins -/

theorem place_some {s : Schema} {n : Name} {i : Nat} : place s n = some i ↔ matching s n = [i] := by
  unfold place
  split
  · rename_i h; simp [h]
  · rename_i h
    constructor
    · intro h; cases h
    · intro h'; exact (h _ h').elim

theorem mapM_place {s : Schema} {ns : List Name} {is : List Nat} (hk : ∀ n ∈ ns, Refers s n) (h : ns.mapM (resolve s) = some is) (i : Nat) : is[i]? = (ns[i]?).bind (place s) := by
  induction ns generalizing is i with
  | nil => cases h; simp
  | cons n ns ih =>
    obtain ⟨a, ha⟩ := hk n List.mem_cons_self
    rw [List.mapM_cons, (resolve_refers ha).1] at h
    simp only [Option.bind_eq_bind, Option.bind_some, Option.bind_eq_some_iff, pure, Option.some.injEq] at h
    obtain ⟨is', h1, rfl⟩ := h
    cases i with
    | zero => simp [place_some.2 ha]
    | succ i => simpa using ih (fun m hm => hk m (List.mem_cons_of_mem _ hm)) h1 i

theorem equi_keys {sch : Schema} {pos : Nat → Option Nat} {n : Nat} {g : Nat → Nat} (hg : ∀ i p, pos i = some p → g i = p) (body : Expr) (h : Equi sch pos n body) :
    ∃ p, joinKeys sch (renumber g body) = some p ∧ noOperands p = false ∧
      ∀ a b : Row, a.length = n → eval true (joinEnv a b) p = eval false (rowEnv (a ++ b)) (renumber g body) := by
  fun_induction Equi sch pos n body with
  | case1 s1 i s2 j =>
    obtain ⟨⟨x, hx, hxn⟩, y, hy, hyn, hd⟩ := h
    have e1 := hg i x hx
    have e2 := hg j y hy
    refine ⟨_, by simp only [renumber, joinKeys]; rfl, rfl, fun a b ha => ?_⟩
    simp only [renumber, eval, e1, e2]
    have h1 : joinEnv a b 0 x = rowEnv (a ++ b) 0 x := by
      simp only [joinEnv, rowEnv]
      rw [List.getElem?_append_left (by omega)]
    have h2 : joinEnv a b 1 (if sch[y]? = some ⟨some "d", "id"⟩ then 0 else y) = rowEnv (a ++ b) 0 y := by
      simp only [joinEnv, rowEnv]
      rw [List.getElem?_append_right (by omega), ha]
      split
      · rename_i h0
        rw [hd h0]
        split
        · simp
        · simp
      · rfl
    rw [h1, h2]
  | case2 a b iha ihb =>
    obtain ⟨p1, h1, _, h2⟩ := iha h.1
    obtain ⟨p2, h3, _, h4⟩ := ihb h.2
    refine ⟨.and p1 p2, by simp [renumber, joinKeys, h1, h3], rfl, fun x y hx => ?_⟩
    simp only [renumber, eval, h2 x y hx, h4 x y hx]
  | case3 => exact h.elim

section
variable {w : World} {ix : Nat → Option Nat} {isConst : Expr → Bool} {known : Nat → Bool} {q : Select} {keep : Row → Bool} {sel : Row → Row}

theorem den_join {l r : Plan} {ls rs : List Row} {jt : JoinType} {p : Expr} {nl nr : Nat} {out : List Row} (hl : den w l = (ls, .done)) (hr : den w r = (rs, .done))
    (h : Yields (nestedLoop jt p nl nr source source rs) (.fetch ls ⟨[], [], []⟩) out .done) : den w (.join jt p nl nr l r) = (out, .done) := by
  simp only [den, hl, hr]
  obtain ⟨h1, h2⟩ := C40_deterministic (join_den (jt := jt) (p := p) (nl := nl) (nr := nr) (source_yields ls) (source_yields rs) ⟨[], [], []⟩) h
  exact Prod.ext h1 h2

theorem relJoin_width {op : JoinOp} {on : Row → Row → Bool} {nl nr : Nat} {ls rs : List Row} (hl : ∀ r ∈ ls, r.length = nl) (hr : ∀ r ∈ rs, r.length = nr) :
    ∀ r ∈ relJoin op on nl nr ls rs, r.length = nl + nr := by
  have hp : ∀ on, ∀ r ∈ pairs on ls rs, r.length = nl + nr := fun on r h => by
    simp only [pairs, List.mem_flatMap, List.mem_map, List.mem_filter] at h
    obtain ⟨a, ha, b, hb, rfl⟩ := h
    simp [hl a ha, hr b hb.1]
  have hR : ∀ r ∈ (unmatchedR on ls rs).map (List.replicate nl (new .null) ++ ·), r.length = nl + nr := fun r h => by
    obtain ⟨b, hb, rfl⟩ := List.mem_map.1 h
    simp [hr b (List.mem_filter.1 hb).1]
  have hL : ∀ r ∈ (unmatchedL on ls rs).map (· ++ List.replicate nr (new .null)), r.length = nl + nr := fun r h => by
    obtain ⟨b, hb, rfl⟩ := List.mem_map.1 h
    simp [hl b (List.mem_filter.1 hb).1]
  intro r h
  cases op with
  | inner => exact hp _ r h
  | left => exact (List.mem_append.1 ((C43_left_perm (on := on) (nr := nr) ls rs).mem_iff.1 h)).elim (hp _ r) (hL r)
  | right => exact (List.mem_append.1 h).elim (hp _ r) (hR r)
  | full => exact (List.mem_append.1 h).elim (hp _ r) fun h => (List.mem_append.1 h).elim (hR r) (hL r)
  | cross => exact hp _ r h
  | other => cases h

theorem from_plan : ∀ f : From, f.Fine w → (∀ T ∈ f.tables, known T.oid = true) →
    ∃ b, planFrom f = some b ∧ FromPlan known b ∧ den w b = (f.rows w, .done) ∧ ∀ r ∈ f.rows w, r.length = f.scope.length
  | .table T, h, hk => ⟨_, rfl, hk T List.mem_cons_self, rfl, fun r hr => by simp [From.scope, Table.scope, h r hr]⟩
  | .join op l r c, h, hk => by
    obtain ⟨hl, hr, hop, hout, hc⟩ := h
    obtain ⟨bl, l1, l2, l3, l4⟩ := from_plan l hl fun T hT => hk T (List.mem_append_left _ hT)
    obtain ⟨br, r1, r2, r3, r4⟩ := from_plan r hr fun T hT => hk T (List.mem_append_right _ hT)
    cases c with
    | on e =>
      obtain ⟨hkn, hcl, heq, hht⟩ := hc
      have hco := coarse_append (coarse_from l) (coarse_from r)
      have hpc := parse_coarse hco hkn hcl
      obtain ⟨is, his⟩ := mapM_resolve hkn
      have hpl := mapM_place hkn his
      obtain ⟨p, p1, p2, p3⟩ := equi_keys (g := fun i => is.getD i (l.scope ++ r.scope).length) (fun i a ha => by
        rw [← hpl i] at ha
        simp [List.getD, ha]) e.body heq
      have hx : parse (l.scope ++ r.scope) e = some (renumber (fun i => is.getD i (l.scope ++ r.scope).length) e.body) := by simp only [parse, his, Option.map_some]
      obtain ⟨x, hx', hval⟩ := parse_value hkn
      rw [hx] at hx'
      cases hx'
      have hjt : ∃ jt, op.type = some jt := by rcases hop with rfl | rfl | rfl | rfl <;> exact ⟨_, rfl⟩
      obtain ⟨jt, hjt⟩ := hjt
      have hlen : l.schema.length = l.scope.length ∧ r.schema.length = r.scope.length := ⟨(coarse_from l).1.symm, (coarse_from r).1.symm⟩
      have hdec : Decides jt p (fun a b => isTrue (l.scope ++ r.scope) (a ++ b) e) (l.rows w) (r.rows w) := by
        intro a ha b hb
        have hne : jt ≠ .cross := by rcases hop with rfl | rfl | rfl | rfl <;> (simp only [JoinOp.type, Option.some.injEq] at hjt; subst hjt; simp)
        have hv := p3 a b (l4 a ha)
        rw [hval (a ++ b) (by simp [l4 a ha, r4 b hb])] at hv
        rw [if_neg hne]
        obtain ⟨v, t, h1, h2⟩ := hht a ha b hb
        refine ⟨⟨t, v, by rw [hv, h1], h2⟩, ?_⟩
        refine isTrue_iff.trans ?_
        simp only [IsTrue, EvalsTo, hv]
      refine ⟨.join jt p l.schema.length r.schema.length bl br, by simp only [planFrom, l1, r1, Option.bind_eq_bind, Option.bind_some, hpc, hx, p1, hjt], ⟨p2, l2, r2⟩, ?_, ?_⟩
      · refine den_join l3 r3 ?_
        rw [hlen.1, hlen.2]
        rcases hop with rfl | rfl | rfl | rfl <;> cases hjt
        · exact C43_inner_cross (.inl rfl) (source_yields _) (source_yields _) hdec
        · exact C43_left (source_yields _) (source_yields _) hdec
        · have := C43_outer_partial (nl := l.scope.length) (nr := r.scope.length) (.inl rfl) (source_yields _) (source_yields _) hdec (hout (.inl rfl)).1 (hout (.inl rfl)).2
          simpa [From.rows, relJoin] using this
        · have := C43_outer_partial (nl := l.scope.length) (nr := r.scope.length) (.inr rfl) (source_yields _) (source_yields _) hdec (hout (.inr rfl)).1 (hout (.inr rfl)).2
          simpa [From.rows, relJoin] using this
      · simp only [From.scope, List.length_append]
        exact relJoin_width l4 r4
    | using_ _ => exact hc.elim
    | natural => exact hc.elim
    | none => exact hc.elim

/-! ## The theorems -/

/-- A FROM of joined tables gives the rows of the relational joins. -/
theorem C109_from_partial (f : From) (hf : f.Fine w) : ∃ b, planFrom f = some b ∧ Runs w b (f.rows w) .done := by
  obtain ⟨b, h1, _, h3, _⟩ := from_plan (known := fun _ => true) f hf fun _ _ => rfl
  exact ⟨b, h1, (runs_iff).2 h3⟩

/-- A SELECT without aggregates from joined tables, ordered by columns of its answer or not at all, is planned, accepted by the optimizer and runs to the end, and what it gives is
an answer in the sense of SQL over the rows of the joins. -/
theorem C109_select_partial (hfa : Faithful w ix) (f : From) (hf : f.Fine w) (hk : ∀ T ∈ f.tables, known T.oid = true) (h : Plain (f.rows w) f.scope q keep sel)
    (hw : ∀ e, q.where_ = some e → ∀ n ∈ e.cols, Clear f.schema n) (hi : ∀ n ∈ namesOf q.items, Clear f.schema n)
    (ho : ∀ k ∈ q.orderBy, Known (outCols f.scope q.items) k.1 ∧ ∀ n ∈ k.1.cols, Clear (outCols f.schema q.items) n)
    (hv : ∀ r ∈ f.rows w, keep r = true → KeysHave (outCols f.scope q.items) q.orderBy (sel r)) :
    ∃ p p' out, planSelect f [] q = some p ∧ optimize ix isConst known p = some p' ∧ Runs w p' out .done ∧
      AnswerByOutput f.scope q ((f.rows w).filter keep) sel out := by
  obtain ⟨b, h1, h2, h3, _⟩ := from_plan f hf hk
  obtain ⟨p, p', out, g1, g2⟩ := select_on (isConst := isConst) hfa h2 h3 h (fun k hk => (ho k hk).1) hv
  refine ⟨p, p', out, ?_, g2⟩
  simp only [planSelect, planComma, h1, Option.bind_eq_bind, Option.bind_some, List.foldlM_nil, pure]
  rw [planOn_coarse (coarse_from f) h hw hi (.inl ho), g1]

/-- The same when an ORDER BY key is not a column of the answer: the joined rows are ordered first. -/
theorem C109_order_by_input_partial (hfa : Faithful w ix) (f : From) (hf : f.Fine w) (hk : ∀ T ∈ f.tables, known T.oid = true) (h : Plain (f.rows w) f.scope q keep sel)
    (hw : ∀ e, q.where_ = some e → ∀ n ∈ e.cols, Clear f.schema n) (hi : ∀ n ∈ namesOf q.items, Clear f.schema n)
    (hn : ∃ k ∈ q.orderBy, ∃ n ∈ k.1.cols, matching (outCols f.scope q.items) n = [] ∧ matching (outCols f.schema q.items) n = [])
    (ho : ∀ k ∈ q.orderBy, Known f.scope k.1 ∧ ∀ n ∈ k.1.cols, Clear f.schema n) (hv : ∀ r ∈ f.rows w, keep r = true → KeysHave f.scope q.orderBy r) :
    ∃ p p' out, planSelect f [] q = some p ∧ optimize ix isConst known p = some p' ∧ Runs w p' out .done ∧
      AnswerByInput f.scope q ((f.rows w).filter keep) sel out := by
  obtain ⟨b, h1, h2, h3, _⟩ := from_plan f hf hk
  obtain ⟨k, hk1, n, hn1, hn2, hn3⟩ := hn
  obtain ⟨p, p', out, g1, g2⟩ := order_by_input_on (isConst := isConst) hfa h2 h3 h ⟨k, hk1, n, hn1, hn2⟩ (fun k hk => (ho k hk).1) hv
  refine ⟨p, p', out, ?_, g2⟩
  simp only [planSelect, planComma, h1, Option.bind_eq_bind, Option.bind_some, List.foldlM_nil, pure]
  rw [planOn_coarse (coarse_from f) h hw hi (.inr ⟨⟨k, hk1, n, hn1, hn2⟩, ⟨k, hk1, n, hn1, hn3⟩, ho⟩), g1]

theorem finds_coarse {s s' : Schema} (hc : Coarse s s') {n : Name} (h : Refers s n) (hn : Clear s' n) : Finds s' s n := by
  have hm := refers_column h
  refine ⟨resolve_coarse hc hm hn, ?_⟩
  obtain ⟨c, h1, h2⟩ := mem_matching.1 (by rw [hm]; exact List.mem_singleton_self _ : theColumn s n ∈ matching s n)
  have hi := (List.getElem?_eq_some_iff.1 h1).1
  have h3 : s'[theColumn s n]? = some (s'[theColumn s n]'(by have := hc.1; omega)) := List.getElem?_eq_getElem _
  refine ⟨_, h3, ?_⟩
  rcases hc.2 _ _ _ h1 h3 with he | he <;> rw [he]
  · exact h2
  · exact ⟨h2.1, .inr (.inl rfl)⟩

/-- GROUP BY over joined tables, by qualified or unqualified names. Missing: as in `Grouped`, two GROUP BY columns with the same name in different tables, see `C109_group_by_fails`. -/
theorem C109_group_by_partial (hfa : Faithful w ix) (f : From) (hf : f.Fine w) (hk : ∀ T ∈ f.tables, known T.oid = true)
    (hd : ∀ l, (w.drain l).Perm l) {gs : List Name} {fs : List (Fn × Name)} (h : Grouped f.scope q gs fs) (hi : ∀ n ∈ namesOf q.items, Clear f.schema n)
    (hw : match q.where_ with
      | none => ∀ r ∈ f.rows w, keep r = true
      | some e => (∀ n ∈ e.cols, Clear f.schema n) ∧ Known f.scope e ∧ ∀ r ∈ f.rows w, Settled f.scope r e ∧ (keep r = true ↔ IsTrue f.scope r e))
    {typ : Expr → Nat} {num : Expr → Row → Option Int}
    (hfine : ∀ a ∈ fs, ∀ k, Fine typ num (sqlAgg a.1 (.col 0 (theColumn f.scope a.2))) (rowsOf (keyOf f.scope gs) ((f.rows w).filter keep) k))
    (hsum : gs = [] → (f.rows w).filter keep = [] → ∀ a ∈ fs, a.1 ≠ .sum) (ho : ∀ k ∈ q.orderBy, Known (groupCols gs fs) k.1)
    (hv : ∀ k ∈ keysOf f.scope gs ((f.rows w).filter keep), ∀ vals : List Value, vals.length = fs.length → (∀ (i : Nat) a v, fs[i]? = some a → vals[i]? = some v →
      Meets typ num (sqlAgg a.1 (.col 0 (theColumn f.scope a.2))) (rowsOf (keyOf f.scope gs) ((f.rows w).filter keep) k) v) → KeysHave (groupCols gs fs) q.orderBy (k ++ vals)) :
    ∃ p p' out, planSelect f [] q = some p ∧ optimize ix isConst known p = some p' ∧ Runs w p' out .done ∧
      AnswerGrouped f.scope q gs fs typ num ((f.rows w).filter keep) out := by
  have hc := coarse_from f
  obtain ⟨b, h1, h2, h3, h4⟩ := from_plan f hf hk
  have hcl : (∀ n ∈ gs, Clear f.schema n) ∧ ∀ a ∈ fs, Clear f.schema a.2 := by
    rw [h.items] at hi
    have n1 : ∀ gs : List Name, ∀ rest, namesOf (gs.map (fun n => Item.expr (.column n) none) ++ rest) = gs ++ namesOf rest := fun gs rest => by
      induction gs with
      | nil => rfl
      | cons n ns ih => simp [namesOf, ih]
    have n2 : ∀ fs : List (Fn × Name), namesOf (fs.map fun a => Item.expr (.agg a.1 a.2) none) = fs.map (·.2) := fun fs => by
      induction fs with
      | nil => rfl
      | cons a as ih => simp [namesOf, ih]
    rw [n1, n2] at hi
    exact ⟨fun n hn => hi n (List.mem_append_left _ hn), fun a ha => hi _ (List.mem_append_right _ (List.mem_map_of_mem ha))⟩
  have hwh : planWhere f.schema b q = planWhere f.scope b q := by
    unfold planWhere
    cases hq : q.where_ with
    | none => rfl
    | some e =>
      rw [hq] at hw
      simp only [parse_coarse hc hw.2.1 hw.1]
  obtain ⟨p, p', out, g1, g2, g3⟩ := group_by_on (isConst := isConst) (s' := f.schema) hfa h2 h3 hd h
    ⟨fun n hn => finds_coarse hc (h.columns n hn) (hcl.1 n hn), fun a ha => finds_coarse hc (h.args a ha) (hcl.2 a ha)⟩ hwh h4 (keep := keep) (typ := typ) (num := num) (by
      cases hq : q.where_ with
      | none => rw [hq] at hw; exact hw
      | some e => rw [hq] at hw; exact hw.2) hfine hsum ho hv
  refine ⟨p, p', out, ?_, g2, g3⟩
  simp only [planSelect, planComma, h1, Option.bind_eq_bind, Option.bind_some, List.foldlM_nil, pure]
  exact g1

end

end Verif.Plan

import Verif.Plan.SelectSpec
import Verif.Plan.OptProps
import Verif.Exec.AggProps

/-!
# C73: a SELECT computes what SQL says it means

From the statement over names, through the planner, the optimizer and the executors, to the rows.
-/

namespace Verif.Plan

open Verif.Wire Verif.Bytes Verif.Sql Verif.Exec

/-! ## Names -/

theorem mem_matching {s : Schema} {n : Name} {i : Nat} : i ∈ matching s n ↔ ∃ c, s[i]? = some c ∧ Denotes n c := by
  simp only [matching, List.mem_filter, List.mem_range]
  constructor
  · rintro ⟨hi, h⟩
    rw [List.getElem?_eq_getElem hi] at h ⊢
    exact ⟨_, rfl, by simpa using h⟩
  · rintro ⟨c, hc, hd⟩
    exact ⟨(List.getElem?_eq_some_iff.1 hc).1, by simp [hc, hd]⟩

theorem findIdx_only {s : Schema} {P : Name → Bool} {i : Nat} {c : Name} (hc : s[i]? = some c) (hp : P c = true) (hu : ∀ j d, s[j]? = some d → P d = true → j = i) :
    s.findIdx? P = some i := by
  rw [List.findIdx?_eq_some_iff_getElem]
  obtain ⟨hi, he⟩ := List.getElem?_eq_some_iff.1 hc
  refine ⟨hi, by rw [he]; exact hp, fun j hj h => ?_⟩
  have := hu j s[j] (List.getElem?_eq_getElem (by omega)) h
  omega

theorem findIdx_none {s : Schema} {P : Name → Bool} (h : ∀ (j : Nat) d, s[j]? = some d → P d = false) : s.findIdx? P = none := by
  rw [List.findIdx?_eq_none_iff]
  intro x hx
  obtain ⟨j, hj⟩ := List.mem_iff_getElem?.1 hx
  exact h j x hj

theorem resolve_refers {s : Schema} {n : Name} {i : Nat} (h : matching s n = [i]) : resolve s n = some i ∧ i < s.length := by
  obtain ⟨c, hc, hd⟩ := mem_matching.1 (by rw [h]; exact List.mem_singleton_self i : i ∈ matching s n)
  have hu : ∀ j d, s[j]? = some d → Denotes n d → j = i := fun j d hj hd => by
    have := mem_matching.2 ⟨d, hj, hd⟩
    rwa [h, List.mem_singleton] at this
  refine ⟨?_, (List.getElem?_eq_some_iff.1 hc).1⟩
  unfold resolve
  by_cases hn : c = n
  · subst hn
    have : index s c = some i := findIdx_only hc (by simp) fun j d hj hd => hu j d hj (by simp at hd; subst hd; exact ⟨rfl, .inr (.inr rfl)⟩)
    rw [this]
  · have h0 : index s n = none := by
      refine findIdx_none fun j d hj => ?_
      cases hb : d == n with
      | false => rfl
      | true =>
        simp at hb
        subst hb
        have := hu j d hj ⟨rfl, .inr (.inr rfl)⟩
        subst this
        rw [hj] at hc
        cases hc
        exact (hn rfl).elim
    rw [h0]
    obtain ⟨h1, h2⟩ := hd
    cases hnt : n.tbl with
    | some t =>
      have hct : c.tbl = none := by
        rcases h2 with h | h | h
        · rw [hnt] at h; cases h
        · exact h
        · refine (hn ?_).elim
          cases c; cases n
          simp_all
      have hce : c = ⟨none, n.col⟩ := by cases c; simp_all
      exact findIdx_only hc (by simp [hce]) fun j d hj hd => hu j d hj (by simp at hd; subst hd; exact ⟨rfl, .inr (.inl rfl)⟩)
    | none =>
      have hct : c.tbl.isSome = true := by
        cases hct : c.tbl with
        | some _ => rfl
        | none =>
          refine (hn ?_).elim
          cases c; cases n
          simp_all
      exact findIdx_only hc (by simp [hct, h1]) fun j d hj hd => hu j d hj (by simp at hd; exact ⟨hd.2.symm, .inl hnt⟩)

theorem resolve_some {s : Schema} {n : Name} {i : Nat} (h : resolve s n = some i) : i ∈ matching s n := by
  rw [mem_matching]
  have key : ∀ {P : Name → Bool}, s.findIdx? P = some i → ∃ c, s[i]? = some c ∧ P c = true := fun h => by
    rw [List.findIdx?_eq_some_iff_getElem] at h
    obtain ⟨hi, hp, _⟩ := h
    exact ⟨_, List.getElem?_eq_getElem hi, hp⟩
  unfold resolve at h
  split at h
  · rename_i j hj
    cases h
    obtain ⟨c, hc, hp⟩ := key hj
    simp at hp
    subst hp
    exact ⟨c, hc, rfl, .inr (.inr rfl)⟩
  · split at h
    · obtain ⟨c, hc, hp⟩ := key h
      simp at hp
      subst hp
      exact ⟨_, hc, rfl, .inr (.inl rfl)⟩
    · rename_i hn
      obtain ⟨c, hc, hp⟩ := key h
      simp at hp
      exact ⟨c, hc, hp.2.symm, .inl hn⟩

/-! ## Expressions -/

section
variable {ρ ρ' : Env} {f : Nat → Nat}

mutual
theorem eval_renumber (h : ∀ side i, ρ' side i = ρ 0 (f i)) : ∀ e : Expr, eval false ρ (renumber f e) = eval false ρ' e
  | .col side i => by simp only [renumber, eval, h]
  | .lit v => by simp only [renumber, eval]
  | .arith op a b => by simp only [renumber, eval, eval_renumber h a, eval_renumber h b]
  | .modulo a b => by simp only [renumber, eval, eval_renumber h a, eval_renumber h b, Bool.false_eq_true, if_false]
  | .concat a b => by simp only [renumber, eval, eval_renumber h a, eval_renumber h b, Bool.false_eq_true, if_false]
  | .cmp op a b => by simp only [renumber, eval, eval_renumber h a, eval_renumber h b]
  | .and a b => by simp only [renumber, eval, eval_renumber h a, eval_renumber h b]
  | .or a b => by simp only [renumber, eval, eval_renumber h a, eval_renumber h b]
  | .not a => by simp only [renumber, eval, eval_renumber h a]
  | .neg a => by simp only [renumber, eval, eval_renumber h a]
  | .is c n a => by simp only [renumber, eval, eval_renumber h a]
  | .distinct n a b => by simp only [renumber, eval, eval_renumber h a, eval_renumber h b]
  | .between n a l u => by simp only [renumber, eval, eval_renumber h a, eval_renumber h l, eval_renumber h u]
  | .coalesce es => by simp only [renumber, eval, eval_renumbers h es]
  | .caseWhen arms => by simp only [renumber, eval, eval_renumberArms h _ arms]
  | .caseOf b arms => by simp only [renumber, eval, eval_renumber h b, eval_renumberArms h _ arms]
  | .inList n a l => by simp only [renumber, eval, eval_renumber h a, eval_renumber h l]
  | .any op a l => by simp only [renumber, eval, eval_renumber h a, eval_renumber h l]
  | .all op a l => by simp only [renumber, eval, eval_renumber h a, eval_renumber h l]
  | .array es => by simp only [renumber, eval, eval_renumberArray h _ es]
theorem eval_renumbers (h : ∀ side i, ρ' side i = ρ 0 (f i)) : ∀ es : Exprs, evalCoalesce false ρ (renumbers f es) = evalCoalesce false ρ' es
  | .nil => by simp only [renumbers, evalCoalesce]
  | .cons e es => by simp only [renumbers, evalCoalesce, eval_renumber h e, eval_renumbers h es]
theorem eval_renumberArray (h : ∀ side i, ρ' side i = ρ 0 (f i)) : ∀ (acc : List Value) (es : Exprs), evalArray false ρ acc (renumbers f es) = evalArray false ρ' acc es
  | acc, .nil => by simp only [renumbers, evalArray]
  | acc, .cons e es => by simp only [renumbers, evalArray, eval_renumber h e, eval_renumberArray h _ es]
theorem eval_renumberArms (h : ∀ side i, ρ' side i = ρ 0 (f i)) : ∀ (b : Option Value) (arms : Arms), evalArms false ρ b (renumberArms f arms) = evalArms false ρ' b arms
  | b, .els e => by simp only [renumberArms, evalArms, eval_renumber h e]
  | b, .when c t rest => by simp only [renumberArms, evalArms, eval_renumber h c, eval_renumber h t, eval_renumberArms h b rest]
end
end

theorem mapM_known {s : Schema} {row : Row} (hl : row.length = s.length) {ns : List Name} (h : ∀ n ∈ ns, Refers s n) :
    ∃ is vals, ns.mapM (resolve s) = some is ∧ ns.mapM (cell s row) = some vals ∧ ∀ (k : Nat), vals[k]? = row[is.getD k s.length]? := by
  induction ns with
  | nil =>
    refine ⟨[], [], rfl, rfl, fun k => ?_⟩
    simp [hl]
  | cons n ns ih =>
    obtain ⟨i, hi⟩ := h n List.mem_cons_self
    obtain ⟨is, vals, h1, h2, h3⟩ := ih fun m hm => h m (List.mem_cons_of_mem _ hm)
    obtain ⟨hr, hlt⟩ := resolve_refers hi
    have hv : row[i]? = some row[i] := List.getElem?_eq_getElem (by omega)
    refine ⟨i :: is, row[i] :: vals, ?_, ?_, fun k => ?_⟩
    · simp [List.mapM_cons, hr, h1]
    · simp [List.mapM_cons, cell, hi, hv, h2]
    · cases k with
      | zero => simp [hv]
      | succ k => simpa using h3 k

theorem mapM_resolve {s : Schema} {ns : List Name} (h : ∀ n ∈ ns, Refers s n) : ∃ is, ns.mapM (resolve s) = some is := by
  induction ns with
  | nil => exact ⟨[], rfl⟩
  | cons n ns ih =>
    obtain ⟨i, hi⟩ := h n List.mem_cons_self
    obtain ⟨is, h1⟩ := ih fun m hm => h m (List.mem_cons_of_mem _ hm)
    exact ⟨i :: is, by simp [List.mapM_cons, (resolve_refers hi).1, h1]⟩

/-- Parsing finds the columns that are meant: the parsed expression has, on every row, the value of the expression over the named columns. -/
theorem parse_value {s : Schema} {e : NExpr} (h : Known s e) : ∃ x, parse s e = some x ∧ ∀ row : Row, row.length = s.length → eval false (rowEnv row) x = valueOf s row e := by
  obtain ⟨is, hi⟩ := mapM_resolve h
  refine ⟨_, by simp only [parse, hi, Option.map_some]; rfl, fun row hl => ?_⟩
  obtain ⟨is', vals, h1, h2, h3⟩ := mapM_known hl h
  rw [hi] at h1
  cases h1
  simp only [valueOf, h2]
  exact eval_renumber (fun _ k => h3 k) e.body

theorem column_value {s : Schema} {n : Name} {row : Row} {v : Value} (h : cell s row n = some v) : valueOf s row (.column n) = .ok v := by
  simp [valueOf, NExpr.column, List.mapM_cons, h, eval, rowEnv]

/-! ## The parts of the statement -/

section
variable {s : Schema} {q : Select}

theorem range_project {ρ : Row} {n : Nat} (h : ρ.length = n) {es : List Expr} : Exec.project (rowEnv ρ) ((List.range n).map (.col 0 ·) ++ es) =
    (Exec.project (rowEnv ρ) es).map (ρ ++ ·) := by
  have key : ∀ (pre : Row) (suf : Row), ρ = pre ++ suf → Exec.project (rowEnv ρ) ((List.range' pre.length suf.length).map (.col 0 ·) ++ es) =
      (Exec.project (rowEnv ρ) es).map (suf ++ ·) := by
    intro pre suf
    induction suf generalizing pre with
    | nil =>
      intro _
      simp only [List.length_nil, List.range'_zero, List.map_nil, List.nil_append]
      cases Exec.project (rowEnv ρ) es <;> rfl
    | cons v vs ih =>
      intro hs
      have := ih (pre ++ [v]) (by rw [hs]; simp)
      rw [List.length_append, List.length_singleton] at this
      have hv : ρ[pre.length]? = some v := by rw [hs]; simp
      simp only [List.length_cons, List.range'_succ, List.map_cons, List.cons_append, Exec.project, eval, rowEnv, hv, this]
      cases Exec.project (rowEnv ρ) es <;> rfl
  have := key [] ρ rfl
  rw [List.length_nil, h, ← List.range_eq_range'] at this
  exact this

theorem projection_value {items : List Item} (h : ItemsKnown s items) : ∃ es, projection s s items = some (es, outCols s items) ∧
    ∀ row : Row, row.length = s.length → ∀ r, selected s row items = some r → Exec.project (rowEnv row) es = .ok r := by
  induction items with
  | nil => exact ⟨[], rfl, fun row _ r hr => by cases hr; rfl⟩
  | cons it rest ih =>
    match it, h with
    | .star, h =>
      obtain ⟨es, he, hv⟩ := ih h
      refine ⟨_, by simp only [projection, he, Option.map_some]; rfl, fun row hl r hr => ?_⟩
      simp only [selected, Option.map_eq_some_iff] at hr
      obtain ⟨r', h1, rfl⟩ := hr
      rw [range_project hl, hv row hl r' h1]
      rfl
    | .expr (.column n) a, h =>
      obtain ⟨es, he, hv⟩ := ih h.2
      have hk : Known s (.column n) := fun m hm => by
        simp [NExpr.column] at hm
        subst hm
        exact h.1
      obtain ⟨x, hx, hxv⟩ := parse_value hk
      refine ⟨x :: es, ?_, fun row hl r hr => ?_⟩
      · simp only [projection, parseS, hx, he]
        cases a <;> rfl
      · simp only [selected, Option.bind_eq_bind, Option.bind_eq_some_iff, Option.some.injEq] at hr
        obtain ⟨v, h1, r', h2, rfl⟩ := hr
        simp only [Exec.project, hxv row hl, column_value h1, hv row hl r' h2]
        rfl
    | .expr (.scalar e text) a, h =>
      obtain ⟨es, he, hv⟩ := ih h.2
      obtain ⟨x, hx, hxv⟩ := parse_value h.1
      refine ⟨x :: es, ?_, fun row hl r hr => ?_⟩
      · simp only [projection, parseS, hx, he]
        cases a <;> rfl
      · simp only [selected] at hr
        split at hr
        · rename_i v h1
          simp only [Option.map_eq_some_iff] at hr
          obtain ⟨r', h2, rfl⟩ := hr
          simp only [Exec.project, hxv row hl, h1, hv row hl r' h2]
          rfl
        · cases hr
    | .expr (.agg f n) a, h => exact h.elim

theorem known_aggs {items : List Item} (h : ItemsKnown s items) : aggsOf items = [] := by
  induction items with
  | nil => rfl
  | cons it rest ih =>
    match it, h with
    | .star, h => exact ih h
    | .expr (.column n) a, h => exact ih h.2
    | .expr (.scalar e text) a, h => exact ih h.2
    | .expr (.agg f n) a, h => exact h.elim

theorem keys_parse {keys : List (NExpr × Dir)} (h : ∀ k ∈ keys, Known s k.1) : ∃ specs : Specs, keys.mapM (fun k => (parse s k.1).map fun e => (e, k.2)) = some specs ∧
    ∀ a b : Row, a.length = s.length → b.length = s.length → (KeysHave s keys a → KeysOk specs a) ∧ (Ordered specs a b → Before s keys a b) := by
  induction keys with
  | nil => exact ⟨[], rfl, fun a b _ _ => ⟨fun _ => nofun, fun _ => trivial⟩⟩
  | cons k ks ih =>
    obtain ⟨specs, hs, hv⟩ := ih fun k' hk => h k' (List.mem_cons_of_mem _ hk)
    obtain ⟨x, hx, hxv⟩ := parse_value (h k List.mem_cons_self)
    refine ⟨(x, k.2) :: specs, by simp [List.mapM_cons, hx, hs], fun a b ha hb => ⟨fun hk t ht => ?_, fun ho => ?_⟩⟩
    · rcases List.mem_cons.1 ht with rfl | ht
      · obtain ⟨v, h1, h2⟩ := hk k List.mem_cons_self
        exact ⟨v, by rw [hxv a ha]; exact h1, h2⟩
      · exact (hv a b ha hb).1 (fun k' hk' => hk k' (List.mem_cons_of_mem _ hk')) t ht
    · obtain ⟨y, z, h1, h2, h3⟩ := ho
      rw [hxv a ha] at h1
      rw [hxv b hb] at h2
      exact ⟨y, z, h1, h2, h3.imp id (Or.imp id (And.imp id (hv a b ha hb).2))⟩

theorem keys_unknown {keys : List (NExpr × Dir)} {out : Schema} (h : ∃ k ∈ keys, ∃ n ∈ k.1.cols, matching out n = []) :
    keys.mapM (fun k => (parse out k.1).map fun e => (e, k.2)) = none := by
  obtain ⟨k, hk, n, hn, hm⟩ := h
  have h1 : parse out k.1 = none := by
    have : k.1.cols.mapM (resolve out) = none := by
      revert hn
      induction k.1.cols with
      | nil => nofun
      | cons c cs ih =>
        intro hn
        rw [List.mapM_cons]
        rcases List.mem_cons.1 hn with rfl | hn
        · cases hr : resolve out n with
          | none => rfl
          | some i =>
            have := resolve_some hr
            rw [hm] at this
            cases this
        · cases resolve out c with
          | none => rfl
          | some i => simp [ih hn]
    simp [parse, this]
  induction keys with
  | nil => cases hk
  | cons k' ks ih =>
    rw [List.mapM_cons]
    rcases List.mem_cons.1 hk with rfl | hk
    · simp [h1]
    · cases parse out k'.1 with
      | none => rfl
      | some x => simp [ih hk]

/-! ## The denotations of the parts -/

theorem filterD_keep {p : Expr} {rows : List Row} {keep : Row → Bool} (h : ∀ r ∈ rows, whereKeeps p r = some (keep r)) : filterD p .done rows = (rows.filter keep, .done) := by
  induction rows with
  | nil => rfl
  | cons a as ih =>
    have ih := ih fun r hr => h r (List.mem_cons_of_mem _ hr)
    have ha := h a List.mem_cons_self
    simp only [filterD, ha, ih, List.filter_cons]
    cases keep a <;> rfl

theorem projectD_sel {es : List Expr} {rows : List Row} {sel : Row → Row} (h : ∀ r ∈ rows, Exec.project (rowEnv r) es = .ok (sel r)) :
    projectD es .done rows = (rows.map sel, .done) := by
  induction rows with
  | nil => rfl
  | cons a as ih =>
    have ih := ih fun r hr => h r (List.mem_cons_of_mem _ hr)
    simp only [projectD, h a List.mem_cons_self, ih]
    rfl

theorem distinctD_firsts {debug : Value → List Byte} {rows : List Row} {ks : List Exec.Kind} (h : ∀ r ∈ rows, HasShape ks r) : distinctD debug .done [] rows = (firsts [] rows, .done) := by
  have h1 := C42_distinct_partial (debug := debug) (source_yields rows) ks h
  have h2 := distinct_den (debug := debug) (source_yields rows) []
  obtain ⟨h3, h4⟩ := C40_deterministic h2 h1
  exact Prod.ext h3 h4

theorem page_den {w : World} {p : Plan} {rows : List Row} (h : den w p = (rows, .done)) : den w (withLimit q p) = (q.page rows, .done) := by
  unfold withLimit Select.page
  cases q.offset <;> cases q.limit <;> simp [den, h]

theorem where_den {w : World} {base : Plan} {rows : List Row} (hb : den w base = (rows, .done)) {keep : Row → Bool} (hl : ∀ r ∈ rows, r.length = s.length)
    (hw : match q.where_ with
      | none => ∀ r ∈ rows, keep r = true
      | some e => Known s e ∧ ∀ r ∈ rows, Settled s r e ∧ (keep r = true ↔ IsTrue s r e)) :
    ∃ p, planWhere s base q = some p ∧ den w p = (rows.filter keep, .done) ∧ (p = base ∨ ∃ x, p = .filter x base) := by
  unfold planWhere
  cases hq : q.where_ with
  | none =>
    simp only [hq] at hw
    refine ⟨_, rfl, ?_, .inl rfl⟩
    rw [hb, List.filter_eq_self.2 hw]
  | some e =>
    simp only [hq] at hw
    obtain ⟨x, hx, hv⟩ := parse_value hw.1
    refine ⟨_, by simp only [hx, Option.map_some], ?_, .inr ⟨x, rfl⟩⟩
    rw [den, hb]
    refine filterD_keep fun r hr => ?_
    obtain ⟨h0, h3⟩ := hw.2 r hr
    rcases h0 with ⟨v, u, h1, h2⟩ | h1
    · have : keep r = asBool v := by
        rw [asBool_truth h2, Bool.eq_iff_iff, h3, decide_eq_true_iff]
        constructor
        · rintro ⟨v', h1', h2'⟩
          rw [h1] at h1'
          cases h1'
          rw [h2] at h2'
          cases h2'
          rfl
        · rintro rfl
          exact ⟨v, h1, h2⟩
      simp only [whereKeeps, hv r (hl r hr), h1, this]
    · have : keep r = false := by
        rw [Bool.eq_false_iff, Ne, h3]
        rintro ⟨v, h2, _⟩
        rw [h1] at h2
        cases h2
      simp only [whereKeeps, hv r (hl r hr), h1, this]

end

/-! ## The theorems -/

section
variable {w : World} {ix : Nat → Option Nat} {isConst : Expr → Bool} {known : Nat → Bool} {s : Schema} {t : Nat} {q : Select} {base : Plan} {rows : List Row}

/-- What is asked of the statement and the table: no aggregates; every name stands for exactly one column; the rows are as long as the schema; WHERE has a truth value
or is an error on every row, the SELECT list has a value on the rows on which WHERE is TRUE. `keep` says on which rows WHERE is TRUE, `sel` is the SELECT list. -/
structure Plain (rows : List Row) (s : Schema) (q : Select) (keep : Row → Bool) (sel : Row → Row) : Prop where
  items : ItemsKnown s q.items
  some_item : q.items ≠ []
  some_column : s ≠ []
  no_group : q.groupBy = []
  no_having : q.having = none
  width : ∀ r ∈ rows, r.length = s.length
  where_ : match q.where_ with
    | none => ∀ r ∈ rows, keep r = true
    | some e => Known s e ∧ ∀ r ∈ rows, Settled s r e ∧ (keep r = true ↔ IsTrue s r e)
  values : ∀ r ∈ rows, keep r = true → selected s r q.items = some (sel r)
  shape : q.distinct = true → ∃ ks, ∀ r ∈ rows, keep r = true → HasShape ks (sel r)

theorem projection_ne {items : List Item} {es : List Expr} {o : Schema} (h : projection s s items = some (es, o)) (hi : items ≠ []) (hs : s ≠ []) : es ≠ [] := by
  cases items with
  | nil => exact (hi rfl).elim
  | cons it rest =>
    cases it with
    | star =>
      simp only [projection, Option.map_eq_some_iff, Prod.mk.injEq] at h
      obtain ⟨r, _, h2, _⟩ := h
      subst h2
      cases s with
      | nil => exact (hs rfl).elim
      | cons => simp [List.range_succ_eq_map]
    | expr e a =>
      simp only [projection, Option.bind_eq_bind, Option.bind_eq_some_iff, Option.some.injEq, Prod.mk.injEq] at h
      obtain ⟨x, _, r, _, h2, _⟩ := h
      subst h2
      simp

theorem body_plan {keep : Row → Bool} {sel : Row → Row} (h : Plain rows s q keep sel) {before : Plan}
    (hd : den w before = (rows.filter keep, .done)) :
    ∃ es, projection s s q.items = some (es, outCols s q.items) ∧ es ≠ [] ∧ planBody s q before = some (.project es before, outCols s q.items) ∧
      (∀ r ∈ rows, keep r = true → Exec.project (rowEnv r) es = .ok (sel r)) ∧ den w (.project es before) = ((rows.filter keep).map sel, .done) := by
  obtain ⟨es, he, hv⟩ := projection_value h.items
  have hv' : ∀ r ∈ rows, keep r = true → Exec.project (rowEnv r) es = .ok (sel r) := fun r hr hk => hv r (h.width r hr) _ (h.values r hr hk)
  refine ⟨es, he, projection_ne he h.some_item h.some_column, ?_, hv', ?_⟩
  · simp [planBody, h.no_group, known_aggs h.items, he, h.no_having]
  · simp only [den, hd]
    exact projectD_sel fun r hr => hv' r (List.mem_filter.1 hr).1 (List.mem_filter.1 hr).2

theorem selected_width {items : List Item} {row r : Row} (hl : row.length = s.length) (hi : ItemsKnown s items) (h : selected s row items = some r) :
    r.length = (outCols s items).length := by
  induction items generalizing r with
  | nil => cases h; rfl
  | cons it rest ih =>
    match it, hi with
    | .star, hi =>
      simp only [selected, Option.map_eq_some_iff] at h
      obtain ⟨r', h1, rfl⟩ := h
      simp [outCols, ih hi h1, hl]
    | .expr (.column n) a, hi =>
      simp only [selected, Option.bind_eq_bind, Option.bind_eq_some_iff, Option.some.injEq] at h
      obtain ⟨v, h1, r', h2, rfl⟩ := h
      cases a <;> simp [outCols, ih hi.2 h2]
    | .expr (.scalar e text) a, hi =>
      simp only [selected] at h
      split at h
      · simp only [Option.map_eq_some_iff] at h
        obtain ⟨r', h2, rfl⟩ := h
        cases a <;> simp [outCols, ih hi.2 h2]
      · cases h
    | .expr (.agg f n) a, hi => exact hi.elim

/-- The plans of a FROM clause: scans of tables that are known, joined on conditions with operands. -/
def FromPlan (known : Nat → Bool) : Plan → Prop
  | .scan t => known t = true
  | .join _ p _ _ l r => noOperands p = false ∧ FromPlan known l ∧ FromPlan known r
  | _ => False

theorem fromPlan_stays (hk : FromPlan known base) : prune isConst (useIndex ix base) = useIndex ix base ∧ rewrite (useIndex ix base) = useIndex ix base ∧
    validate known (useIndex ix base) = true := by
  induction base with
  | scan t =>
    simp only [useIndex]
    cases ix t <;> simp [prune, rewrite, validate]
    exact hk
  | join jt p nl nr l r ihl ihr =>
    obtain ⟨h1, h2, h3⟩ := ihl hk.2.1
    obtain ⟨g1, g2, g3⟩ := ihr hk.2.2
    simp only [useIndex, prune, rewrite, validate, h1, h2, h3, g1, g2, g3, hk.1]
    exact ⟨trivial, trivial, rfl⟩
  | _ => exact hk.elim

theorem fromPlan_safe (hk : FromPlan known base) : Safe w base ∧ NoRename base ∧ (∀ es' c', top base ≠ .project es' c') ∧ chain base = ([], base) := by
  induction base with
  | scan t => exact ⟨trivial, trivial, nofun, rfl⟩
  | join jt p nl nr l r ihl ihr => exact ⟨⟨(ihl hk.2.1).1, (ihr hk.2.2).1⟩, ⟨(ihl hk.2.1).2.1, (ihr hk.2.2).2.1⟩, nofun, rfl⟩
  | _ => exact hk.elim

theorem fromPlan_kind (hk : FromPlan known base) : (∀ x, pushDown x (useIndex ix base) = .filter x (useIndex ix base)) ∧ isProjection (useIndex ix base) = false := by
  match base, hk with
  | .scan t, _ =>
    simp only [useIndex]
    cases ix t <;> exact ⟨fun _ => rfl, rfl⟩
  | .join jt p nl nr l r, _ => exact ⟨fun _ => rfl, rfl⟩

/-- The plan the optimizer makes of a plan of this shape runs, with the same result. -/
theorem optimized (hf : Faithful w ix) (hk : FromPlan known base) {before : Plan} (hb : before = base ∨ ∃ x, before = .filter x base) {es : List Expr}
    {specs : Specs} (p : Plan) (hp : p = withLimit q (.project es (.sort specs before)) ∨ p = withLimit q (.distinct (.project es (.sort specs before))) ∨
      p = withLimit q (.project es before) ∨ p = withLimit q (.distinct (.project es before)) ∨ p = withLimit q (.sort specs (.project es before)) ∨
      p = withLimit q (.sort specs (.distinct (.project es before)))) (hes : es ≠ []) {rows : List Row} (hd : den w p = (rows, .done)) :
    ∃ p', optimize ix isConst known p = some p' ∧ Runs w p' rows .done := by
  obtain ⟨k1, k2, k3⟩ := fromPlan_stays (ix := ix) (isConst := isConst) hk
  obtain ⟨f1, f2, f3, f4⟩ := fromPlan_safe (w := w) hk
  obtain ⟨d1, d2⟩ := fromPlan_kind (ix := ix) hk
  have hbs : Safe w before ∧ NoRename before ∧ (∀ es' c', top before ≠ .project es' c') ∧ validate known (rewrite (prune isConst (useIndex ix before))) = true ∧
      isProjection (prune isConst (useIndex ix before)) = false := by
    rcases hb with rfl | ⟨x, rfl⟩
    · exact ⟨f1, f2, f3, by rw [k1, k2, k3], by rw [k1, d2]⟩
    · refine ⟨⟨f1, fun _ => f2, .inl (by rw [f4])⟩, f2, fun es' c' => ?_, ?_⟩
      · simp only [top]
        split
        · exact f3 es' c'
        · simp
      · simp only [useIndex, prune]
        split
        · exact ⟨by rw [k2, k3], d2⟩
        · simp only [k1, rewrite, d1, validate, k3, isProjection, and_self]
  obtain ⟨h1, h2, h3, h4, hnp⟩ := hbs
  obtain ⟨e, es, rfl⟩ := List.exists_cons_of_ne_nil hes
  have hsafe : Safe w p ∧ NoRename p ∧ validate known (rewrite (prune isConst (useIndex ix p))) = true := by
    unfold withLimit at hp
    rcases hp with rfl | rfl | rfl | rfl | rfl | rfl <;> cases q.offset <;> cases q.limit <;>
      simp_all [Safe, NoRename, useIndex, prune, rewrite, validate, isProjection, top]
  obtain ⟨h5, h6, h7⟩ := hsafe
  have ho : optimize ix isConst known p = some (rewrite (prune isConst (useIndex ix p))) := by simp only [optimize, h7, if_true]
  refine ⟨_, ho, ?_⟩
  rw [C72_same_rows_partial hf h5 ho rows .done, meant_noRename h6, runs_iff]
  exact hd

/-- `C73_select_partial` for any FROM. -/
theorem select_on (hf : Faithful w ix) (hk : FromPlan known base) (hbase : den w base = (rows, .done)) {keep : Row → Bool} {sel : Row → Row} (h : Plain rows s q keep sel)
    (ho : ∀ k ∈ q.orderBy, Known (outCols s q.items) k.1) (hv : ∀ r ∈ rows, keep r = true → KeysHave (outCols s q.items) q.orderBy (sel r)) :
    ∃ p p' out, planOn s base q = some p ∧ optimize ix isConst known p = some p' ∧ Runs w p' out .done ∧ AnswerByOutput s q (rows.filter keep) sel out := by
  obtain ⟨before, hb, hbd, hbs⟩ := where_den hbase h.width h.where_
  obtain ⟨es, he, hne, hpb, hev, hpd⟩ := body_plan h hbd
  have hdist : den w (withDistinct q (.project es before)) = (q.once ((rows.filter keep).map sel), .done) := by
    unfold withDistinct Select.once
    split
    · rename_i hq
      obtain ⟨ks, hks⟩ := h.shape hq
      rw [den, hpd]
      exact distinctD_firsts (ks := ks) fun r hr => by
        obtain ⟨a, ha, rfl⟩ := List.mem_map.1 hr
        exact hks a (List.mem_filter.1 ha).1 (List.mem_filter.1 ha).2
    · exact hpd
  have hmem : ∀ r ∈ q.once ((rows.filter keep).map sel), ∃ a ∈ rows, keep a = true ∧ sel a = r := by
    intro r hr
    have : r ∈ (rows.filter keep).map sel := by
      unfold Select.once at hr
      split at hr
      · exact (C42_firsts _).1.subset hr
      · exact hr
    obtain ⟨a, ha, rfl⟩ := List.mem_map.1 this
    exact ⟨a, (List.mem_filter.1 ha).1, (List.mem_filter.1 ha).2, rfl⟩
  by_cases hq : q.orderBy = []
  · have hp : planOn s base q = some (withLimit q (withDistinct q (.project es before))) := by simp [planOn, hb, hpb, planOrder, hq]
    have hd := page_den (q := q) hdist
    obtain ⟨p', h1, h2⟩ := optimized (q := q) (isConst := isConst) (specs := []) hf hk hbs (withLimit q (withDistinct q (.project es before))) (by
      unfold withDistinct
      split
      · exact .inr (.inr (.inr (.inl rfl)))
      · exact .inr (.inr (.inl rfl))) hne hd
    exact ⟨_, p', _, hp, h1, h2, _, List.Perm.refl _, by rw [hq]; exact List.pairwise_of_forall fun _ _ => trivial, fun _ => rfl, rfl⟩
  · obtain ⟨specs, hs, hsv⟩ := keys_parse ho
    have hp : planOn s base q = some (withLimit q (.sort specs (withDistinct q (.project es before)))) := by simp [planOn, hb, hpb, planOrder, hq, hs]
    have hlen : ∀ r ∈ q.once ((rows.filter keep).map sel), r.length = (outCols s q.items).length := fun r hr => by
      obtain ⟨a, ha, hk', rfl⟩ := hmem r hr
      exact selected_width (h.width a ha) h.items (h.values a ha hk')
    have hks : ∀ r ∈ q.once ((rows.filter keep).map sel), KeysOk specs r := fun r hr => by
      obtain ⟨a, ha, hk', rfl⟩ := hmem r hr
      exact (hsv _ _ (hlen _ hr) (hlen _ hr)).1 (hv a ha hk')
    obtain ⟨g1, g2, _⟩ := good_sort hks
    have hsd : den w (.sort specs (withDistinct q (.project es before))) =
        (stableSort (q.once ((rows.filter keep).map sel)) fun a b => sortCmp specs a b != .gt, .done) := by
      rw [den, hdist]
      rfl
    have hd := page_den (q := q) hsd
    obtain ⟨p', h1, h2⟩ := optimized (q := q) (isConst := isConst) (specs := specs) hf hk hbs (withLimit q (.sort specs (withDistinct q (.project es before)))) (by
      unfold withDistinct
      split
      · exact .inr (.inr (.inr (.inr (.inr rfl))))
      · exact .inr (.inr (.inr (.inr (.inl rfl))))) hne hd
    refine ⟨_, p', _, hp, h1, h2, _, g1, ?_, fun hq' => (hq hq').elim, rfl⟩
    exact g2.imp_of_mem fun ha hb' ho => (hsv _ _ (hlen _ (g1.mem_iff.1 ha)) (hlen _ (g1.mem_iff.1 hb'))).2 ho

/-- `C73_order_by_input_partial` for any FROM. -/
theorem order_by_input_on (hf : Faithful w ix) (hk : FromPlan known base) (hbase : den w base = (rows, .done)) {keep : Row → Bool} {sel : Row → Row} (h : Plain rows s q keep sel)
    (hn : ∃ k ∈ q.orderBy, ∃ n ∈ k.1.cols, matching (outCols s q.items) n = []) (ho : ∀ k ∈ q.orderBy, Known s k.1) (hv : ∀ r ∈ rows, keep r = true → KeysHave s q.orderBy r) :
    ∃ p p' out, planOn s base q = some p ∧ optimize ix isConst known p = some p' ∧ Runs w p' out .done ∧ AnswerByInput s q (rows.filter keep) sel out := by
  obtain ⟨before, hb, hbd, hbs⟩ := where_den hbase h.width h.where_
  obtain ⟨es, he, hne, hpb, hev, hpd⟩ := body_plan h hbd
  obtain ⟨specs, hs, hsv⟩ := keys_parse ho
  have hq : q.orderBy ≠ [] := by
    rintro hq
    obtain ⟨k, hk', _⟩ := hn
    rw [hq] at hk'
    cases hk'
  have hrow : ∀ r ∈ rows.filter keep, r ∈ rows := fun r hr => (List.mem_filter.1 hr).1
  have hks : ∀ r ∈ rows.filter keep, KeysOk specs r := fun r hr => (hsv r r (h.width r (hrow r hr)) (h.width r (hrow r hr))).1 (hv r (hrow r hr) (List.mem_filter.1 hr).2)
  obtain ⟨g1, g2, _⟩ := good_sort hks
  have hmem : ∀ r ∈ stableSort (rows.filter keep) fun a b => sortCmp specs a b != .gt, r ∈ rows := fun r hr => hrow r (g1.mem_iff.1 hr)
  have hp : planOn s base q = some (withLimit q (withDistinct q (.project es (.sort specs before)))) := by
    simp [planOn, hb, hpb, planOrder, hq, keys_unknown hn, hs, he, withDistinct]
  have hprd : den w (.project es (.sort specs before)) = ((stableSort (rows.filter keep) fun a b => sortCmp specs a b != .gt).map sel, .done) := by
    simp only [den, hbd, sortD]
    exact projectD_sel fun r hr => hev r (hmem r hr) (List.mem_filter.1 (g1.mem_iff.1 hr)).2
  have hdist : den w (withDistinct q (.project es (.sort specs before))) =
      (q.once ((stableSort (rows.filter keep) fun a b => sortCmp specs a b != .gt).map sel), .done) := by
    unfold withDistinct Select.once
    split
    · rename_i hq
      obtain ⟨ks, hks⟩ := h.shape hq
      rw [den, hprd]
      exact distinctD_firsts (ks := ks) fun r hr => by
        obtain ⟨a, ha, rfl⟩ := List.mem_map.1 hr
        exact hks a (hmem a ha) (List.mem_filter.1 (g1.mem_iff.1 ha)).2
    · exact hprd
  have hd := page_den (q := q) hdist
  obtain ⟨p', h1, h2⟩ := optimized (q := q) (isConst := isConst) (specs := specs) hf hk hbs (withLimit q (withDistinct q (.project es (.sort specs before)))) (by
    unfold withDistinct
    split
    · exact .inr (.inl rfl)
    · exact .inl rfl) hne hd
  refine ⟨_, p', _, hp, h1, h2, _, g1, ?_, rfl⟩
  exact g2.imp_of_mem fun {a b} ha hb' ho => (hsv a b (h.width a (hmem a ha)) (h.width b (hmem b hb'))).2 ho

/-- A SELECT without aggregates whose ORDER BY keys are columns of its answer (or that has none): it is planned, accepted by the optimizer and runs to the end, and what it gives
is an answer in the sense of SQL: the rows of the table on which WHERE is TRUE, with the SELECT list evaluated on each, each different one once if DISTINCT, ordered by the keys,
and of these the part OFFSET and LIMIT ask for. -/
theorem C73_select_partial (hf : Faithful w ix) (hk : known t = true) {keep : Row → Bool} {sel : Row → Row} (h : Plain (w.rows t) s q keep sel)
    (ho : ∀ k ∈ q.orderBy, Known (outCols s q.items) k.1) (hv : ∀ r ∈ w.rows t, keep r = true → KeysHave (outCols s q.items) q.orderBy (sel r)) :
    ∃ p p' out, plan s t q = some p ∧ optimize ix isConst known p = some p' ∧ Runs w p' out .done ∧ AnswerByOutput s q ((w.rows t).filter keep) sel out :=
  select_on (base := .scan t) hf hk rfl h ho hv

/-- A SELECT without aggregates with an ORDER BY key that is not a column of its answer: all keys are columns of the table, the rows are ordered by them first, and the SELECT
list (and DISTINCT) is applied to the ordered rows. -/
theorem C73_order_by_input_partial (hf : Faithful w ix) (hk : known t = true) {keep : Row → Bool} {sel : Row → Row} (h : Plain (w.rows t) s q keep sel)
    (hn : ∃ k ∈ q.orderBy, ∃ n ∈ k.1.cols, matching (outCols s q.items) n = []) (ho : ∀ k ∈ q.orderBy, Known s k.1) (hv : ∀ r ∈ w.rows t, keep r = true → KeysHave s q.orderBy r) :
    ∃ p p' out, plan s t q = some p ∧ optimize ix isConst known p = some p' ∧ Runs w p' out .done ∧ AnswerByInput s q ((w.rows t).filter keep) sel out :=
  order_by_input_on (base := .scan t) hf hk rfl h hn ho hv

end

end Verif.Plan

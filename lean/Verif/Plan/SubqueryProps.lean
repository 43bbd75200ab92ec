import Verif.Plan.Subquery
import Verif.Plan.FromFails

/-!
# Subqueries (C110)
-/

namespace Verif.Plan

open Verif.Wire Verif.Bytes Verif.Sql Verif.Exec

/-! ## What a subquery means -/

/-- The rows of a subquery over one table: those on which its WHERE is TRUE. `EXISTS` asks whether there are any, `x IN` whether one has a value equal to `x`. -/
def subRows (w : World) (t : Nat) (s : Schema) (where_ : Option NExpr) : List Row :=
  (w.rows t).filter fun r => match where_ with | some p => isTrue s r p | none => true

/-! ## The rows -/

/-- The row is kept. -/
def kept (f : Row → Res) (r : Row) : Bool := match f r with | .ok v => asBool v | _ => false

theorem keepWhere_yields (f : Row → Res) (rows : List Row) (h : ∀ r ∈ rows, f r ≠ .overflow) : Yields (keepWhere f source) rows (rows.filter (kept f)) .done := by
  induction rows with
  | nil => exact .stop rfl
  | cons r rs ih =>
    have ih := ih fun x hx => h x (List.mem_cons_of_mem _ hx)
    have hr := h r List.mem_cons_self
    cases hf : f r with
    | ok v =>
      cases hb : asBool v with
      | true =>
        rw [List.filter_cons_of_pos (by simp [kept, hf, hb])]
        exact .emit (by simp [keepWhere, source, hf, hb]) ih
      | false =>
        rw [List.filter_cons_of_neg (by simp [kept, hf, hb])]
        exact .cont (by simp [keepWhere, source, hf, hb]) ih
    | err =>
      rw [List.filter_cons_of_neg (by simp [kept, hf])]
      exact .cont (by simp [keepWhere, source, hf]) ih
    | overflow => exact (hr hf).elim
    | out =>
      rw [List.filter_cons_of_neg (by simp [kept, hf])]
      exact .cont (by simp [keepWhere, source, hf]) ih

theorem boolAs (b : Bool) : asBool (new (.boolean b)) = b := rfl

theorem evalSub_list {row : Row} {e : Expr} {v : Value} (h : eval false (rowEnv row) e = .ok v) :
    ∃ vs, evalSub row (.list e) = .ok (match val v with | .vector _ => v | .null => new (.vector [new .null]) | _ => new (.vector [v])) ∧
      val (match val v with | .vector _ => v | .null => new (.vector [new .null]) | _ => new (.vector [v])) = .vector vs := by
  simp only [evalSub, h, Res.bind]
  cases hv : val v <;> first | exact ⟨_, rfl, rfl⟩ | exact ⟨_, rfl, hv⟩

theorem evalSub_scalar {row : Row} {e : Expr} {v : Value} (h : eval false (rowEnv row) e = .ok v) (hv : ∀ vs, val v ≠ .vector vs) :
    evalSub row (.list e) = .ok (new (.vector [if isNull v then new .null else v])) := by
  simp only [evalSub, h, Res.bind]
  unfold isNull
  cases hv' : val v <;> first | rfl | exact (hv _ hv').elim

/-! ## The answers -/

theorem resolve_col {s : Schema} {n : Name} {j : Nat} (h : matching s n = [j]) : parse s (.column n) = some (.col 0 j) := by
  have := (resolve_refers (s := s) (n := n) (i := j) h).1
  simp [parse, NExpr.column, List.mapM_cons, this, renumber]

theorem truth_kept (t : Tri) : asBool (ofTri t) = decide (t = .t) := by cases t <;> rfl

/-- The value of the predicate on a row. -/
theorem in_value {v u : Value} (n : Bool) (hv : Typed v) (h32 : Int32 v) :
    asBool (inSub n v (new (.vector [if isNull u then new .null else u]))) = decide (compareOp .eq v u = if n then .f else .t) := by
  have e : compareOp .eq v (if isNull u then new .null else u) = compareOp .eq v u := by
    by_cases hu : isNull u = true
    · rw [if_pos hu, C38_null_compare .eq (.inr hu), C38_null_compare .eq (.inr rfl)]
    · rw [if_neg hu]
  have : inCheck v [if isNull u then new .null else u] = compareOp .eq v u := by
    rw [inCheck_or hv h32 (.inl (by simp))]
    simp only [List.map_cons, List.map_nil, orAll, List.foldr, e]
    cases compareOp .eq v u <;> rfl
  have h : inSub n v (new (.vector [if isNull u then new .null else u])) = ofTri (if n then (match inCheck v [if isNull u then new .null else u] with | .t => .f | .f => .t | .n => .n)
    else inCheck v [if isNull u then new .null else u]) := rfl
  rw [h, this, truth_kept]
  cases n <;> cases compareOp .eq v u <;> rfl

theorem in_answer {w : World} {t : Nat} {s : Schema} {x : NExpr} {q : Sub} {e : Expr} {u : Row → Value} (n : Bool) (hx : Known s x) (hq : parseSub s q = some (.list e))
    (hlen : ∀ r ∈ w.rows t, r.length = s.length) (hxv : ∀ r ∈ w.rows t, ∃ v, valueOf s r x = .ok v ∧ Typed v ∧ Int32 v)
    (hev : ∀ r ∈ w.rows t, eval false (rowEnv r) e = .ok (u r) ∧ ∀ vs, val (u r) ≠ .vector vs) :
    SubAnswers w t s (.in_ n x q) ((w.rows t).filter fun r => match valueOf s r x with | .ok v => decide (compareOp .eq v (u r) = if n then .f else .t) | _ => false) .done := by
  obtain ⟨px, hpx, hvx⟩ := parse_value hx
  refine ⟨fun r => (eval false (rowEnv r) px).bind fun v => (evalSub r (.list e)).bind fun l => .ok (inSub n v l),
    by simp only [parsePred, hpx, hq, Option.bind_eq_bind, Option.bind_some], ?_⟩
  have hval : ∀ r ∈ w.rows t, ∃ v, valueOf s r x = .ok v ∧ ((eval false (rowEnv r) px).bind fun v => (evalSub r (.list e)).bind fun l => .ok (inSub n v l)) =
      Res.ok (inSub n v (new (.vector [if isNull (u r) then new .null else u r]))) ∧ Typed v ∧ Int32 v := fun r hr => by
    obtain ⟨v, h1, h2, h3⟩ := hxv r hr
    obtain ⟨h4, h5⟩ := hev r hr
    refine ⟨v, h1, ?_, h2, h3⟩
    rw [hvx r (hlen r hr), h1, evalSub_scalar h4 h5]
    rfl
  have := keepWhere_yields (fun r => (eval false (rowEnv r) px).bind fun v => (evalSub r (.list e)).bind fun l => .ok (inSub n v l)) (w.rows t) (fun r hr => by
    obtain ⟨v, _, h, _⟩ := hval r hr
    rw [h]; exact nofun)
  rw [List.filter_congr (q := fun r => match valueOf s r x with | .ok v => decide (compareOp .eq v (u r) = if n then .f else .t) | _ => false) (fun r hr => by
    obtain ⟨v, h1, h, h2, h3⟩ := hval r hr
    simp only [kept, h, h1, in_value n h2 h3])] at this
  exact this

theorem exists_answer {w : World} {t : Nat} {s : Schema} {q : Sub} {e : Expr} (hq : parseSub s q = some (.list e))
    (hev : ∀ r ∈ w.rows t, ∃ v, eval false (rowEnv r) e = .ok v) :
    SubAnswers w t s (.exists_ false q) (w.rows t) .done ∧ SubAnswers w t s (.exists_ true q) [] .done := by
  have hval : ∀ n, ∀ r ∈ w.rows t, ((evalSub r (.list e)).bind fun v => .ok (new (.boolean (if n then isNull v else !isNull v)))) = Res.ok (new (.boolean !n)) := by
    intro n r hr
    obtain ⟨v, hv⟩ := hev r hr
    obtain ⟨vs, h1, h2⟩ := evalSub_list hv
    rw [h1]
    generalize (match val v with | .vector _ => v | .null => new (.vector [new .null]) | _ => new (.vector [v])) = l at h2
    have : isNull l = false := by simp only [isNull, h2]
    simp only [Res.bind, this]
    cases n <;> rfl
  have key : ∀ n, SubAnswers w t s (.exists_ n q) ((w.rows t).filter fun _ => !n) .done := by
    intro n
    refine ⟨_, by simp only [parsePred, hq, Option.map_some]; rfl, ?_⟩
    have := keepWhere_yields (fun r => (evalSub r (.list e)).bind fun v => .ok (new (.boolean (if n then isNull v else !isNull v)))) (w.rows t)
      (fun r hr => by rw [hval n r hr]; exact nofun)
    rw [List.filter_congr (q := fun _ => !n) (fun r hr => by simp only [kept, hval n r hr, boolAs])] at this
    exact this
  refine ⟨?_, ?_⟩
  · have := key false
    rwa [List.filter_eq_self.2 (by simp)] at this
  · have := key true
    rwa [List.filter_eq_nil_iff.2 (by simp)] at this

/-- Subqueries without a FROM: `e` is one value made of the columns of the outer query. `EXISTS (SELECT e)` is TRUE on all rows, and `x [NOT] IN (SELECT e)` is what `x = e`,
or its negation, is.
Missing: all subqueries with a FROM, see `C110_exists_fails`, `C110_in_fails` and `C110_scalar_fails`. -/
theorem C110_no_from_partial {w : World} {t : Nat} {s : Schema} {x e : NExpr} {text : String} {a : Option String} (hx : Known s x) (he : Known s e)
    (hlen : ∀ r ∈ w.rows t, r.length = s.length) (hxv : ∀ r ∈ w.rows t, ∃ v, valueOf s r x = .ok v ∧ Typed v ∧ Int32 v)
    {u : Row → Value} (hev : ∀ r ∈ w.rows t, valueOf s r e = .ok (u r) ∧ ∀ vs, val (u r) ≠ .vector vs) :
    let q : Sub := ⟨[.expr (.scalar e text) a], none, none⟩
    SubAnswers w t s (.exists_ false q) (w.rows t) .done ∧ SubAnswers w t s (.exists_ true q) [] .done ∧
    SubAnswers w t s (.in_ false x q) ((w.rows t).filter fun r => match valueOf s r x with | .ok v => decide (compareOp .eq v (u r) = .t) | _ => false) .done ∧
    SubAnswers w t s (.in_ true x q) ((w.rows t).filter fun r => match valueOf s r x with | .ok v => decide (compareOp .eq v (u r) = .f) | _ => false) .done := by
  intro q
  obtain ⟨pe, hpe, hve⟩ := parse_value he
  have hq : parseSub s q = some (.list pe) := by simp only [q, parseSub, parseS, hpe, Option.map_some]
  have hev' : ∀ r ∈ w.rows t, eval false (rowEnv r) pe = .ok (u r) ∧ ∀ vs, val (u r) ≠ .vector vs := fun r hr => by
    rw [hve r (hlen r hr)]; exact hev r hr
  obtain ⟨h1, h2⟩ := exists_answer hq fun r hr => ⟨_, (hev' r hr).1⟩
  exact ⟨h1, h2, in_answer false hx hq hlen hxv hev', in_answer true hx hq hlen hxv hev'⟩

/-- `WHERE EXISTS (SELECT 1 FROM t2 WHERE ...)` keeps every row and `WHERE NOT EXISTS (SELECT 1 FROM t2 WHERE ...)` none, whatever is in the table and whatever the condition. -/
theorem C110_exists_fails (w : World) (t : Nat) (s : Schema) (t2 : Nat) (s2 : Schema) (cond : Option NExpr) (v : Value) (text : String) (a : Option String) :
    let q : Sub := ⟨[.expr (.scalar ⟨[], .lit v⟩ text) a], some (t2, s2), cond⟩
    SubAnswers w t s (.exists_ false q) (w.rows t) .done ∧ SubAnswers w t s (.exists_ true q) [] .done :=
  exists_answer (e := .lit v) rfl fun _ _ => ⟨v, rfl⟩

/-- `WHERE x [NOT] IN (SELECT c FROM t2 WHERE ...)` compares `x` with a column of the outer row, the one with the number that `c` has in `t2`. The rows of `t2` and the condition
play no part. -/
theorem C110_in_fails {w : World} {t : Nat} {s : Schema} {x : NExpr} {t2 : Nat} {s2 : Schema} {cond : Option NExpr} {c : Name} {a : Option String} {j : Nat} (hx : Known s x)
    (hc : matching s2 c = [j]) (hlen : ∀ r ∈ w.rows t, r.length = s.length) (hxv : ∀ r ∈ w.rows t, ∃ v, valueOf s r x = .ok v ∧ Typed v ∧ Int32 v)
    {u : Row → Value} (hu : ∀ r ∈ w.rows t, r[j]? = some (u r) ∧ ∀ vs, val (u r) ≠ .vector vs) :
    let q : Sub := ⟨[.expr (.column c) a], some (t2, s2), cond⟩
    SubAnswers w t s (.in_ false x q) ((w.rows t).filter fun r => match valueOf s r x with | .ok v => decide (compareOp .eq v (u r) = .t) | _ => false) .done ∧
    SubAnswers w t s (.in_ true x q) ((w.rows t).filter fun r => match valueOf s r x with | .ok v => decide (compareOp .eq v (u r) = .f) | _ => false) .done := by
  intro q
  have hq : parseSub s q = some (.list (.col 0 j)) := by simp only [q, parseSub, parseS, resolve_col hc, Option.map_some]
  have hev : ∀ r ∈ w.rows t, eval false (rowEnv r) (.col 0 j) = .ok (u r) ∧ ∀ vs, val (u r) ≠ .vector vs := fun r hr =>
    ⟨by simp only [eval, rowEnv, (hu r hr).1], (hu r hr).2⟩
  exact ⟨in_answer false hx hq hlen hxv hev, in_answer true hx hq hlen hxv hev⟩

/-- A comparison with a subquery never keeps a row: with an aggregate it is an error on every row, with a column the value of the subquery is a list, which is not compared with a
number. -/
theorem C110_scalar_fails {w : World} {t : Nat} {s : Schema} {x : NExpr} (op : CmpOp) {t2 : Nat} {s2 : Schema} {cond : Option NExpr} {c : Name} {j : Nat} (hx : Known s x)
    (hc : matching s2 c = [j]) (hlen : ∀ r ∈ w.rows t, r.length = s.length) (hxv : ∀ r ∈ w.rows t, ∃ i, valueOf s r x = .ok (new (.integer i)))
    (hu : ∀ r ∈ w.rows t, ∀ u, r[j]? = some u → ∀ vs, val u ≠ .vector vs) :
    (∀ f, SubAnswers w t s (.cmp op x ⟨[.expr (.agg f c) none], some (t2, s2), cond⟩) [] .done) ∧
    ∀ a, SubAnswers w t s (.cmp op x ⟨[.expr (.column c) a], some (t2, s2), cond⟩) [] .done := by
  obtain ⟨px, hpx, hvx⟩ := parse_value hx
  refine ⟨fun f => ?_, fun a => ?_⟩
  · refine ⟨_, by simp only [parsePred, hpx, parseSub, parseS, resolve_col hc, Option.map_some, Option.bind_eq_bind, Option.bind_some]; rfl, ?_⟩
    have hval : ∀ r ∈ w.rows t, ((eval false (rowEnv r) px).bind fun v => (evalSub r .scalarAgg).bind fun l => comparison op v l) = Res.err := fun r hr => by
      obtain ⟨i, hi⟩ := hxv r hr
      rw [hvx r (hlen r hr), hi]; rfl
    have := keepWhere_yields (fun r => (eval false (rowEnv r) px).bind fun v => (evalSub r .scalarAgg).bind fun l => comparison op v l) (w.rows t)
      (fun r hr => by rw [hval r hr]; exact nofun)
    rwa [List.filter_eq_nil_iff.2 (fun r hr => by simp only [kept, hval r hr]; exact nofun)] at this
  · refine ⟨_, by simp only [parsePred, hpx, parseSub, parseS, resolve_col hc, Option.map_some, Option.bind_eq_bind, Option.bind_some]; rfl, ?_⟩
    have hval : ∀ r ∈ w.rows t, ((eval false (rowEnv r) px).bind fun v => (evalSub r (.list (.col 0 j))).bind fun l => comparison op v l) = Res.err := fun r hr => by
      obtain ⟨i, hi⟩ := hxv r hr
      rw [hvx r (hlen r hr), hi]
      cases he : r[j]? with
      | some v =>
        rw [evalSub_scalar (v := v) (by simp only [eval, rowEnv, he]) (hu r hr v he)]
        rfl
      | none => simp only [evalSub, eval, rowEnv, he, Res.bind]
    have := keepWhere_yields (fun r => (eval false (rowEnv r) px).bind fun v => (evalSub r (.list (.col 0 j))).bind fun l => comparison op v l) (w.rows t)
      (fun r hr => by rw [hval r hr]; exact nofun)
    rwa [List.filter_eq_nil_iff.2 (fun r hr => by simp only [kept, hval r hr]; exact nofun)] at this

/-- `SELECT *`, several columns and no column at all are refused in subqueries. -/
theorem C110_refused_fails (s : Schema) (from_ : Option (Nat × Schema)) (cond : Option NExpr) (negated : Bool) (items : List Item) (h : ∀ e a, items ≠ [.expr e a]) :
    parsePred s (.exists_ negated ⟨items, from_, cond⟩) = none ∧ ∀ x, parsePred s (.in_ negated x ⟨items, from_, cond⟩) = none := by
  have hq : parseSub s ⟨items, from_, cond⟩ = none := by
    unfold parseSub
    simp only []
    match items, h with
    | [], _ => rfl
    | [.star], _ => rfl
    | .star :: _ :: _, _ => rfl
    | .expr (.column _) _ :: _ :: _, _ => rfl
    | .expr (.scalar _ _) _ :: _ :: _, _ => rfl
    | .expr (.agg _ _) none :: _ :: _, _ => rfl
    | .expr (.agg _ _) (some _) :: _ :: _, _ => rfl
    | [.expr e a], h => exact (h e a rfl).elim
  refine ⟨by simp [parsePred, hq], fun x => ?_⟩
  cases hx : parse s x <;> simp [parsePred, hq, hx]

/-! ## Cases -/

/-- Two employees, and a table of departments without rows. -/
def exSub : World := { exTables with rows := fun t => match t with | 0 => [[int 1, int 10], [int 2, int 20]] | _ => [] }

def empCols : Schema := [⟨none, "id"⟩, ⟨none, "dept"⟩]
def deptCols : Schema := [⟨none, "id"⟩, ⟨none, "city"⟩]

theorem exSub_len : ∀ r ∈ exSub.rows 0, r.length = empCols.length := by simp [exSub, empCols]

theorem exSub_id : ∀ r ∈ exSub.rows 0, ∃ i, valueOf empCols r (.column ⟨none, "id"⟩) = .ok (new (.integer i)) := by
  intro r hr
  simp only [exSub, List.mem_cons, List.not_mem_nil, or_false] at hr
  rcases hr with rfl | rfl
  · exact ⟨1, rfl⟩
  · exact ⟨2, rfl⟩

theorem id_known : Known empCols (.column ⟨none, "id"⟩) := by
  intro n hn
  simp only [NExpr.column, List.mem_singleton] at hn
  exact ⟨0, by subst hn; decide⟩

theorem int32_integer (i : Int) (h : lo 3 ≤ i ∧ i ≤ hi 3) : Typed (new (.integer i)) ∧ Int32 (new (.integer i)) := ⟨.inr rfl, fun k hk => by cases hk; exact h⟩

theorem exSub_typed : ∀ r ∈ exSub.rows 0, ∃ v, valueOf empCols r (.column ⟨none, "id"⟩) = .ok v ∧ Typed v ∧ Int32 v := by
  intro r hr
  simp only [exSub, List.mem_cons, List.not_mem_nil, or_false] at hr
  rcases hr with rfl | rfl
  · exact ⟨new (.integer 1), rfl, int32_integer 1 (by decide)⟩
  · exact ⟨new (.integer 2), rfl, int32_integer 2 (by decide)⟩

-- `SELECT * FROM emp WHERE id IN (SELECT id)` is a case of the partial theorem.
example : SubAnswers exSub 0 empCols (.in_ false (.column ⟨none, "id"⟩) ⟨[.expr (.scalar (.column ⟨none, "id"⟩) "id") none], none, none⟩) (exSub.rows 0) .done :=
  (C110_no_from_partial (u := fun r => r.headD (new .null)) id_known id_known exSub_len exSub_typed (by
    intro r hr
    simp only [exSub, List.mem_cons, List.not_mem_nil, or_false] at hr
    rcases hr with rfl | rfl <;> exact ⟨rfl, nofun⟩)).2.2.1

/-- `SELECT * FROM emp WHERE id IN (SELECT id FROM dept)` with an empty `dept` gives all employees, with NOT IN none. -/
theorem C110_in_empty_fails : subRows exSub 1 deptCols none = [] ∧
    let q : Sub := ⟨[.expr (.column ⟨none, "id"⟩) none], some (1, deptCols), none⟩
    SubAnswers exSub 0 empCols (.in_ false (.column ⟨none, "id"⟩) q) (exSub.rows 0) .done ∧ SubAnswers exSub 0 empCols (.in_ true (.column ⟨none, "id"⟩) q) [] .done := by
  refine ⟨rfl, ?_⟩
  exact C110_in_fails (s2 := deptCols) (j := 0) (u := fun r => r.headD (new .null)) id_known (by decide) exSub_len exSub_typed (by
    intro r hr
    simp only [exSub, List.mem_cons, List.not_mem_nil, or_false] at hr
    rcases hr with rfl | rfl <;> exact ⟨rfl, nofun⟩)

-- `SELECT * FROM emp WHERE id > (SELECT MIN(id) FROM dept)`.
example : SubAnswers exSub 0 empCols (.cmp .gt (.column ⟨none, "id"⟩) ⟨[.expr (.agg .min ⟨none, "id"⟩) none], some (1, deptCols), none⟩) [] .done :=
  (C110_scalar_fails .gt (s2 := deptCols) (j := 0) id_known (by decide) exSub_len exSub_id (by
    intro r hr u hu
    simp only [exSub, List.mem_cons, List.not_mem_nil, or_false] at hr
    rcases hr with rfl | rfl <;> (cases hu; exact nofun))).1 .min

end Verif.Plan

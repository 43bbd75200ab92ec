import Verif.Plan.GroupProps

/-!
# C73: queries that meet the hypotheses, and queries with a wrong answer
-/

namespace Verif.Plan

open Verif.Wire Verif.Bytes Verif.Sql Verif.Exec

/-! ## A query of each kind -/

def exSchema : Schema := [⟨none, "a"⟩, ⟨none, "b"⟩]

/-- The column as an expression. -/
def col (c : String) : NExpr := .column ⟨none, c⟩

def item (c : String) : Item := .expr (.column ⟨none, c⟩) none

/-- `SELECT * FROM t` -/
def exAll : Select := ⟨[.star], none, [], none, false, [], none, none⟩

/-- `SELECT b, a AS x FROM t WHERE a < 3 ORDER BY x DESC LIMIT 1` -/
def exSelect : Select := { exAll with items := [item "b", .expr (.column ⟨none, "a"⟩) (some "x")], where_ := some ⟨[⟨none, "a"⟩], .cmp .lt (.col 0 0) (.lit (new (.integer 3)))⟩,
                                       orderBy := [(col "x", .desc)], limit := some 1 }

/-- `SELECT DISTINCT b FROM t ORDER BY a` -/
def exByInput : Select := { exAll with items := [item "a"], distinct := true, orderBy := [(col "b", .asc)] }

def swap (r : Row) : Row := r.reverse

theorem ex_plain : Plain (exWorld.rows 0) exSchema exSelect (fun r => r.head?.any fun v => valueEq v (new (.integer 1)) || valueEq v (new (.integer 2))) swap where
  items := ⟨⟨1, by decide⟩, ⟨0, by decide⟩, trivial⟩
  some_item := nofun
  some_column := nofun
  no_group := rfl
  no_having := rfl
  width := by decide
  where_ := by
    refine ⟨fun n hn => ?_, fun r hr => ?_⟩
    · simp at hn
      subst hn
      exact ⟨0, by decide⟩
    · simp only [exWorld, List.mem_cons, List.not_mem_nil, or_false] at hr
      rcases hr with rfl | rfl | rfl
      · exact ⟨.inl ⟨new (.boolean true), .t, rfl, rfl⟩, fun _ => ⟨_, rfl, rfl⟩, fun _ => by decide⟩
      · exact ⟨.inl ⟨new (.boolean true), .t, rfl, rfl⟩, fun _ => ⟨_, rfl, rfl⟩, fun _ => by decide⟩
      · refine ⟨.inl ⟨new (.boolean false), .f, rfl, rfl⟩, fun h => ?_, fun ⟨v, h1, h2⟩ => ?_⟩
        · exact absurd h (by decide)
        · have : valueOf exSchema [new (.integer 3), new .null] ⟨[⟨none, "a"⟩], .cmp .lt (.col 0 0) (.lit (new (.integer 3)))⟩ = .ok (new (.boolean false)) := rfl
          rw [this] at h1
          cases h1
          cases h2
  values := by
    intro r hr _
    simp only [exWorld, List.mem_cons, List.not_mem_nil, or_false] at hr
    rcases hr with rfl | rfl | rfl <;> rfl
  shape := nofun

/-- The hypotheses of `C73_select_partial`. -/
example : Faithful exWorld (fun _ => some 7) ∧ Plain (exWorld.rows 0) exSchema exSelect (fun r => r.head?.any fun v => valueEq v (new (.integer 1)) || valueEq v (new (.integer 2))) swap ∧
    (∀ k ∈ exSelect.orderBy, Known (outCols exSchema exSelect.items) k.1) ∧ ∀ r ∈ exWorld.rows 0, (r.head?.any fun v => valueEq v (new (.integer 1)) || valueEq v (new (.integer 2))) = true →
      KeysHave (outCols exSchema exSelect.items) exSelect.orderBy (swap r) := by
  refine ⟨ex_faithful, ex_plain, ?_, ?_⟩
  · intro k hk n hn
    simp only [exSelect, List.mem_cons, List.not_mem_nil, or_false] at hk
    subst hk
    simp [col, NExpr.column] at hn
    subst hn
    exact ⟨1, by decide⟩
  · intro r hr _ k hk
    simp only [exSelect, List.mem_cons, List.not_mem_nil, or_false] at hk
    subst hk
    simp only [exWorld, List.mem_cons, List.not_mem_nil, or_false] at hr
    rcases hr with rfl | rfl | rfl <;> exact ⟨_, rfl, rfl⟩

/-- The hypotheses of `C73_order_by_input_partial`. -/
example : Plain (exWorld.rows 0) exSchema exByInput (fun _ => true) (fun r => r.take 1) ∧
    (∃ k ∈ exByInput.orderBy, ∃ n ∈ k.1.cols, matching (outCols exSchema exByInput.items) n = []) ∧
    (∀ k ∈ exByInput.orderBy, Known exSchema k.1) ∧ ∀ r ∈ exWorld.rows 0, KeysHave exSchema exByInput.orderBy r := by
  refine ⟨?_, ?_, ?_, ?_⟩
  · refine ⟨⟨⟨0, by decide⟩, trivial⟩, nofun, nofun, rfl, rfl, by decide, fun _ _ => rfl, ?_, fun _ => ⟨[.int], ?_⟩⟩ <;> intro r hr _ <;>
      simp only [exWorld, List.mem_cons, List.not_mem_nil, or_false] at hr
    · rcases hr with rfl | rfl | rfl <;> rfl
    · rcases hr with rfl | rfl | rfl <;> exact ⟨⟨_, rfl, by decide, by decide⟩, trivial⟩
  · exact ⟨(col "b", .asc), List.mem_singleton_self _, ⟨none, "b"⟩, List.mem_singleton_self _, by decide⟩
  · intro k hk n hn
    simp only [exByInput, List.mem_cons, List.not_mem_nil, or_false] at hk
    subst hk
    simp [col, NExpr.column] at hn
    subst hn
    exact ⟨1, by decide⟩
  · intro r hr k hk
    simp only [exByInput, List.mem_cons, List.not_mem_nil, or_false] at hk
    subst hk
    simp only [exWorld, List.mem_cons, List.not_mem_nil, or_false] at hr
    rcases hr with rfl | rfl | rfl <;> exact ⟨_, rfl, rfl⟩

/-- `SELECT b, COUNT(*), SUM(a) FROM t GROUP BY b ORDER BY b` -/
def exGroup : Select := { exAll with items := [item "b", .expr (.agg .countStar ⟨none, "a"⟩) none, .expr (.agg .sum ⟨none, "a"⟩) none], groupBy := [⟨none, "b"⟩],
                                      orderBy := [(col "b", .asc)] }

theorem ex_grouped : Grouped exSchema exGroup [⟨none, "b"⟩] [(.countStar, ⟨none, "a"⟩), (.sum, ⟨none, "a"⟩)] where
  items := rfl
  group := rfl
  some_group := .inl nofun
  different := by decide
  columns := by
    intro n hn
    simp at hn
    subst hn
    exact ⟨1, by decide⟩
  args := by
    intro a ha
    simp at ha
    rcases ha with rfl | rfl <;> exact ⟨0, by decide⟩
  functions := by decide
  plain := by
    intro n hn f
    simp at hn
    subst hn
    exact ⟨by cases f <;> decide, by cases f <;> decide +kernel⟩
  no_having := rfl
  no_distinct := rfl

/-- The integer in the first column. -/
def exFirst (_ : Expr) (r : Row) : Option Int := match r with
  | .mk (.integer i) _ _ _ _ :: _ => some i
  | _ => none

/-- The hypotheses of `C73_group_by_partial`. -/
example : Faithful exWorld (fun _ => some 7) ∧ (∀ l, (exWorld.drain l).Perm l) ∧ Grouped exSchema exGroup [⟨none, "b"⟩] [(.countStar, ⟨none, "a"⟩), (.sum, ⟨none, "a"⟩)] ∧
    (∀ r ∈ exWorld.rows 0, r.length = exSchema.length) ∧ (∀ k ∈ exGroup.orderBy, Known (groupCols [⟨none, "b"⟩] [(.countStar, ⟨none, "a"⟩), (.sum, ⟨none, "a"⟩)]) k.1) ∧
    (∀ k ∈ keysOf exSchema [⟨none, "b"⟩] (exWorld.rows 0), ∀ vals : List Value,
      KeysHave (groupCols [⟨none, "b"⟩] [(.countStar, ⟨none, "a"⟩), (.sum, ⟨none, "a"⟩)]) exGroup.orderBy (k ++ vals)) ∧
    ∀ a ∈ [(Fn.countStar, (⟨none, "a"⟩ : Name)), (Fn.sum, ⟨none, "a"⟩)], ∀ k, Fine (fun _ => 3) exFirst (a.1.agg (.col 0 (theColumn exSchema a.2))) (rowsOf (keyOf exSchema [⟨none, "b"⟩]) (exWorld.rows 0) k) := by
  refine ⟨ex_faithful, fun _ => List.Perm.refl _, ex_grouped, by decide, ?_, ?_, ?_⟩
  · intro k hk n hn
    simp only [exGroup, List.mem_cons, List.not_mem_nil, or_false] at hk
    subst hk
    simp [col, NExpr.column] at hn
    subst hn
    exact ⟨0, by decide⟩
  · intro k hk vals
    have hk : k ∈ (exWorld.rows 0).map (keyOf exSchema [⟨none, "b"⟩]) := List.mem_map.2 ((mem_keysOf hk).resolve_left (nomatch ·.1))
    simp only [exWorld, List.map_cons, List.map_nil, List.mem_cons, List.not_mem_nil, or_false] at hk
    rcases hk with rfl | rfl | rfl <;> intro o ho <;> simp only [exGroup, List.mem_cons, List.not_mem_nil, or_false] at ho <;> subst ho <;> exact ⟨_, rfl, rfl⟩
  · intro a ha k
    have hsub : ∀ r ∈ rowsOf (keyOf exSchema [⟨none, "b"⟩]) (exWorld.rows 0) k, r ∈ exWorld.rows 0 := fun r hr => (List.mem_filter.1 hr).1
    simp only [List.mem_cons, List.not_mem_nil, or_false] at ha
    rcases ha with rfl | rfl
    · exact Nat.lt_of_le_of_lt (List.length_filter_le ..) (by decide)
    · refine ⟨⟨by decide, by decide⟩, fun r hr => ?_, fun p hp => ?_⟩
      · have := hsub r hr
        simp only [exWorld, List.mem_cons, List.not_mem_nil, or_false] at this
        rcases this with rfl | rfl | rfl <;> exact ⟨_, rfl, rfl⟩
      · have h1 : p.length ≤ 3 := Nat.le_trans hp.length_le (Nat.le_trans (List.length_filterMap_le ..) (Nat.le_trans (List.length_filter_le ..) (by decide)))
        have h2 : ∀ i ∈ p, 1 ≤ i ∧ i ≤ 3 := by
          intro i hi
          obtain ⟨r, hr, he⟩ := List.mem_filterMap.1 (hp.subset hi)
          have hr := hsub r hr
          simp only [exWorld, List.mem_cons, List.not_mem_nil, or_false] at hr
          rcases hr with rfl | rfl | rfl <;> have he : some _ = some i := he <;> cases he <;> decide
        have h3 : ∀ l : List Int, (∀ i ∈ l, 1 ≤ i ∧ i ≤ 3) → 0 ≤ l.sum ∧ l.sum ≤ 3 * l.length := by
          intro l
          induction l with
          | nil => simp
          | cons i l ih =>
            intro h
            have := ih fun j hj => h j (List.mem_cons_of_mem _ hj)
            have := h i List.mem_cons_self
            simp only [List.sum_cons, List.length_cons]
            omega
        have := h3 p h2
        simp only [lo, hi]
        omega

/-- `SELECT COUNT(*), MAX(a) FROM t` -/
def exTotal : Select := { exAll with items := [.expr (.agg .countStar ⟨none, "a"⟩) none, .expr (.agg .max ⟨none, "a"⟩) none] }

theorem ex_total : Grouped exSchema exTotal [] [(.countStar, ⟨none, "a"⟩), (.max, ⟨none, "a"⟩)] where
  items := rfl
  group := rfl
  some_group := .inr nofun
  different := by decide
  columns := nofun
  args := by
    intro a ha
    simp at ha
    rcases ha with rfl | rfl <;> exact ⟨0, by decide⟩
  functions := by decide
  plain := nofun
  no_having := rfl
  no_distinct := rfl

/-- The hypotheses of `C73_group_by_partial` without GROUP BY, and what it says when the table is empty: there is one row. -/
example {w : World} {ix : Nat → Option Nat} (hf : Faithful w ix) (hd : ∀ l, (w.drain l).Perm l) (he : w.rows 0 = []) {isConst : Expr → Bool} :
    ∃ p p' out, plan exSchema 0 exTotal = some p ∧ optimize ix isConst (fun _ => true) p = some p' ∧ Runs w p' out .done ∧ out.length = 1 := by
  obtain ⟨p, p', out, h1, h2, h3, l, res, h4, _, _, h5⟩ := C73_group_by_partial (keep := fun _ => true) (typ := fun _ => 3) (num := exFirst) (isConst := isConst)
    (known := fun _ => true) (t := 0) hf rfl hd ex_total (by rw [he]; nofun) (show ∀ r ∈ w.rows 0, true = true by rw [he]; nofun) (by
      intro a ha k
      rw [he]
      simp only [List.mem_cons, List.not_mem_nil, or_false] at ha
      rcases ha with rfl | rfl
      · exact (by decide : 0 < 2 ^ 63)
      · exact ⟨⟨by decide, by decide⟩, nofun⟩) (fun _ _ => by decide) nofun (fun _ _ _ _ _ => nofun)
  refine ⟨p, p', out, h1, h2, h3, ?_⟩
  rw [h5]
  exact h4.length_eq

/-! ## Wrong answers -/

/-- The groups after these rows. -/
def collect (by_ : List Expr) (aggs : List Agg) : List Group → List Row → Option (List Group)
  | gs, [] => some gs
  | gs, a :: as => (match Exec.project (rowEnv a) by_ with
    | .ok key => (touch aggs key a gs).bind fun gs' => collect by_ aggs gs' as
    | .error _ => none)

theorem aggD_one {by_ : List Expr} {aggs : List Agg} {g : Group} : ∀ {xs : List Row} {gs : List Group} {any : Bool}, (any = true ∨ xs ≠ []) → collect by_ aggs gs xs = some [g] →
    aggD id by_ aggs .done gs any xs = ([outRow aggs g], .done)
  | [], gs, any, ha, h => by
    cases h
    have : any = true := ha.resolve_right fun h => h rfl
    subst this
    rfl
  | x :: xs, gs, any, _, h => by
    simp only [collect] at h
    split at h
    · rename_i key hk
      simp only [Option.bind_eq_some_iff] at h
      obtain ⟨gs', h1, h2⟩ := h
      simp only [aggD, hk, h1]
      exact aggD_one (.inl rfl) h2
    · cases h

/-- A world with one table. -/
def world (rows : List Row) : World := { exWorld with rows := fun _ => rows, drain := id }

def int (i : Int) : Value := new (.integer i)

def aggr (f : Fn) (c : String) : Item := .expr (.agg f ⟨none, c⟩) none

/-- The answer of a query over the table with the columns `a` and `b`. -/
def Answers (rows : List Row) (q : Select) (out : List Row) : Prop := ∃ p p', plan exSchema 0 q = some p ∧ optimize (fun _ => none) (fun _ => false) (fun _ => true) p = some p' ∧
  Runs (world rows) p' out .done

theorem answers_group {rows : List Row} {q : Select} {es by_ : List Expr} {aggs : List Agg} {g : Group} {r : Row}
    (hp : plan exSchema 0 q = some (.project es (.agg by_ aggs (.scan 0)))) (ho : optimize (fun _ => none) (fun _ => false) (fun _ => true)
      (.project es (.agg by_ aggs (.scan 0))) = some (.project es (.agg by_ aggs (.scan 0)))) (hb : by_.all isCol = true) (hr : rows ≠ [])
    (hg : collect by_ aggs [] rows = some [g]) (he : Exec.project (rowEnv (outRow aggs g)) es = .ok r) : Answers rows q [r] := by
  refine ⟨_, _, hp, ho, runs_iff.2 ?_⟩
  simp only [den, world, hb, aggD_one (any := false) (.inr hr) hg, checkD, true_or, if_true, projectD, he]
  rfl

/-- `SELECT SUM(a), SUM(b) FROM t` gives SUM(a) twice. -/
theorem C73_two_sums_fails : Answers [[int 1, int 10], [int 2, int 20]] { exAll with items := [aggr .sum "a", aggr .sum "b"] } [[int 3, int 3]] :=
  answers_group (es := [.col 0 0, .col 0 0]) (by_ := []) (aggs := [.sum (.col 0 0), .sum (.col 0 1)]) rfl rfl rfl nofun rfl rfl

/-- `SELECT SUM(a), b FROM t GROUP BY b` gives b in both columns: an aggregate is only found when it stands after the GROUP BY columns. -/
theorem C73_aggregate_first_fails : Answers [[int 1, int 10], [int 2, int 10]] { exAll with items := [aggr .sum "a", item "b"], groupBy := [⟨none, "b"⟩] } [[int 10, int 10]] :=
  answers_group (es := [.col 0 0, .col 0 0]) (by_ := [.col 0 1]) (aggs := [.sum (.col 0 0)]) rfl rfl rfl nofun rfl rfl

/-- `SELECT b AS x, COUNT(*) FROM t GROUP BY b` gives the count in both columns: with an alias the column keeps its number in the table. -/
theorem C73_alias_fails : Answers [[int 1, int 10], [int 2, int 10]]
    { exAll with items := [.expr (.column ⟨none, "b"⟩) (some "x"), aggr .countStar "a"], groupBy := [⟨none, "b"⟩] } [[new (.bigInt 2), new (.bigInt 2)]] :=
  answers_group (es := [.col 0 1, .col 0 1]) (by_ := [.col 0 1]) (aggs := [.countStar]) rfl rfl rfl nofun rfl rfl

/-- `SELECT b, SUM(a) FROM t GROUP BY b HAVING SUM(a) > 0` gives the two columns the wrong way round: (3, 10) instead of (10, 3). -/
theorem C73_having_fails : Answers [[int 1, int 10], [int 2, int 10]]
    { exAll with items := [item "b", aggr .sum "a"], groupBy := [⟨none, "b"⟩], having := some ([.agg .sum ⟨none, "a"⟩], .cmp .gt (.col 0 0) (.lit (int 0))) } [[int 3, int 10]] := by
  refine ⟨.project [.col 0 1, .coalesce (.cons (.col 0 0) (.cons (.lit (new (.bigInt 0))) .nil))]
      (.filter (.cmp .gt (.col 0 1) (.lit (int 0))) (.agg [.col 0 1] [.sum (.col 0 0)] (.scan 0))),
    .project [.col 0 1, .coalesce (.cons (.col 0 0) (.cons (.lit (new (.bigInt 0))) .nil))]
      (.filter (.cmp .gt (.col 0 1) (.lit (int 0))) (.agg [.col 0 1] [.sum (.col 0 0)] (.scan 0))), rfl, rfl, runs_iff.2 ?_⟩
  have : aggD id [.col 0 1] [.sum (.col 0 0)] .done [] false [[int 1, int 10], [int 2, int 10]] = ([[int 10, int 3]], .done) :=
    aggD_one (g := ([int 10], [(int 3, 0)])) (.inr (List.cons_ne_nil _ _)) rfl
  simp only [den, world, this]
  rfl

/-- With HAVING, and where GROUP BY is forgotten, an aggregate of the SELECT list is computed from one row instead of the group: COUNT(*) is 1, COUNT(a) is 1 or, where a is NULL, 0,
SUM(a) is a or 0, MIN(a), MAX(a) and AVG(a) are a. -/
theorem C73_one_row_fails (j : Bool) (ρ : Env) {s : Schema} {arg : Name} {e : Expr} {v : Value} (he : parse s (.column arg) = some e) (hv : eval j ρ e = .ok v) (f : Fn) :
    ∃ x, parseS s (.agg f arg) = some x ∧ eval j ρ x = .ok (match f with
      | .countStar => new (.bigInt 1)
      | .count => new (.bigInt (if isNull v then 0 else 1))
      | .sum => if isNull v then new (.bigInt 0) else v
      | .min | .max | .avg => v) := by
  refine ⟨f.onRow e, by simp only [parseS, he, Option.map_some], ?_⟩
  cases f with
  | countStar => rfl
  | count => cases hn : isNull v <;> simp [Fn.onRow, eval, evalArms, hv, hn, Res.bind, isCheck, new, newTyped, val]
  | sum =>
    have h0 : isNull (new (.bigInt 0)) = false := rfl
    cases hn : isNull v <;> simp [Fn.onRow, eval, evalCoalesce, hv, hn, h0, Res.bind]
  | min | max | avg => exact hv

/-- `SELECT b FROM t HAVING a > 5` tests b: the row (1, 10) is in the answer. -/
theorem C73_having_column_fails : Answers [[int 1, int 10]] { exAll with items := [item "b"], having := some ([.column ⟨none, "a"⟩], .cmp .gt (.col 0 0) (.lit (int 5))) } [[int 10]] :=
  ⟨_, _, rfl, rfl, runs_iff.2 rfl⟩

/-- `SELECT COUNT(*) AS n FROM t GROUP BY b ORDER BY b` forgets GROUP BY: for a table of two rows in one group it gives the row 1 twice instead of 2. -/
theorem C73_order_by_group_fails : Answers [[int 1, int 10], [int 2, int 10]]
    { exAll with items := [.expr (.agg .countStar ⟨none, "a"⟩) (some "n")], groupBy := [⟨none, "b"⟩], orderBy := [(col "b", .asc)] } [[new (.bigInt 1)], [new (.bigInt 1)]] := by
  refine ⟨.project [.lit (new (.bigInt 1))] (.sort [(.col 0 1, .asc)] (.scan 0)), .project [.lit (new (.bigInt 1))] (.sort [(.col 0 1, .asc)] (.scan 0)), rfl, rfl, runs_iff.2 ?_⟩
  have : stableSort [[int 1, int 10], [int 2, int 10]] (fun a b => sortCmp [(.col 0 1, .asc)] a b != .gt) = [[int 1, int 10], [int 2, int 10]] :=
    rfl
  simp only [den, world, sortD, this]
  rfl

/-- `ORDER BY` an alias and a column that is not selected: the query is refused. -/
theorem C73_mixed_order_fails : plan exSchema 0 { exAll with items := [.expr (.column ⟨none, "a"⟩) (some "x")], orderBy := [(col "x", .asc), (col "b", .asc)] } = none := rfl

/-- An ambiguous name is not refused: it stands for the first column it fits. -/
theorem C73_ambiguous_fails : resolve [⟨some "x", "a"⟩, ⟨some "y", "a"⟩] ⟨none, "a"⟩ = some 0 ∧ matching [⟨some "x", "a"⟩, ⟨some "y", "a"⟩] ⟨none, "a"⟩ = [0, 1] := by decide

/-- Grouping by an expression that is not a column panics as soon as there is a group. -/
theorem C73_group_by_expression_fails (w : World) {by_ : List Expr} (hb : by_.all isCol = false) (aggs : List Agg) (c : Plan) {xs : List Row} {e : End}
    (h : Runs w (.agg by_ aggs c) xs e) : xs = [] := by
  rw [runs_iff] at h
  simp only [den, hb, checkD, Bool.false_eq_true, false_or] at h
  split at h
  · rename_i h0
    rw [h] at h0
    exact h0
  · cases h
    rfl

end Verif.Plan

import Verif.Plan.Optimizer
import Verif.Plan.Den

/-!
# C72: what the optimizer makes of a plan gives the same rows as the plan

The plan as the planner wrote it is the specification. A `rename` only names columns, so the plan meant is the one without these nodes (`meant`); the executor of a `rename`
that is left in the plan panics, which is why the optimizer has to take them out.
-/

namespace Verif.Plan

open Verif.Wire Verif.Bytes Verif.Sql Verif.Exec

/-- The plan without the nodes that only name columns. -/
def meant : Plan → Plan
  | .scan t => .scan t
  | .index t i => .index t i
  | .values rows => .values rows
  | .filter p c => .filter p (meant c)
  | .project es c => .project es (meant c)
  | .rename _ c => meant c
  | .join jt p nl nr l r => .join jt p nl nr (meant l) (meant r)
  | .agg by_ aggs c => .agg by_ aggs (meant c)
  | .sort specs c => .sort specs (meant c)
  | .limit n c => .limit n (meant c)
  | .offset n c => .offset n (meant c)
  | .distinct c => .distinct (meant c)
  | .topN k specs c => .topN k specs (meant c)

/-- No column list is renamed in the plan. -/
def NoRename : Plan → Prop
  | .scan _ | .index _ _ | .values _ => True
  | .rename _ _ => False
  | .join _ _ _ _ l r => NoRename l ∧ NoRename r
  | .filter _ c | .project _ c | .agg _ _ c | .sort _ c | .limit _ c | .offset _ c | .distinct c | .topN _ _ c => NoRename c

/-- The predicates of the filters on top of a plan, and what is below them. -/
def chain : Plan → List Expr × Plan
  | .filter p c => (p :: (chain c).1, (chain c).2)
  | .rename _ c => chain c
  | c => ([], c)

/-- What is below the renames and the filters on TRUE. -/
def top : Plan → Plan
  | .rename _ c => top c
  | .filter p c => if isTrueLit p then top c else .filter p c
  | c => c

/-- The plans the optimizer treats well: no projection stands directly on another one, no rename stands below a rename or below a filter on TRUE, and when filters stand on
each other every one of their predicates has a truth value (or an error) on every row that enters the lowest. -/
def Safe (w : World) : Plan → Prop
  | .scan _ | .index _ _ | .values _ => True
  | .filter p c => Safe w c ∧ (isTrueLit p → NoRename c) ∧
      ((chain c).1 = [] ∨ ∀ q ∈ p :: (chain c).1, ∀ row ∈ (den w (meant (chain c).2)).1, Decided q row)
  | .project es c => Safe w c ∧ es ≠ [] ∧ ∀ es' c', top c ≠ .project es' c'
  | .rename _ c => Safe w c ∧ NoRename c
  | .join _ _ _ _ l r => Safe w l ∧ Safe w r
  | .agg _ _ c | .sort _ c | .limit _ c | .offset _ c | .distinct c | .topN _ _ c => Safe w c

theorem meant_noRename {p : Plan} (h : NoRename p) : meant p = p := by
  induction p with
  | rename _ _ _ => exact h.elim
  | join jt p nl nr l r ihl ihr => simp only [meant, ihl h.1, ihr h.2]
  | _ => simp_all [meant, NoRename]

section
variable {w : World} {ix : Nat → Option Nat} {isConst : Expr → Bool}

/-- Scanning the index gives the rows of the table. -/
def Faithful (w : World) (ix : Nat → Option Nat) : Prop := ∀ t i, ix t = some i → (w.entries i).filterMap (w.fetch t) = w.rows t

theorem useIndex_den (hf : Faithful w ix) (p : Plan) : den w (meant (useIndex ix p)) = den w (meant p) := by
  induction p with
  | scan t =>
    unfold useIndex
    cases h : ix t with
    | none => rfl
    | some i => simp only [meant, den, hf t i h]
  | _ => simp_all [useIndex, meant, den]

theorem useIndex_noRename {p : Plan} : NoRename (useIndex ix p) ↔ NoRename p := by
  induction p with
  | scan t => unfold useIndex; cases h : ix t <;> simp [NoRename]
  | _ => simp_all [useIndex, NoRename]

theorem useIndex_chain (p : Plan) : chain (useIndex ix p) = ((chain p).1, useIndex ix (chain p).2) := by
  induction p with
  | scan t => unfold useIndex; cases h : ix t <;> simp [chain, useIndex, h]
  | _ => simp_all [useIndex, chain]

theorem useIndex_top (p : Plan) : top (useIndex ix p) = useIndex ix (top p) := by
  induction p with
  | scan t => unfold useIndex; cases h : ix t <;> simp [top, useIndex, h]
  | filter p c ih =>
    simp only [useIndex, top]
    split
    · exact ih
    · simp [useIndex]
  | _ => simp_all [useIndex, top]

theorem useIndex_safe (hf : Faithful w ix) {p : Plan} (h : Safe w p) : Safe w (useIndex ix p) := by
  induction p with
  | scan t => unfold useIndex; cases h : ix t <;> simp [Safe]
  | filter p c ih =>
    refine ⟨ih h.1, fun ht => useIndex_noRename.2 (h.2.1 ht), ?_⟩
    rw [useIndex_chain]
    simp only [useIndex_den hf]
    exact h.2.2
  | project es c ih =>
    refine ⟨ih h.1, h.2.1, fun es' c' ht => ?_⟩
    rw [useIndex_top] at ht
    cases hc : top c with
    | project es'' c'' => exact h.2.2 _ _ hc
    | scan t =>
      rw [hc] at ht
      simp only [useIndex] at ht
      split at ht <;> cases ht
    | _ => rw [hc] at ht; cases ht
  | rename n c ih => exact ⟨ih h.1, useIndex_noRename.2 h.2⟩
  | join jt p nl nr l r ihl ihr => exact ⟨ihl h.1, ihr h.2⟩
  | _ => simp_all [useIndex, Safe]

theorem filterD_true {p : Expr} (h : isTrueLit p = true) (e : End) (xs : List Row) : filterD p e xs = (xs, e) := by
  induction xs with
  | nil => rfl
  | cons a as ih =>
    have hk : whereKeeps p a = some true := by
      unfold isTrueLit at h
      split at h
      · rename_i v
        split at h
        · rename_i b hv
          simp [whereKeeps, eval, asBool, hv, h]
        · cases h
      · cases h
    simp only [filterD, hk, ih]
    rfl

theorem prune_noRename {p : Plan} (h : NoRename p) : NoRename (prune isConst p) := by
  induction p with
  | filter p c ih =>
    simp only [prune]
    split
    · exact h
    · exact ih h
  | project es c ih => cases es with
    | nil => exact h
    | cons => exact ih h
  | rename _ _ _ => exact h.elim
  | join jt p nl nr l r ihl ihr => exact ⟨ihl h.1, ihr h.2⟩
  | _ => simp_all [prune, NoRename]

/-- After pruning no rename is left. -/
theorem prune_clean {p : Plan} (h : Safe w p) : NoRename (prune isConst p) := by
  induction p with
  | filter p c ih =>
    simp only [prune]
    split
    · rename_i ht; exact h.2.1 (by simp_all)
    · exact ih h.1
  | project es c ih => cases es with
    | nil => exact (h.2.1 rfl).elim
    | cons => exact ih h.1
  | rename _ _ _ => exact h.2
  | join jt p nl nr l r ihl ihr => exact ⟨ihl h.1, ihr h.2⟩
  | _ => simp_all [prune, NoRename, Safe]

theorem prune_den {p : Plan} (h : Safe w p) : den w (meant (prune isConst p)) = den w (meant p) := by
  induction p with
  | filter p c ih =>
    simp only [prune]
    split
    · rename_i ht; simp only [meant, den, filterD_true (Bool.and_eq_true_iff.1 ht).1]
    · simp only [meant, den, ih h.1]
  | project es c ih => cases es with
    | nil => exact (h.2.1 rfl).elim
    | cons => simp only [prune, meant, den, ih h.1]
  | rename _ _ _ => rfl
  | join jt p nl nr l r ihl ihr => simp only [prune, meant, den, ihl h.1, ihr h.2]
  | _ => simp_all [prune, meant, den, Safe]

theorem chain_safe {p : Plan} (h : Safe w p) : Safe w (chain p).2 := by
  induction p with
  | filter p c ih => exact ih h.1
  | rename n c ih => exact ih h.1
  | _ => exact h

theorem prune_chain {p : Plan} (h : Safe w p) : (∀ q ∈ (chain (prune isConst p)).1, q ∈ (chain p).1) ∧ den w (meant (chain (prune isConst p)).2) = den w (meant (chain p).2) := by
  induction p with
  | filter p c ih =>
    simp only [prune]
    split
    · exact ⟨fun q hq => List.mem_cons_of_mem _ hq, rfl⟩
    · refine ⟨fun q hq => ?_, (ih h.1).2⟩
      rcases List.mem_cons.1 hq with rfl | hq
      · exact List.mem_cons_self
      · exact List.mem_cons_of_mem _ ((ih h.1).1 q hq)
  | rename n c ih => exact ⟨fun q hq => hq, rfl⟩
  | project es c ih => cases es with
    | nil => exact (h.2.1 rfl).elim
    | cons e es => exact ⟨by simp [prune, chain], by simpa only [prune, chain] using prune_den h⟩
  | _ => exact ⟨by simp [prune, chain], by simpa only [prune, chain] using prune_den h⟩

theorem prune_top {p : Plan} (h : Safe w p) (hp : ∀ es c, top p ≠ .project es c) : ∀ es c, top (prune isConst p) ≠ .project es c := by
  induction p with
  | filter p c ih =>
    simp only [prune, top] at hp ⊢
    split
    · rename_i ht; simp only [(Bool.and_eq_true_iff.1 ht).1, if_true] at hp; exact hp
    · simp only [top]
      split
      · rename_i ht; simp only [ht, if_true] at hp; exact ih h.1 hp
      · simp
  | rename n c ih => exact hp
  | project es c ih => exact (hp es c rfl).elim
  | _ => simp [prune, top]

theorem prune_safe {p : Plan} (h : Safe w p) : Safe w (prune isConst p) := by
  induction p with
  | filter p c ih =>
    simp only [prune]
    split
    · exact h.1
    · rename_i ht
      refine ⟨ih h.1, fun h' => prune_noRename (h.2.1 h'), ?_⟩
      obtain ⟨h1, h2⟩ := prune_chain h.1
      rcases h.2.2 with he | hd
      · left
        cases hc : (chain (prune isConst c)).1 with
        | nil => rfl
        | cons q qs =>
          have := h1 q (by rw [hc]; exact List.mem_cons_self)
          rw [he] at this
          cases this
      · right
        intro q hq row hrow
        rw [h2] at hrow
        refine hd q ?_ row hrow
        rcases List.mem_cons.1 hq with rfl | hq
        · exact List.mem_cons_self
        · exact List.mem_cons_of_mem _ (h1 q hq)
  | project es c ih => cases es with
    | nil => exact (h.2.1 rfl).elim
    | cons e es => exact ⟨ih h.1, by simp, prune_top h.1 h.2.2⟩
  | rename n c ih => exact h.1
  | join jt p nl nr l r ihl ihr => exact ⟨ihl h.1, ihr h.2⟩
  | _ => simp_all [prune, Safe]

theorem and_keeps {p q : Expr} {row : Row} (hp : Decided p row) (hq : Decided q row) :
    Decided (.and p q) row ∧ ∃ a b, whereKeeps p row = some a ∧ whereKeeps q row = some b ∧ whereKeeps (.and p q) row = some (a && b) := by
  rcases hp with ⟨x, v, hv, hx⟩ | hp
  · rcases hq with ⟨y, u, hu, hy⟩ | hq
    · have he : eval false (rowEnv row) (.and p q) = .ok (ofTri (performAnd (boolAsTri v) (boolAsTri u))) := by simp [eval, hv, hu, Res.bind]
      have bx : boolAsTri v = x := by
        unfold truth at hx; unfold boolAsTri
        split at hx <;> simp_all
      have by_ : boolAsTri u = y := by
        unfold truth at hy; unfold boolAsTri
        split at hy <;> simp_all
      refine ⟨Or.inl ⟨performAnd x y, _, he, ?_⟩, asBool v, asBool u, by simp [whereKeeps, hv], by simp [whereKeeps, hu], ?_⟩
      · rw [bx, by_]; cases x <;> cases y <;> rfl
      · simp only [whereKeeps, he, asBool_truth hx, asBool_truth hy, bx, by_]
        cases x <;> cases y <;> rfl
    · have he : eval false (rowEnv row) (.and p q) = .err := by simp [eval, hv, hq, Res.bind]
      exact ⟨Or.inr he, asBool v, false, by simp [whereKeeps, hv], by simp [whereKeeps, hq], by simp [whereKeeps, he]⟩
  · have he : eval false (rowEnv row) (.and p q) = .err := by simp [eval, hp, Res.bind]
    obtain ⟨b, hb, _⟩ := keeps_decided hq
    exact ⟨Or.inr he, false, b, by simp [whereKeeps, hp], hb, by simp [whereKeeps, he]⟩

theorem filterD_and {p q : Expr} {e : End} {xs : List Row} (hp : ∀ row ∈ xs, Decided p row) (hq : ∀ row ∈ xs, Decided q row) :
    filterD p (filterD q e xs).2 (filterD q e xs).1 = filterD (.and p q) e xs := by
  induction xs with
  | nil => rfl
  | cons a as ih =>
    obtain ⟨_, x, y, hx, hy, hxy⟩ := and_keeps (hp a List.mem_cons_self) (hq a List.mem_cons_self)
    have ih := ih (fun r hr => hp r (List.mem_cons_of_mem _ hr)) (fun r hr => hq r (List.mem_cons_of_mem _ hr))
    simp only [filterD, hy, hxy]
    cases x <;> cases y <;> simp only [Bool.and_true, Bool.and_false, Bool.false_and, Out.cons, filterD, hx, ih]

theorem pushDown_den {p : Expr} {c : Plan} (hc : NoRename c) (h : (chain c).1 = [] ∨ ∀ q ∈ p :: (chain c).1, ∀ row ∈ (den w (chain c).2).1, Decided q row) :
    den w (pushDown p c) = den w (.filter p c) := by
  induction c generalizing p with
  | filter q c ih =>
    have hd : ∀ r ∈ p :: q :: (chain c).1, ∀ row ∈ (den w (chain c).2).1, Decided r row := by
      rcases h with h | h
      · simp [chain] at h
      · exact h
    have hsub : ∀ (d : Plan), NoRename d → ∀ row ∈ (den w d).1, row ∈ (den w (chain d).2).1 := by
      intro d hd
      induction d with
      | filter r d ihd =>
        intro row hrow
        refine ihd hd row ?_
        simp only [den] at hrow
        revert hrow
        generalize (den w d).2 = e
        generalize (den w d).1 = xs
        intro hrow
        induction xs with
        | nil => exact hrow
        | cons a as iha =>
          simp only [filterD] at hrow
          split at hrow
          · rcases List.mem_cons.1 hrow with rfl | hr
            · exact List.mem_cons_self
            · exact List.mem_cons_of_mem _ (iha hr)
          · exact List.mem_cons_of_mem _ (iha hrow)
          · cases hrow
      | rename _ _ _ => exact hd.elim
      | _ => intro row hrow; exact hrow
    simp only [pushDown]
    rw [ih hc]
    · simp only [den]
      exact (filterD_and (fun row hr => hd p (by simp) row (hsub c hc row hr)) (fun row hr => hd q (by simp) row (hsub c hc row hr))).symm
    · right
      intro r hr row hrow
      rcases List.mem_cons.1 hr with rfl | hr
      · exact (and_keeps (hd p (by simp) row hrow) (hd q (by simp) row hrow)).1
      · exact hd r (by simp [hr]) row hrow
  | _ => rfl

theorem chain_noRename {p : Plan} (h : NoRename p) : NoRename (chain p).2 := by
  induction p with
  | filter p c ih => exact ih h
  | rename _ _ _ => exact h.elim
  | _ => exact h

theorem rewrite_den {p : Plan} (hn : NoRename p) (h : Safe w p) : den w (rewrite p) = den w p := by
  induction p with
  | filter p c ih =>
    have hc := h.2.2
    rw [meant_noRename (chain_noRename (p := c) hn)] at hc
    exact pushDown_den hn hc
  | project es c ih =>
    have hp : isProjection c = false := by
      cases c with
      | project es' c' => exact (h.2.2 es' c' rfl).elim
      | rename => exact hn.elim
      | _ => rfl
    simp only [rewrite, hp, den, ih hn h.1]
    simp [den, ih hn h.1]
  | rename _ _ _ => exact hn.elim
  | join jt p nl nr l r ihl ihr => simp only [rewrite, den, ihl hn.1 h.1, ihr hn.2 h.2]
  | _ => simp_all [rewrite, den, Safe, NoRename]

/-- The optimizer does not change the result: for every plan in which no projection stands on a projection, renames are not nested, and stacked filters have predicates with a
truth value on all their input, if the indexes in use give the rows of their tables, then running what the optimizer returns gives the same rows in the same order and ends the
same way as running the plan that was meant. -/
theorem C72_same_rows_partial (hf : Faithful w ix) {known : Nat → Bool} {p q : Plan} (hs : Safe w p) (ho : optimize ix isConst known p = some q) (xs : List Row) (e : End) :
    Runs w q xs e ↔ Runs w (meant p) xs e := by
  unfold optimize at ho
  simp only at ho
  split at ho
  · cases ho
    have hu := useIndex_safe hf hs
    rw [runs_iff, runs_iff, rewrite_den (prune_clean hu) (prune_safe hu)]
    have h1 := prune_den (isConst := isConst) hu
    rw [useIndex_den hf, meant_noRename (prune_clean hu)] at h1
    rw [h1]
  · cases ho

/-- Every plan runs to an end, whatever the tables hold: no query goes on for ever. -/
theorem C72_terminates (w : World) (p : Plan) : ∃ xs e, Runs w p xs e := ⟨_, _, runs_den w p⟩

end

/-! ### A concrete case -/

def exWorld : World where
  rows := fun _ => [[new (.integer 1), new (.integer 10)], [new (.integer 2), new (.integer 20)], [new (.integer 3), new .null]]
  entries := fun _ => [0, 1, 2]
  fetch := fun _ r => [[new (.integer 1), new (.integer 10)], [new (.integer 2), new (.integer 20)], [new (.integer 3), new .null]][r]?
  debug := fun _ => []
  drain := id
  heap := ⟨fun _ => 0, id⟩

/-- `SELECT b FROM (SELECT * FROM t WHERE a < 3) AS s WHERE b > 5 LIMIT 1` -/
def exPlan : Plan :=
  .limit 1 (.project [.col 0 1] (.filter (.cmp .gt (.col 0 1) (.lit (new (.integer 5)))) (.rename 2 (.filter (.cmp .lt (.col 0 0) (.lit (new (.integer 3)))) (.scan 0)))))

def exOpt : Plan :=
  .limit 1 (.project [.col 0 1] (.filter (.and (.cmp .gt (.col 0 1) (.lit (new (.integer 5)))) (.cmp .lt (.col 0 0) (.lit (new (.integer 3))))) (.index 0 7)))

theorem ex_faithful : Faithful exWorld (fun _ => some 7) := fun _ _ _ => rfl

theorem ex_safe : Safe exWorld exPlan := by
  refine ⟨⟨⟨⟨trivial, nofun, Or.inl rfl⟩, trivial⟩, nofun, Or.inr ?_⟩, by simp, nofun⟩
  intro q hq row hrow
  simp only [chain, List.mem_cons, List.not_mem_nil, or_false] at hq
  simp only [chain, meant, den, exWorld, List.mem_cons, List.not_mem_nil, or_false] at hrow
  rcases hq with rfl | rfl <;> rcases hrow with rfl | rfl | rfl
  · exact .inl ⟨.t, _, rfl, rfl⟩
  · exact .inl ⟨.t, _, rfl, rfl⟩
  · exact .inl ⟨.n, _, rfl, rfl⟩
  · exact .inl ⟨.t, _, rfl, rfl⟩
  · exact .inl ⟨.t, _, rfl, rfl⟩
  · exact .inl ⟨.f, _, rfl, rfl⟩

example : Faithful exWorld (fun _ => some 7) ∧ Safe exWorld exPlan ∧ optimize (fun _ => some 7) (fun _ => false) (fun _ => true) exPlan = some exOpt ∧
    Runs exWorld exOpt [[new (.integer 10)]] .done := ⟨ex_faithful, ex_safe, rfl, runs_iff.2 rfl⟩

/-! ### Where the optimizer changes the result -/

/-- Of two projections on each other the outer one is dropped. -/
theorem C72_double_projection_fails : ∃ w p q xs ys, optimize (fun _ => none) (fun _ => false) (fun _ => true) p = some q ∧ Runs w p xs .done ∧ Runs w q ys .done ∧ xs.length = 3 ∧
    (∀ r ∈ xs, r.length = 1) ∧ ∀ r ∈ ys, r.length = 2 :=
  ⟨exWorld, .project [.col 0 0] (.project [.col 0 1, .col 0 0] (.scan 0)), .project [.col 0 1, .col 0 0] (.scan 0), _, _, rfl, runs_iff.2 rfl, runs_iff.2 rfl, rfl, by decide, by decide⟩

/-- Of two renames on each other only one is taken out, and the other panics. -/
theorem C72_nested_rename_fails : ∃ w p q xs, optimize (fun _ => none) (fun _ => false) (fun _ => true) p = some q ∧ Runs w (meant p) xs .done ∧ xs.length = 3 ∧ Runs w q [] .panic :=
  ⟨exWorld, .rename 2 (.rename 2 (.scan 0)), .rename 2 (.scan 0), _, rfl, runs_iff.2 rfl, rfl, runs_iff.2 rfl⟩

/-- Merging filters evaluates the outer predicate on rows the inner one has rejected: a query that ran now panics. -/
theorem C72_merged_filters_fails : ∃ w p q xs, optimize (fun _ => none) (fun _ => false) (fun _ => true) p = some q ∧ Runs w p xs .done ∧ Runs w q [] .panic :=
  ⟨{ exWorld with rows := fun _ => [[new (.integer (-2147483648))]] },
    .filter (.cmp .lt (.neg (.col 0 0)) (.lit (new (.integer 0)))) (.filter (.cmp .gt (.col 0 0) (.lit (new (.integer 0)))) (.scan 0)), _, [], rfl, runs_iff.2 rfl, runs_iff.2 rfl⟩

/-- A join without a condition, or with a column or a constant as its condition, is always refused: `FROM a, b` and `ON TRUE` never run. -/
theorem C72_cross_join_fails (ix : Nat → Option Nat) (isConst : Expr → Bool) (known : Nat → Bool) (jt : JoinType) {p : Expr} (hp : ∃ v, p = .lit v) (nl nr : Nat) (l r : Plan) :
    optimize ix isConst known (.join jt p nl nr l r) = none := by
  obtain ⟨v, rfl⟩ := hp
  rfl

end Verif.Plan

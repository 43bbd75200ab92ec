import Verif.Plan.Model
import Verif.Exec.JoinProps
import Verif.Exec.SortProps

/-!
# What a plan means: the rows and the ending as a function of the plan

`den` is a plain recursive evaluator of plans over lists. `runs_den` shows that the executors compute it, so that every plan terminates and its result depends on its
children's results only.
-/

namespace Verif.Plan

open Verif.Wire Verif.Bytes Verif.Sql Verif.Exec

abbrev Out := List Row × End

def Out.cons (a : Row) (o : Out) : Out := (a :: o.1, o.2)

def filterD (p : Expr) (e : End) : List Row → Out
  | [] => ([], e)
  | a :: as => match whereKeeps p a with
    | some true => (filterD p e as).cons a
    | some false => filterD p e as
    | none => ([], .panic)

def projectD (es : List Expr) (e : End) : List Row → Out
  | [] => ([], e)
  | a :: as => match Exec.project (rowEnv a) es with
    | .ok b => (projectD es e as).cons b
    | .error e => ([], e)

def renameD (w : Nat) (e : End) : List Row → Out
  | [] => ([], e)
  | _ :: as => if w = 0 then (renameD w e as).cons [] else ([], .panic)

def distinctD (debug : Value → List Byte) (e : End) : List (List Byte) → List Row → Out
  | _, [] => ([], e)
  | seen, a :: as => if seen.contains (serRow debug a) then distinctD debug e seen as else (distinctD debug e (serRow debug a :: seen) as).cons a

def sortD (specs : Specs) (o : Out) : Out := if o.2 = .panic then ([], .panic) else (stableSort o.1 fun a b => sortCmp specs a b != .gt, .done)

def aggD (drain : List Group → List Group) (by_ : List Expr) (aggs : List Agg) (e : End) : List Group → Bool → List Row → Out
  | gs, any, [] => (match e with
    | .done => ((stableSort (drain (if any = false ∧ by_.isEmpty then [([], aggs.map Agg.empty)] else gs)) fun a b => groupCmp a.1 b.1 != .gt).reverse.map (outRow aggs), .done)
    | .err => ([], .done)
    | .panic => ([], .panic))
  | gs, any, a :: as => (match Exec.project (rowEnv a) by_ with
    | .ok key => (match touch aggs key a gs with
      | some gs' => aggD drain by_ aggs e gs' true as
      | none => ([], .panic))
    | .error _ => ([], .panic))

def checkD (ok : Bool) (o : Out) : Out := if ok ∨ o.1 = [] then o else ([], .panic)

def topD (h : Heap Entry) (k : Nat) (es : List Expr) (e : End) : List Entry → List Row → Out
  | heap, [] => if e = .panic then ([], .panic) else (((h.order heap).reverse).map (·.2), .done)
  | heap, a :: as => match sortKeys es a with
    | some ks => topD h k es e (heapStep h k heap (ks, a)) as
    | none => ([], .panic)

/-- Reading the right side for one left row: the rows given out, and either whether there was a match and what is recorded, or how the query ended. -/
def scanD (jt : JoinType) (p : Expr) (a : Row) (e : End) : List Row → Bool → Saved → List Row × Except End (Bool × Saved)
  | [], found, S => ([], if e = .done then .ok (found, S) else .error e)
  | b :: bs, found, S => match (if jt = .cross then .ok true else pairHolds p a b) with
    | .ok true => let t := scanD jt p a e bs true ((S.add jt b).mark jt b); ((a ++ b) :: t.1, t.2)
    | .ok false => scanD jt p a e bs found (S.add jt b)
    | .error e => ([], .error e)

/-- The rows after the left side is exhausted. -/
def lastD (jt : JoinType) (nl nr : Nat) (e : End) (S : Saved) : Out :=
  if e = .done ∧ jt.keepsRight then (S.unmatchedRight.map (nulls nl ++ ·) ++ (if jt = .full then S.unmatchedLeft.map (· ++ nulls nr) else []), .done) else ([], e)

def joinD (jt : JoinType) (p : Expr) (nl nr : Nat) (el : End) (r : Out) : List Row → Saved → Out
  | [], S => lastD jt nl nr el S
  | a :: as, S => match scanD jt p a r.2 r.1 false S with
    | (xs, .error e) => (xs, e)
    | (xs, .ok (true, S')) => let o := joinD jt p nl nr el r as S'; (xs ++ o.1, o.2)
    | (xs, .ok (false, S')) => (match jt with
      | .left => let o := joinD jt p nl nr el r as S'; (xs ++ (a ++ nulls nr) :: o.1, o.2)
      | .full => let o := joinD jt p nl nr el r as { S' with unmatchedLeft := S'.unmatchedLeft ++ [a] }; (xs ++ o.1, o.2)
      | _ => let o := joinD jt p nl nr el r as S'; (xs ++ o.1, o.2))

/-- The rows a plan gives and how it ends. -/
def den (w : World) : Plan → Out
  | .scan t => (w.rows t, .done)
  | .index t ix => ((w.entries ix).filterMap (w.fetch t), .done)
  | .values rows => (rows, .done)
  | .filter p c => let o := den w c; filterD p o.2 o.1
  | .project es c => let o := den w c; projectD es o.2 o.1
  | .rename n c => let o := den w c; renameD n o.2 o.1
  | .join jt p nl nr l r => let o := den w l; joinD jt p nl nr o.2 (den w r) o.1 ⟨[], [], []⟩
  | .agg by_ aggs c => let o := den w c; checkD (by_.all isCol) (aggD w.drain by_ aggs o.2 [] false o.1)
  | .sort specs c => sortD specs (den w c)
  | .limit n c => let o := den w c; (o.1.take n, if n ≤ o.1.length then .done else o.2)
  | .offset n c => let o := den w c; (o.1.drop n, o.2)
  | .distinct c => let o := den w c; distinctD w.debug o.2 [] o.1
  | .topN k specs c => let o := den w c; topD w.heap k (specs.map (·.1)) o.2 [] o.1

variable {σ : Type} {child : Machine σ Row} {c : σ} {xs : List Row} {e : End}

theorem filter_den {p : Expr} (h : Yields child c xs e) : Yields (Exec.filter p child) c (filterD p e xs).1 (filterD p e xs).2 := by
  induction h with
  | @emit s a s' xs e h1 h2 ih =>
    unfold filterD
    split
    · rename_i hk; exact .emit (by simp [Exec.filter, h1, hk]) ih
    · rename_i hk; exact .cont (by simp [Exec.filter, h1, hk]) ih
    · rename_i hk; exact .stop (by simp [Exec.filter, h1, hk])
  | @cont s s' xs e h1 h2 ih => exact .cont (by simp [Exec.filter, h1]) ih
  | @stop s e h1 => exact .stop (by simp [Exec.filter, h1, filterD])

theorem project_den {es : List Expr} (h : Yields child c xs e) : Yields (Exec.projection es child) c (projectD es e xs).1 (projectD es e xs).2 := by
  induction h with
  | @emit s a s' xs e h1 h2 ih =>
    unfold projectD
    split
    · rename_i hk; exact .emit (by simp [Exec.projection, h1, hk]) ih
    · rename_i hk; exact .stop (by simp [Exec.projection, h1, hk])
  | @cont s s' xs e h1 h2 ih => exact .cont (by simp [Exec.projection, h1]) ih
  | @stop s e h1 => exact .stop (by simp [Exec.projection, h1, projectD])

theorem rename_den {w : Nat} (h : Yields child c xs e) : Yields (renameExec w child) c (renameD w e xs).1 (renameD w e xs).2 := by
  induction h with
  | @emit s a s' xs e h1 h2 ih =>
    unfold renameD
    split
    · rename_i hk; exact .emit (by simp [renameExec, h1, hk]) ih
    · rename_i hk; exact .stop (by simp [renameExec, h1, hk])
  | @cont s s' xs e h1 h2 ih => exact .cont (by simp [renameExec, h1]) ih
  | @stop s e h1 => exact .stop (by simp [renameExec, h1, renameD])

theorem distinct_den {debug : Value → List Byte} (h : Yields child c xs e) (seen : List (List Byte)) :
    Yields (Exec.distinct debug child) (seen, c) (distinctD debug e seen xs).1 (distinctD debug e seen xs).2 := by
  induction h generalizing seen with
  | @emit s a s' xs e h1 h2 ih =>
    unfold distinctD
    split
    · rename_i hk; exact .cont (s' := (seen, s')) (by simp only [Exec.distinct, h1, hk, if_true]) (ih seen)
    · rename_i hk; exact .emit (s' := (serRow debug a :: seen, s')) (by simp only [Exec.distinct, h1, hk, if_false, Bool.false_eq_true]) (ih _)
  | @cont s s' xs e h1 h2 ih => exact .cont (s' := (seen, s')) (by simp [Exec.distinct, h1]) (ih seen)
  | @stop s e h1 => exact .stop (by simp [Exec.distinct, h1, distinctD])

theorem sort_out {specs : Specs} (rows : List Row) : Yields (Exec.sort specs child) (.out rows) rows .done := by
  induction rows with
  | nil => exact .stop rfl
  | cons a as ih => exact .emit rfl ih

theorem sort_den {specs : Specs} (h : Yields child c xs e) (acc : List Row) :
    Yields (Exec.sort specs child) (.collect acc c) (sortD specs (acc ++ xs, e)).1 (sortD specs (acc ++ xs, e)).2 := by
  induction h generalizing acc with
  | @emit s a s' xs e h1 h2 ih =>
    have := ih (acc ++ [a])
    rw [List.append_assoc] at this
    exact .cont (s' := .collect (acc ++ [a]) s') (by simp [Exec.sort, h1]) this
  | @cont s s' xs e h1 h2 ih => exact .cont (s' := .collect acc s') (by simp [Exec.sort, h1]) (ih acc)
  | @stop s e h1 =>
    rw [List.append_nil]
    cases e with
    | panic => exact .stop (by simp [Exec.sort, h1, sortD])
    | done => exact .cont (by simp [Exec.sort, h1]; rfl) (sort_out _)
    | err => exact .cont (by simp [Exec.sort, h1]; rfl) (sort_out _)

theorem agg_out {drain : List Group → List Group} {by_ : List Expr} {aggs : List Agg} (rows : List Row) : Yields (aggregate drain by_ aggs child) (.out rows) rows .done := by
  induction rows with
  | nil => exact .stop rfl
  | cons a as ih => exact .emit rfl ih

theorem agg_den {drain : List Group → List Group} {by_ : List Expr} {aggs : List Agg} (h : Yields child c xs e) (gs : List Group) (any : Bool) :
    Yields (aggregate drain by_ aggs child) (.collect gs any c) (aggD drain by_ aggs e gs any xs).1 (aggD drain by_ aggs e gs any xs).2 := by
  induction h generalizing gs any with
  | @emit s a s' xs e h1 h2 ih =>
    unfold aggD
    split
    · rename_i key hk
      split
      · rename_i gs' ht; exact .cont (s' := .collect gs' true s') (by simp [aggregate, h1, hk, ht]) (ih gs' true)
      · rename_i ht; exact .stop (by simp [aggregate, h1, hk, ht])
    · rename_i hk; exact .stop (by simp [aggregate, h1, hk])
  | @cont s s' xs e h1 h2 ih => exact .cont (s' := .collect gs any s') (by simp [aggregate, h1]) (ih gs any)
  | @stop s e h1 =>
    cases e with
    | panic => exact .stop (by simp [aggregate, h1, aggD])
    | done => exact .cont (by simp only [aggregate, h1]; rfl) (agg_out _)
    | err => exact .stop (by simp [aggregate, h1, aggD])

theorem check_den {ok : Bool} (h : Yields child c xs e) : Yields (checked ok child) c (checkD ok (xs, e)).1 (checkD ok (xs, e)).2 := by
  cases ok with
  | true =>
    simp only [checkD, true_or, if_true]
    induction h with
    | emit h1 _ ih => exact .emit (by simp only [checked, h1, if_true]) ih
    | cont h1 _ ih => exact .cont (by simp only [checked, h1]) ih
    | stop h1 => exact .stop (by simp only [checked, h1])
  | false =>
    induction h with
    | emit h1 _ ih => exact .stop (by simp [checked, h1, checkD])
    | cont h1 _ ih => exact .cont (by simp only [checked, h1]) ih
    | stop h1 => exact .stop (by simp [checked, h1, checkD])

theorem top_out {h : Heap Entry} {k : Nat} {es : List Expr} (rows : List Entry) : Yields (Exec.topN h k es child) (.out rows) (rows.map (·.2)) .done := by
  induction rows with
  | nil => exact .stop rfl
  | cons a as ih => exact .emit rfl ih

theorem top_den {hp : Heap Entry} {k : Nat} {es : List Expr} (h : Yields child c xs e) (heap : List Entry) :
    Yields (Exec.topN hp k es child) (.collect heap c) (topD hp k es e heap xs).1 (topD hp k es e heap xs).2 := by
  induction h generalizing heap with
  | @emit s a s' xs e h1 h2 ih =>
    unfold topD
    split
    · rename_i ks hk; exact .cont (s' := .collect (heapStep hp k heap (ks, a)) s') (by simp [Exec.topN, h1, hk]) (ih _)
    · rename_i hk; exact .stop (by simp [Exec.topN, h1, hk])
  | @cont s s' xs e h1 h2 ih => exact .cont (s' := .collect heap s') (by simp [Exec.topN, h1]) (ih heap)
  | @stop s e h1 =>
    cases e with
    | panic => exact .stop (by simp [Exec.topN, h1, topD])
    | done => exact .cont (by simp only [Exec.topN, h1]) (top_out _)
    | err => exact .cont (by simp only [Exec.topN, h1]) (top_out _)

section
variable {τ : Type} {jt : JoinType} {p : Expr} {nl nr : Nat} {left : Machine σ Row} {right : Machine τ Row} {r0 : τ}

/-- Reading the right side from state `r` when what comes after is known. -/
theorem scan_den {r : τ} {rs : List Row} {er : End} (hr : Yields right r rs er) (a : Row) (l : σ) (found : Bool) (S : Saved) :
    (∀ ys e f' S', (scanD jt p a er rs found S).2 = .ok (f', S') → Yields (nestedLoop jt p nl nr left right r0) (.after l a f' S') ys e →
      Yields (nestedLoop jt p nl nr left right r0) (.scan l a found r S) ((scanD jt p a er rs found S).1 ++ ys) e) ∧
    (∀ e, (scanD jt p a er rs found S).2 = .error e → Yields (nestedLoop jt p nl nr left right r0) (.scan l a found r S) (scanD jt p a er rs found S).1 e) := by
  induction hr generalizing found S with
  | @emit s b s' xs er h1 h2 ih =>
    constructor
    · intro ys e f' S' hs ha
      unfold scanD at hs ⊢
      split at hs
      · rename_i hk
        exact .emit (s' := .scan l a true s' ((S.add jt b).mark jt b)) (by simp only [nestedLoop, h1, hk]) ((ih true _).1 ys e f' S' hs ha)
      · rename_i hk
        exact .cont (s' := .scan l a found s' (S.add jt b)) (by simp only [nestedLoop, h1, hk]) ((ih found _).1 ys e f' S' hs ha)
      · cases hs
    · intro e hs
      unfold scanD at hs ⊢
      split at hs
      · rename_i hk
        exact .emit (s' := .scan l a true s' ((S.add jt b).mark jt b)) (by simp only [nestedLoop, h1, hk]) ((ih true _).2 e hs)
      · rename_i hk
        exact .cont (s' := .scan l a found s' (S.add jt b)) (by simp only [nestedLoop, h1, hk]) ((ih found _).2 e hs)
      · rename_i e' hk
        cases hs
        exact .stop (by simp only [nestedLoop, h1, hk])
  | @cont s s' xs er h1 h2 ih =>
    exact ⟨fun ys e f' S' hs ha => .cont (s' := .scan l a found s' S) (by simp only [nestedLoop, h1]) ((ih found S).1 ys e f' S' hs ha),
      fun e hs => .cont (s' := .scan l a found s' S) (by simp only [nestedLoop, h1]) ((ih found S).2 e hs)⟩
  | @stop s er h1 =>
    simp only [scanD]
    constructor
    · intro ys e f' S' hs ha
      split at hs
      · rename_i he
        subst he
        cases hs
        exact .cont (s' := .after l a found S) (by simp only [nestedLoop, h1]) ha
      · cases hs
    · intro e hs
      split at hs
      · cases hs
      · rename_i he
        cases hs
        exact .stop (by cases er <;> simp_all [nestedLoop])

theorem last_left (as : List Row) : Yields (nestedLoop jt p nl nr left right r0) (.unmatchedLeft as) (as.map (· ++ nulls nr)) .done := by
  induction as with
  | nil => exact .stop rfl
  | cons a as ih => exact .emit rfl ih

theorem last_right (bs : List Row) (S : Saved) : Yields (nestedLoop jt p nl nr left right r0) (.unmatchedRight bs S)
    (bs.map (nulls nl ++ ·) ++ (if jt = .full then S.unmatchedLeft.map (· ++ nulls nr) else [])) .done := by
  induction bs with
  | nil =>
    by_cases hj : jt = .full
    · simp only [hj, if_true, List.map_nil, List.nil_append]
      exact .cont (s' := .unmatchedLeft S.unmatchedLeft) (by simp [nestedLoop]) (last_left _)
    · simp only [hj, if_false, List.map_nil, List.nil_append]
      exact .stop (by simp [nestedLoop, hj])
  | cons b bs ih => exact .emit rfl ih

theorem join_den {l : σ} {ls rs : List Row} {el er : End} (hl : Yields left l ls el) (hr : Yields right r0 rs er) (S : Saved) :
    Yields (nestedLoop jt p nl nr left right r0) (.fetch l S) (joinD jt p nl nr el (rs, er) ls S).1 (joinD jt p nl nr el (rs, er) ls S).2 := by
  induction hl generalizing S with
  | @emit s a s' xs el h1 h2 ih =>
    refine .cont (s' := .scan s' a false r0 S) (by simp only [nestedLoop, h1]) ?_
    have hs := scan_den (jt := jt) (p := p) (nl := nl) (nr := nr) (left := left) (r0 := r0) hr a s' false S
    unfold joinD
    split
    · rename_i ys e heq
      have h3 : (scanD jt p a er rs false S).2 = .error e := by rw [heq]
      have := hs.2 e h3
      rw [heq] at this
      exact this
    · rename_i ys S' heq
      have h3 : (scanD jt p a er rs false S).2 = .ok (true, S') := by rw [heq]
      have := hs.1 _ _ true S' h3 (.cont (s' := .fetch s' S') (by simp [nestedLoop]) (ih S'))
      rw [heq] at this
      exact this
    · rename_i ys S' heq
      have h3 : (scanD jt p a er rs false S).2 = .ok (false, S') := by rw [heq]
      cases jt with
      | left =>
        have := hs.1 _ _ false S' h3 (.emit (a := a ++ nulls nr) (s' := .fetch s' S') (by simp [nestedLoop]) (ih S'))
        rw [heq] at this
        exact this
      | full =>
        have := hs.1 _ _ false S' h3 (.cont (s' := .fetch s' { S' with unmatchedLeft := S'.unmatchedLeft ++ [a] }) (by simp [nestedLoop]) (ih _))
        rw [heq] at this
        exact this
      | inner | cross | right =>
        have := hs.1 _ _ false S' h3 (.cont (s' := .fetch s' S') (by simp [nestedLoop]) (ih S'))
        rw [heq] at this
        exact this
  | @cont s s' xs el h1 h2 ih => exact .cont (s' := .fetch s' S) (by simp only [nestedLoop, h1]) (ih S)
  | @stop s el h1 =>
    unfold joinD lastD
    split
    · rename_i hk
      obtain ⟨rfl, hk⟩ := hk
      exact .cont (s' := .unmatchedRight S.unmatchedRight S) (by simp only [nestedLoop, h1, hk, if_true]) (last_right _ S)
    · rename_i hk
      refine .stop ?_
      simp only [nestedLoop, h1]
      cases el with
      | done => simp_all
      | _ => rfl
end

theorem index_den {fetch : Nat → Option Row} (es : List Nat) : Yields (indexScan [] fetch source) es (es.filterMap fetch) .done := by
  induction es with
  | nil => exact .stop rfl
  | cons r rs ih =>
    rw [List.filterMap_cons]
    cases h : fetch r with
    | none => exact .cont (by simp only [indexScan, source, h]) ih
    | some row => exact .emit (by simp only [indexScan, source, h, matchAll]) ih

/-- Every plan terminates, with the rows and the ending of `den`, whatever the sequential scans are, if they give the rows of the tables. -/
theorem yields_den (w : World) {leaf : Nat → Exe} (hl : ∀ t, Yields (leaf t).m (leaf t).s (w.rows t) .done) (p : Plan) :
    Yields (compileOn w leaf p).m (compileOn w leaf p).s (den w p).1 (den w p).2 := by
  induction p with
  | scan t => exact hl t
  | index t ix => exact index_den _
  | values rows => exact source_yields _
  | filter p c ih => exact filter_den ih
  | project es c ih => exact project_den ih
  | rename n c ih => exact rename_den ih
  | join jt p nl nr l r ihl ihr => exact join_den ihl ihr _
  | agg by_ aggs c ih => exact check_den (agg_den ih [] false)
  | sort specs c ih => exact sort_den (specs := specs) ih []
  | limit n c ih => exact C40_limit n ih
  | offset n c ih => exact C40_offset n ih
  | distinct c ih => exact distinct_den ih []
  | topN k specs c ih => exact top_den ih []

theorem runs_den (w : World) (p : Plan) : Runs w p (den w p).1 (den w p).2 := yields_den w (fun t => source_yields (w.rows t)) p

theorem runs_iff {w : World} {p : Plan} {xs : List Row} {e : End} : Runs w p xs e ↔ den w p = (xs, e) := by
  constructor
  · intro h
    obtain ⟨h1, h2⟩ := C40_deterministic h (runs_den w p)
    exact Prod.ext h1.symm h2.symm
  · intro h
    have := runs_den w p
    rwa [h] at this

end Verif.Plan

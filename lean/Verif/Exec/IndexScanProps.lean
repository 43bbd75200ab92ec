import Verif.Exec.IndexScan
import Verif.Exec.Props
import Verif.Exec.SortProps
import Verif.Sql.ExprProps2

/-!
# The index scan (C47)

Specification vocabulary: the predicate is an OR of ANDs of comparisons of the key column, number `c`, with integers of the type `t` (`Conj`, `disjuncts`). `lower d` and `upper d`
say whether one of the comparisons bounds the key from below and from above. A row `Keyed` by `n` has the integer `n` in the key column. `Holds p row`: the predicate is TRUE.
-/

namespace Verif.Exec

open Verif.Wire Verif.Bytes Verif.Sql

/-- The predicate is TRUE of the row. -/
def Holds (p : Expr) (row : Row) : Prop := ∃ v, eval false (rowEnv row) p = .ok v ∧ val v = .boolean true

/-- An AND of comparisons of column `c` with integers of type `t`. -/
def Conj (t c : Nat) : Expr → Prop
  | .cmp _ (.col 0 i) (.lit v) => i = c ∧ ∃ n, Fits t n ∧ v = intVal t n
  | .and a b => Conj t c a ∧ Conj t c b
  | _ => False

/-- The parts of an OR. -/
def disjuncts : Expr → List Expr
  | .or a b => disjuncts a ++ disjuncts b
  | e => [e]

/-- Some comparison bounds the key from below. -/
def lower : Expr → Bool
  | .cmp op _ _ => op == .eq || op == .gt || op == .ge
  | .and a b => lower a || lower b
  | _ => false

/-- Some comparison bounds the key from above. -/
def upper : Expr → Bool
  | .cmp op _ _ => op == .eq || op == .lt || op == .le
  | .and a b => upper a || upper b
  | _ => false

/-- Column `c` of the row is an integer of some type. -/
def KeyIs (c : Nat) (row : Row) (n : Int) : Prop := ∃ s, Fits s n ∧ row[c]? = some (intVal s n)

/-! ## Evaluation -/

theorem ofTri_true {x : Tri} (h : val (ofTri x) = .boolean true) : x = .t := by cases x <;> simp_all [ofTri, new, newTyped, val]

theorem tri_true {v : Value} (h : boolAsTri v = .t) : val v = .boolean true := by
  unfold boolAsTri at h
  split at h <;> simp_all

theorem holds_and {a b : Expr} {row : Row} (h : Holds (.and a b) row) : Holds a row ∧ Holds b row := by
  obtain ⟨v, hv, ht⟩ := h
  simp only [eval] at hv
  cases ha : eval false (rowEnv row) a <;> rw [ha] at hv <;> simp only [Res.bind] at hv <;> try cases hv
  rename_i x
  cases hb : eval false (rowEnv row) b <;> rw [hb] at hv <;> simp only at hv <;> try cases hv
  rename_i y
  have := ofTri_true ht
  refine ⟨⟨x, ha, tri_true ?_⟩, ⟨y, hb, tri_true ?_⟩⟩ <;>
    (cases h1 : boolAsTri x <;> cases h2 : boolAsTri y <;> rw [h1, h2] at this <;> simp_all [performAnd])

theorem holds_or {a b : Expr} {row : Row} (h : Holds (.or a b) row) : Holds a row ∨ Holds b row := by
  obtain ⟨v, hv, ht⟩ := h
  simp only [eval] at hv
  cases ha : eval false (rowEnv row) a <;> rw [ha] at hv <;> simp only [Res.bind] at hv <;> try cases hv
  rename_i x
  cases hb : eval false (rowEnv row) b <;> rw [hb] at hv <;> simp only at hv <;> try cases hv
  rename_i y
  have := ofTri_true ht
  by_cases hx : boolAsTri x = .t
  · exact .inl ⟨x, ha, tri_true hx⟩
  · refine .inr ⟨y, hb, tri_true ?_⟩
    cases h1 : boolAsTri x <;> cases h2 : boolAsTri y <;> rw [h1, h2] at this <;> simp_all [performOr]

theorem holds_cmp' {op : CmpOp} {t c : Nat} {m n : Int} {row : Row} (hm : Fits t m) (hk : KeyIs c row n) (h : Holds (.cmp op (.col 0 c) (.lit (intVal t m))) row) :
    op.rel n m = true := by
  obtain ⟨v, hv, ht⟩ := h
  obtain ⟨s, hs, hr⟩ := hk
  simp only [eval, rowEnv, hr, Res.bind, C69_int op hs hm] at hv
  cases hv
  have := ofTri_true ht
  unfold Tri.of at this
  split at this
  · assumption
  · cases this

theorem holds_disjunct {p : Expr} {row : Row} : Holds p row → ∃ d ∈ disjuncts p, Holds d row := by
  fun_induction disjuncts p with
  | case1 a b iha ihb =>
    intro h
    rcases holds_or h with h | h
    · obtain ⟨d, hd, h⟩ := iha h; exact ⟨d, by simp [hd], h⟩
    · obtain ⟨d, hd, h⟩ := ihb h; exact ⟨d, by simp [hd], h⟩
  | case2 e _ => intro h; exact ⟨e, by simp, h⟩

theorem ranges_disjuncts (p : Expr) : ranges p = (disjuncts p).flatMap ranges := by
  fun_induction disjuncts p with
  | case1 a b iha ihb => rw [List.flatMap_append, ← iha, ← ihb]; simp only [ranges]
  | case2 e _ => simp

/-! ## One AND -/

/-- The ends of the range are integers of type `t` that have the key `n` between them. -/
def Around (t : Nat) (n : Int) (lo hi : Option Value) : Prop :=
  (∀ v, lo = some v → ∃ m, Fits t m ∧ v = intVal t m ∧ m ≤ n) ∧ (∀ v, hi = some v → ∃ m, Fits t m ∧ v = intVal t m ∧ n ≤ m)

theorem narrow_around {t : Nat} {n : Int} {acc r : Range} (ha : Around t n acc.start acc.stop) (hr : Around t n r.start r.stop) :
    Around t n (acc.narrow r).start (acc.narrow r).stop := by
  unfold Range.narrow
  constructor
  · intro v hv
    cases h1 : r.start <;> cases h2 : acc.start <;> cases h3 : r.stop <;> cases h4 : acc.stop <;> simp only [h1, h2, h3, h4] at hv <;>
      (repeat' split at hv) <;> simp_all [Around]
  · intro v hv
    cases h1 : r.start <;> cases h2 : acc.start <;> cases h3 : r.stop <;> cases h4 : acc.stop <;> simp only [h1, h2, h3, h4] at hv <;>
      (repeat' split at hv) <;> simp_all [Around]

theorem narrow_some (acc r : Range) : ((acc.narrow r).start.isSome = (acc.start.isSome || r.start.isSome)) ∧ ((acc.narrow r).stop.isSome = (acc.stop.isSome || r.stop.isSome)) := by
  unfold Range.narrow
  cases h1 : r.start <;> cases h2 : acc.start <;> cases h3 : r.stop <;> cases h4 : acc.stop <;> simp only [h1, h2, h3, h4] <;> (repeat' split) <;> simp_all

theorem fold_around {t : Nat} {n : Int} (rs : List Range) (acc : Range) (ha : Around t n acc.start acc.stop) (hr : ∀ r ∈ rs, Around t n r.start r.stop) :
    Around t n (rs.foldl Range.narrow acc).start (rs.foldl Range.narrow acc).stop := by
  induction rs generalizing acc with
  | nil => exact ha
  | cons r rs ih => exact ih _ (narrow_around ha (hr r (by simp))) (fun r' h => hr r' (by simp [h]))

theorem fold_some (rs : List Range) (acc : Range) : ((rs.foldl Range.narrow acc).start.isSome = (acc.start.isSome || rs.any (·.start.isSome))) ∧
    ((rs.foldl Range.narrow acc).stop.isSome = (acc.stop.isSome || rs.any (·.stop.isSome))) := by
  induction rs generalizing acc with
  | nil => simp
  | cons r rs ih => simp [ih, narrow_some, Bool.or_assoc]

theorem conj_some {t c : Nat} {d : Expr} (h : Conj t c d) : (ranges d).any (·.start.isSome) = lower d ∧ (ranges d).any (·.stop.isSome) = upper d := by
  fun_induction Conj t c d with
  | case1 op i v => cases op <;> simp [ranges, constOf, eval, lower, upper]
  | case2 a b iha ihb =>
    have := fold_some (ranges a ++ ranges b) ⟨none, false, none, false⟩
    simp only [ranges, lower, upper, List.any_cons, List.any_nil, Bool.or_false, this, List.any_append, (iha h.1).1, (ihb h.2).1, (iha h.1).2, (ihb h.2).2]
    simp
  | case3 => exact h.elim

theorem conj_around {t c : Nat} {d : Expr} {row : Row} {n : Int} (h : Conj t c d) (hk : KeyIs c row n) : Holds d row → ∀ r ∈ ranges d, Around t n r.start r.stop := by
  fun_induction Conj t c d with
  | case1 op i v =>
    obtain ⟨rfl, m, hm, rfl⟩ := h
    intro hh r hr
    have := holds_cmp' hm hk hh
    cases op <;> simp [ranges, constOf, eval] at hr <;> subst hr <;> simp [CmpOp.rel] at this <;> simp [Around] <;>
      first | exact ⟨m, hm, rfl, by omega⟩ | exact ⟨⟨m, hm, rfl, by omega⟩, ⟨m, hm, rfl, by omega⟩⟩
  | case2 a b iha ihb =>
    intro hh r hr
    simp only [ranges, List.mem_singleton] at hr
    subst hr
    refine fold_around _ _ (by simp [Around]) ?_
    intro r hr
    rcases List.mem_append.1 hr with hr | hr
    · exact iha h.1 (holds_and hh).1 r hr
    · exact ihb h.2 (holds_and hh).2 r hr
  | case3 => exact h.elim

/-! ## All of them -/

theorem gt_int {t : Nat} (ht : 1 ≤ t ∧ t ≤ 4) (m n : Int) : gtV (intVal t m) (intVal t n) = decide (m > n) := by
  unfold gtV
  rw [cmp_ints ht, Bool.eq_iff_iff]
  have := @Int.compare_eq_gt m n
  simp [this]

theorem lt_int {t : Nat} (ht : 1 ≤ t ∧ t ≤ 4) (m n : Int) : ltV (intVal t m) (intVal t n) = decide (m < n) := by
  unfold ltV
  rw [cmp_ints ht, Bool.eq_iff_iff]
  have := @Int.compare_eq_lt m n
  simp [this]

/-- An end that exists is an integer of type `t`, at most `n` (at least `n`). -/
def Below (t : Nat) (n : Int) (lo : Option Value) : Prop := ∃ m, Fits t m ∧ lo = some (intVal t m) ∧ m ≤ n
def Above (t : Nat) (n : Int) (hi : Option Value) : Prop := ∃ m, Fits t m ∧ hi = some (intVal t m) ∧ n ≤ m

/-- The ends are integers of type `t`, where there are any. -/
def Typed (t : Nat) (lo hi : Option Value) : Prop := (∀ v, lo = some v → ∃ m, Fits t m ∧ v = intVal t m) ∧ (∀ v, hi = some v → ∃ m, Fits t m ∧ v = intVal t m)

theorem widen_typed {t : Nat} {acc : Option Value × Option Value} {r : Range} (ha : Typed t acc.1 acc.2) (hr : Typed t r.start r.stop) : Typed t (widen acc r).1 (widen acc r).2 := by
  obtain ⟨a1, a2⟩ := acc
  constructor
  · intro v hv
    unfold widen at hv
    cases h1 : r.start <;> cases h2 : a1 <;> simp only [h1, h2] at hv <;> (try split at hv) <;> simp_all [Typed]
  · intro v hv
    unfold widen at hv
    cases h1 : r.stop <;> cases h2 : a2 <;> simp only [h1, h2] at hv <;> (try split at hv) <;> simp_all [Typed]

theorem widen_acc {t : Nat} {n : Int} {acc : Option Value × Option Value} {r : Range} (hr : Typed t r.start r.stop) :
    (Below t n acc.1 → Below t n (widen acc r).1) ∧ (Above t n acc.2 → Above t n (widen acc r).2) := by
  obtain ⟨a1, a2⟩ := acc
  constructor
  · rintro ⟨m, hm, rfl, hle⟩
    cases h1 : r.start with
    | none => exact ⟨m, hm, by simp [widen, h1], hle⟩
    | some v =>
      obtain ⟨k, hk, rfl⟩ := hr.1 v h1
      simp only [widen, h1, lt_int ⟨hm.1, hm.2.1⟩, decide_eq_true_eq]
      split
      · exact ⟨k, hk, rfl, by omega⟩
      · exact ⟨m, hm, rfl, hle⟩
  · rintro ⟨m, hm, rfl, hle⟩
    cases h1 : r.stop with
    | none => exact ⟨m, hm, by simp [widen, h1], hle⟩
    | some v =>
      obtain ⟨k, hk, rfl⟩ := hr.2 v h1
      simp only [widen, h1, gt_int ⟨hm.1, hm.2.1⟩, decide_eq_true_eq]
      split
      · exact ⟨k, hk, rfl, by omega⟩
      · exact ⟨m, hm, rfl, hle⟩

theorem widen_new {t : Nat} {n : Int} {acc : Option Value × Option Value} {r : Range} (ha : Typed t acc.1 acc.2) :
    (Below t n r.start → Below t n (widen acc r).1) ∧ (Above t n r.stop → Above t n (widen acc r).2) := by
  obtain ⟨a1, a2⟩ := acc
  constructor
  · rintro ⟨m, hm, h1, hle⟩
    cases h2 : a1 with
    | none => exact ⟨m, hm, by simp [widen, h1], hle⟩
    | some v =>
      obtain ⟨k, hk, rfl⟩ := ha.1 v h2
      simp only [widen, h1, lt_int ⟨hm.1, hm.2.1⟩, decide_eq_true_eq]
      split
      · exact ⟨m, hm, rfl, hle⟩
      · exact ⟨k, hk, rfl, by omega⟩
  · rintro ⟨m, hm, h1, hle⟩
    cases h2 : a2 with
    | none => exact ⟨m, hm, by simp [widen, h1], hle⟩
    | some v =>
      obtain ⟨k, hk, rfl⟩ := ha.2 v h2
      simp only [widen, h1, gt_int ⟨hm.1, hm.2.1⟩, decide_eq_true_eq]
      split
      · exact ⟨m, hm, rfl, hle⟩
      · exact ⟨k, hk, rfl, by omega⟩

theorem fold_below {t : Nat} {n : Int} (rs : List Range) (acc : Option Value × Option Value) (ha : Typed t acc.1 acc.2) (hr : ∀ r ∈ rs, Typed t r.start r.stop) :
    ((Below t n acc.1 ∨ ∃ r ∈ rs, Below t n r.start) → Below t n (rs.foldl widen acc).1) ∧
    ((Above t n acc.2 ∨ ∃ r ∈ rs, Above t n r.stop) → Above t n (rs.foldl widen acc).2) := by
  induction rs generalizing acc with
  | nil => simp
  | cons r rs ih =>
    have hr0 := hr r (by simp)
    have ih := ih (widen acc r) (widen_typed ha hr0) (fun r' h => hr r' (by simp [h]))
    refine ⟨fun h => ih.1 ?_, fun h => ih.2 ?_⟩
    · rcases h with h | ⟨r', h', h⟩
      · exact .inl ((widen_acc hr0).1 h)
      · rcases List.mem_cons.1 h' with rfl | h'
        · exact .inl ((widen_new ha).1 h)
        · exact .inr ⟨r', h', h⟩
    · rcases h with h | ⟨r', h', h⟩
      · exact .inl ((widen_acc hr0).2 h)
      · rcases List.mem_cons.1 h' with rfl | h'
        · exact .inl ((widen_new ha).2 h)
        · exact .inr ⟨r', h', h⟩

theorem fold_none (rs : List Range) (acc : Option Value × Option Value) :
    (acc.1 = none → (∀ r ∈ rs, r.start = none) → (rs.foldl widen acc).1 = none) ∧ (acc.2 = none → (∀ r ∈ rs, r.stop = none) → (rs.foldl widen acc).2 = none) := by
  induction rs generalizing acc with
  | nil => simp
  | cons r rs ih =>
    have ih := ih (widen acc r)
    refine ⟨fun h1 h2 => ih.1 ?_ (fun r' h => h2 r' (by simp [h])), fun h1 h2 => ih.2 ?_ (fun r' h => h2 r' (by simp [h]))⟩
    · simp [widen, h1, h2 r (by simp)]
    · simp [widen, h1, h2 r (by simp)]

theorem narrow_typed {t : Nat} {acc r : Range} (ha : Typed t acc.start acc.stop) (hr : Typed t r.start r.stop) : Typed t (acc.narrow r).start (acc.narrow r).stop := by
  unfold Range.narrow
  constructor
  · intro v hv
    cases h1 : r.start <;> cases h2 : acc.start <;> cases h3 : r.stop <;> cases h4 : acc.stop <;> simp only [h1, h2, h3, h4] at hv <;>
      (repeat' split at hv) <;> simp_all [Typed]
  · intro v hv
    cases h1 : r.start <;> cases h2 : acc.start <;> cases h3 : r.stop <;> cases h4 : acc.stop <;> simp only [h1, h2, h3, h4] at hv <;>
      (repeat' split at hv) <;> simp_all [Typed]

theorem conj_typed {t c : Nat} {d : Expr} (h : Conj t c d) : ∀ r ∈ ranges d, Typed t r.start r.stop := by
  fun_induction Conj t c d with
  | case1 op i v =>
    obtain ⟨rfl, m, hm, rfl⟩ := h
    intro r hr
    cases op <;> simp [ranges, constOf, eval] at hr <;> subst hr <;> simp [Typed] <;> exact ⟨m, hm, rfl⟩
  | case2 a b iha ihb =>
    intro r hr
    simp only [ranges, List.mem_singleton] at hr
    subst hr
    have : ∀ (rs : List Range) (acc : Range), Typed t acc.start acc.stop → (∀ r ∈ rs, Typed t r.start r.stop) →
        Typed t (rs.foldl Range.narrow acc).start (rs.foldl Range.narrow acc).stop := by
      intro rs
      induction rs with
      | nil => intro acc ha _; exact ha
      | cons r rs ih => intro acc ha hr; exact ih _ (narrow_typed ha (hr r (by simp))) (fun r' h => hr r' (by simp [h]))
    refine this _ _ (by simp [Typed]) ?_
    intro r hr
    rcases List.mem_append.1 hr with hr | hr
    · exact iha h.1 r hr
    · exact ihb h.2 r hr
  | case3 => exact h.elim

/-- C47 for one predicate that is an OR of ANDs of comparisons of the key column with integers of one type, where every part of the OR bounds the key from below or
none does, and every part bounds it from above or none does: the key of every row on which the predicate is TRUE lies between the keys the index is scanned for.
Missing: parts bounded on different sides, OR inside AND, other columns, integers of different types (all false, see below). -/
theorem C47_bounds_partial {t c : Nat} {p : Expr} {row : Row} {n : Int} (hp : ∀ d ∈ disjuncts p, Conj t c d)
    (hl : (∀ d ∈ disjuncts p, lower d = true) ∨ (∀ d ∈ disjuncts p, lower d = false))
    (hu : (∀ d ∈ disjuncts p, upper d = true) ∨ (∀ d ∈ disjuncts p, upper d = false))
    (hk : KeyIs c row n) (hh : Holds p row) : Around t n (bounds [p]).1 (bounds [p]).2 := by
  have hb : bounds [p] = ((disjuncts p).flatMap ranges).foldl widen (none, none) := by
    unfold bounds
    rw [← ranges_disjuncts]
    simp
  have ht : ∀ r ∈ (disjuncts p).flatMap ranges, Typed t r.start r.stop := by
    intro r hr
    obtain ⟨d, hd, hr⟩ := List.mem_flatMap.1 hr
    exact conj_typed (hp d hd) r hr
  obtain ⟨d, hd, hdh⟩ := holds_disjunct hh
  have ha := conj_around (hp d hd) hk hdh
  have hf := @fold_below t n _ (none, none) (by simp [Typed]) ht
  rw [hb]
  constructor
  · rcases hl with hl | hl
    · have h1 := (conj_some (hp d hd)).1
      rw [hl d hd, List.any_eq_true] at h1
      obtain ⟨r, hr, hs⟩ := h1
      obtain ⟨v, hv⟩ := Option.isSome_iff_exists.1 hs
      obtain ⟨m, hm, rfl, hle⟩ := (ha r hr).1 v hv
      obtain ⟨k, hk, he, hle⟩ := hf.1 (.inr ⟨r, List.mem_flatMap.2 ⟨d, hd, hr⟩, m, hm, hv, hle⟩)
      intro w hw
      rw [he] at hw
      cases hw
      exact ⟨k, hk, rfl, hle⟩
    · have : (((disjuncts p).flatMap ranges).foldl widen (none, none)).1 = none := by
        refine (fold_none _ _).1 rfl ?_
        intro r hr
        obtain ⟨d', hd', hr⟩ := List.mem_flatMap.1 hr
        have h1 := (conj_some (hp d' hd')).1
        rw [hl d' hd', List.any_eq_false] at h1
        simpa using h1 r hr
      rw [this]
      intro v hv
      cases hv
  · rcases hu with hu | hu
    · have h1 := (conj_some (hp d hd)).2
      rw [hu d hd, List.any_eq_true] at h1
      obtain ⟨r, hr, hs⟩ := h1
      obtain ⟨v, hv⟩ := Option.isSome_iff_exists.1 hs
      obtain ⟨m, hm, rfl, hle⟩ := (ha r hr).2 v hv
      obtain ⟨k, hk, he, hle⟩ := hf.2 (.inr ⟨r, List.mem_flatMap.2 ⟨d, hd, hr⟩, m, hm, hv, hle⟩)
      intro w hw
      rw [he] at hw
      cases hw
      exact ⟨k, hk, rfl, hle⟩
    · have : (((disjuncts p).flatMap ranges).foldl widen (none, none)).2 = none := by
        refine (fold_none _ _).2 rfl ?_
        intro r hr
        obtain ⟨d', hd', hr⟩ := List.mem_flatMap.1 hr
        have h1 := (conj_some (hp d' hd')).2
        rw [hu d' hd', List.any_eq_false] at h1
        simpa using h1 r hr
      rw [this]
      intro v hv
      cases hv

/-! ## The rows -/

/-- `isTrue p row`: the predicate is TRUE of the row. -/
def isTrue (p : Expr) (row : Row) : Bool := match eval false (rowEnv row) p with
  | .ok v => (match val v with | .boolean b => b | _ => false)
  | _ => false

theorem isTrue_iff {p : Expr} {row : Row} : isTrue p row = true ↔ Holds p row := by
  unfold isTrue Holds
  constructor
  · intro h
    split at h
    · rename_i v hv
      split at h
      · rename_i b hb; exact ⟨v, hv, by rw [hb, h]⟩
      · cases h
    · cases h
  · rintro ⟨v, hv, ht⟩
    simp [hv, ht]

/-- Of the rows whose record ids the index gives, the scan gives those on which the predicate is TRUE, when it evaluates on all of them. -/
theorem C47_filter {σ ρ : Type} {iter : Machine σ ρ} {c : σ} {rids : List ρ} {e : End} {p : Expr} {fetch : ρ → Option Row} (h : Yields iter c rids e)
    (hv : ∀ r ∈ rids, ∀ row, fetch r = some row → ∃ v, eval false (rowEnv row) p = .ok v) : Yields (indexScan [p] fetch iter) c ((rids.filterMap fetch).filter (isTrue p)) e := by
  induction h with
  | @emit s a s' xs e h1 h2 ih =>
    have ih := ih (fun r hr => hv r (List.mem_cons_of_mem _ hr))
    rw [List.filterMap_cons]
    cases hf : fetch a with
    | none => exact .cont (by simp [indexScan, h1, hf]) ih
    | some row =>
      obtain ⟨v, hv⟩ := hv a List.mem_cons_self row hf
      by_cases ht : val v = .boolean true
      · have : isTrue p row = true := isTrue_iff.2 ⟨v, hv, ht⟩
        simp only [List.filter_cons, this, if_true]
        exact .emit (by simp [indexScan, h1, hf, matchAll, hv, ht]) ih
      · have hn : isTrue p row = false := by
          rw [Bool.eq_false_iff]
          intro h
          obtain ⟨w, hw, ht'⟩ := isTrue_iff.1 h
          rw [hv] at hw
          cases hw
          exact ht ht'
        simp only [List.filter_cons, hn, Bool.false_eq_true, if_false]
        refine .cont ?_ ih
        simp only [indexScan, h1, hf, matchAll, hv]
  | @cont s s' xs e h1 h2 ih => exact .cont (by simp [indexScan, h1]) (ih hv)
  | @stop s e h1 => exact .stop (by simp [indexScan, h1])

/-- C47: if the index gives each record id of the table whose key lies between the keys it is scanned for once, the index scan gives each row of the table on which the predicate
is TRUE, and no other, as often as the table holds it: what a sequential scan with the same predicate gives, up to order. For the predicates of `C47_bounds_partial`. -/
theorem C47_rows_partial {σ ρ : Type} {t c : Nat} {p : Expr} {iter : Machine σ ρ} {s : σ} {rids all : List ρ} {e : End} {fetch : ρ → Option Row} {keyOf : ρ → Int}
    (hp : ∀ d ∈ disjuncts p, Conj t c d)
    (hl : (∀ d ∈ disjuncts p, lower d = true) ∨ (∀ d ∈ disjuncts p, lower d = false))
    (hu : (∀ d ∈ disjuncts p, upper d = true) ∨ (∀ d ∈ disjuncts p, upper d = false))
    (hall : all.Nodup) (hkey : ∀ r ∈ all, ∀ row, fetch r = some row → KeyIs c row (keyOf r) ∧ ∃ v, eval false (rowEnv row) p = .ok v)
    (hy : Yields iter s rids e) (hn : rids.Nodup) (hin : ∀ r, r ∈ rids ↔ r ∈ all ∧ Around t (keyOf r) (bounds [p]).1 (bounds [p]).2) :
    ∃ out, Yields (indexScan [p] fetch iter) s out e ∧ out.Perm ((all.filterMap fetch).filter (isTrue p)) := by
  refine ⟨_, C47_filter hy (fun r hr row hf => (hkey r ((hin r).1 hr).1 row hf).2), ?_⟩
  have hclass : ∀ r, Decidable (Around t (keyOf r) (bounds [p]).1 (bounds [p]).2) := fun r => Classical.propDecidable _
  have hperm : rids.Perm (all.filter (fun r => decide (Around t (keyOf r) (bounds [p]).1 (bounds [p]).2))) := by
    rw [List.perm_ext_iff_of_nodup hn (hall.filter _)]
    intro r
    rw [hin r, List.mem_filter, decide_eq_true_eq]
  refine ((hperm.filterMap fetch).filter (isTrue p)).trans (List.Perm.of_eq ?_)
  clear hperm hin hy hn hall
  induction all with
  | nil => rfl
  | cons r rs ih =>
    have ih := ih (fun r' h => hkey r' (by simp [h]))
    rw [List.filter_cons]
    split
    · rw [List.filterMap_cons, List.filterMap_cons]
      cases fetch r with
      | none => exact ih
      | some row => simp only [List.filter_cons, ih]
    · rename_i hno
      rw [List.filterMap_cons]
      cases hf : fetch r with
      | none => exact ih
      | some row =>
        have : isTrue p row = false := by
          rw [Bool.eq_false_iff]
          intro h
          exact hno (decide_eq_true (C47_bounds_partial hp hl hu (hkey r (by simp) row hf).1 (isTrue_iff.1 h)))
        simp only [List.filter_cons, this, Bool.false_eq_true, if_false]
        exact ih

/-! ## A case that meets the hypotheses -/

/-- `x = 2 OR (x >= 4 AND x < 6)` over the keys 1 to 5, of which record 3 is deleted. -/
def i3 (n : Int) : Value := intVal 3 n
def onKey (op : CmpOp) (n : Int) : Expr := .cmp op (.col 0 0) (.lit (i3 n))
def exOr : Expr := .or (onKey .eq 2) (.and (onKey .ge 4) (onKey .lt 6))
def exFetch (r : Nat) : Option Row := if r = 3 then none else some [i3 r]

theorem ex_fits (n : Int) (h : -100 ≤ n ∧ n ≤ 100) : Fits 3 n := ⟨by decide, by decide, by simp only [lo]; omega, by simp only [hi]; omega⟩

example : ∃ out, Yields (indexScan [exOr] exFetch source) [2, 3, 4, 5] out .done ∧ out.Perm (([1, 2, 3, 4, 5].filterMap exFetch).filter (isTrue exOr)) := by
  refine C47_rows_partial (t := 3) (c := 0) (keyOf := fun r => (r : Int)) (all := [1, 2, 3, 4, 5]) ?_ (.inl ?_) (.inl ?_) (by decide) ?_ (.emit rfl (.emit rfl (.emit rfl (.emit rfl (.stop rfl))))) (by decide) ?_
  · intro d hd
    simp only [exOr, disjuncts, onKey, List.cons_append, List.nil_append, List.mem_cons, List.not_mem_nil, or_false] at hd
    rcases hd with rfl | rfl
    · exact ⟨rfl, 2, ex_fits _ (by decide), rfl⟩
    · exact ⟨⟨rfl, 4, ex_fits _ (by decide), rfl⟩, ⟨rfl, 6, ex_fits _ (by decide), rfl⟩⟩
  · intro d hd
    simp only [exOr, disjuncts, onKey, List.cons_append, List.nil_append, List.mem_cons, List.not_mem_nil, or_false] at hd
    rcases hd with rfl | rfl <;> rfl
  · intro d hd
    simp only [exOr, disjuncts, onKey, List.cons_append, List.nil_append, List.mem_cons, List.not_mem_nil, or_false] at hd
    rcases hd with rfl | rfl <;> rfl
  · intro r hr row hf
    simp only [List.mem_cons, List.not_mem_nil, or_false] at hr
    rcases hr with rfl | rfl | rfl | rfl | rfl <;> cases hf <;> exact ⟨⟨3, ex_fits _ (by decide), rfl⟩, _, rfl⟩
  · have hb : bounds [exOr] = (some (i3 2), some (i3 6)) := rfl
    intro r
    rw [hb]
    constructor
    · intro hr
      simp only [List.mem_cons, List.not_mem_nil, or_false] at hr
      rcases hr with rfl | rfl | rfl | rfl <;> refine ⟨by decide, ?_, ?_⟩ <;> rintro _ ⟨⟩
      all_goals first | exact ⟨2, ex_fits _ (by decide), rfl, by decide⟩ | exact ⟨6, ex_fits _ (by decide), rfl, by decide⟩
    · rintro ⟨hr, h1, _⟩
      simp only [List.mem_cons, List.not_mem_nil, or_false] at hr
      rcases hr with rfl | rfl | rfl | rfl | rfl <;> try decide
      obtain ⟨m, _, hm, hle⟩ := h1 _ rfl
      have : m = 2 := by
        have := congrArg (fun v => val v) hm
        simp only [i3, intVal, newTyped, val, Val.integer.injEq] at this
        exact this.symm
      omega

/-! ## Where the full claim is false -/

/-- `x < 5 OR x > 10`: the index is scanned from 10 to 5, although the predicate is TRUE of the key 3. -/
theorem C47_sides_fails : ∃ p row, Holds p row ∧ KeyIs 0 row 3 ∧ bounds [p] = (some (i3 10), some (i3 5)) :=
  ⟨.or (onKey .lt 5) (onKey .gt 10), [i3 3], ⟨_, rfl, rfl⟩, ⟨3, ex_fits _ (by decide), rfl⟩, rfl⟩

/-- `x = 1 OR x <> 3`: scanned from 1 to 1, although the predicate is TRUE of 2. -/
theorem C47_not_equal_fails : ∃ p row, Holds p row ∧ KeyIs 0 row 2 ∧ bounds [p] = (some (i3 1), some (i3 1)) :=
  ⟨.or (onKey .eq 1) (onKey .ne 3), [i3 2], ⟨_, rfl, rfl⟩, ⟨3, ex_fits _ (by decide), rfl⟩, rfl⟩

/-- `(x = 1 OR x = 5) AND x < 9`: scanned from 5 to 1, although the predicate is TRUE of 1. -/
theorem C47_or_in_and_fails : ∃ p row, Holds p row ∧ KeyIs 0 row 1 ∧ bounds [p] = (some (i3 5), some (i3 1)) :=
  ⟨.and (.or (onKey .eq 1) (onKey .eq 5)) (onKey .lt 9), [i3 1], ⟨_, rfl, rfl⟩, ⟨3, ex_fits _ (by decide), rfl⟩, rfl⟩

/-- `y = 7` on an index over `x`: scanned from 7 to 7, although the predicate is TRUE of the row (1, 7). -/
theorem C47_other_column_fails : ∃ p row, Holds p row ∧ KeyIs 0 row 1 ∧ bounds [p] = (some (i3 7), some (i3 7)) :=
  ⟨.cmp .eq (.col 0 1) (.lit (i3 7)), [i3 1, i3 7], ⟨_, rfl, rfl⟩, ⟨3, ex_fits _ (by decide), rfl⟩, rfl⟩

/-- `x = 100 OR x = -200` with the literals as the parser types them, TinyInt and SmallInt, which are ordered by type: scanned from 100 to -200. -/
theorem C47_literal_types_fails : ∃ p row, Holds p row ∧ KeyIs 0 row 100 ∧ bounds [p] = (some (intVal 1 100), some (intVal 2 (-200))) :=
  ⟨.or (.cmp .eq (.col 0 0) (.lit (intVal 1 100))) (.cmp .eq (.col 0 0) (.lit (intVal 2 (-200)))), [i3 100], ⟨_, rfl, rfl⟩, ⟨3, ex_fits _ (by decide), rfl⟩, rfl⟩

/-- A row on which the predicate does not evaluate is returned, where WHERE leaves it out (`C40_where`). -/
theorem C47_error_fails : ∃ p row, eval false (rowEnv row) p = .err ∧ Yields (indexScan [p] (fun (_ : Nat) => some row) source) [0] [row] .done ∧ Yields (filter p source) [row] [] .done :=
  ⟨exPred, [new (.varLen [65])], rfl, .emit rfl (.stop rfl), .cont rfl (.stop rfl)⟩

end Verif.Exec

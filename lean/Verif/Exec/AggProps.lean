import Verif.Exec.Agg
import Verif.Exec.DistinctProps
import Verif.Exec.SortProps

/-!
# Aggregation (C45)

Specification vocabulary: the rows of a group are the input rows with an equal key (`rowsOf`). `num e r` is the integer the argument `e` of an aggregate has on the row
`r`, or `none` for NULL; `typ e` its type. `Meets a rows v` says that `v` is the SQL aggregate `a` of the rows.
-/

namespace Verif.Exec

open Verif.Wire Verif.Bytes Verif.Sql

variable {σ : Type}

/-- The rows of the group with key `k`. -/
def rowsOf (key : Row → Row) (xs : List Row) (k : Row) : List Row := xs.filter fun r => valuesEq k (key r)

/-- The expression has a value that is not NULL. -/
def present (e : Expr) (r : Row) : Bool := match eval false (rowEnv r) e with
  | .ok v => !isNull v
  | _ => false

/-- The integers among the arguments. -/
def ints (num : Expr → Row → Option Int) (e : Expr) (rows : List Row) : List Int := rows.filterMap (num e)

/-- The SQL aggregates. A column or another expression in the SELECT list has its value on some row of the group. -/
def Meets (typ : Expr → Nat) (num : Expr → Row → Option Int) (a : Agg) (rows : List Row) (v : Value) : Prop := match a with
  | .countStar => v = new (.bigInt rows.length)
  | .count e => v = new (.bigInt (rows.countP (present e)))
  | .sum e => if ints num e rows = [] then isNull v = true else v = intVal (typ e) (ints num e rows).sum
  | .min e => if ints num e rows = [] then isNull v = true else ∃ m ∈ ints num e rows, v = intVal (typ e) m ∧ ∀ i ∈ ints num e rows, m ≤ i
  | .max e => if ints num e rows = [] then isNull v = true else ∃ m ∈ ints num e rows, v = intVal (typ e) m ∧ ∀ i ∈ ints num e rows, i ≤ m
  | .avg e => if ints num e rows = [] then isNull v = true
    else v = new (.decimal (f64.div (f64.ofInt (ints num e rows).sum) (f64.ofInt (ints num e rows).length)))
  | .column e | .other e => rows ≠ [] → ∃ r ∈ rows, eval false (rowEnv r) e = .ok v

/-- The argument evaluates to the integer `num e r` of type `typ e`, or to NULL. -/
def Means (typ : Expr → Nat) (num : Expr → Row → Option Int) (e : Expr) (r : Row) : Prop :=
  ∃ v, eval false (rowEnv r) e = .ok v ∧ match num e r with
    | some i => v = intVal (typ e) i
    | none => isNull v = true

/-- What is asked of the rows of a group: arguments are integers or NULL, sums stay within their type, and COUNT(x) sees no NULL. -/
def Fine (typ : Expr → Nat) (num : Expr → Row → Option Int) (a : Agg) (rows : List Row) : Prop := match a with
  | .countStar => rows.length < 2 ^ 63
  | .count e => rows.length < 2 ^ 63 ∧ ∀ r ∈ rows, present e r = true
  | .sum e => (1 ≤ typ e ∧ typ e ≤ 4) ∧ (∀ r ∈ rows, Means typ num e r) ∧ ∀ p, p <+: ints num e rows → lo (typ e) ≤ p.sum ∧ p.sum ≤ hi (typ e)
  | .min e | .max e => (1 ≤ typ e ∧ typ e ≤ 4) ∧ ∀ r ∈ rows, Means typ num e r
  | .avg e => (typ e = 3 ∨ typ e = 4) ∧ (∀ r ∈ rows, Means typ num e r) ∧ ∀ p, p <+: ints num e rows → lo (typ e) ≤ p.sum ∧ p.sum ≤ hi (typ e)
  | .column e | .other e => ∀ r ∈ rows, ∃ v, eval false (rowEnv r) e = .ok v

/-! ## Groups -/

def Upd.cell (c : Cell) : Upd → Cell
  | .ok c' | .fail c' => c'
  | .panic => c

/-- The running value after these rows. -/
def Agg.run (a : Agg) (rows : List Row) : Cell := rows.foldl (fun c r => (a.update r c).cell c) (new .null, 0)

/-- No update fails. -/
def Good (a : Agg) (rows : List Row) : Prop := ∀ p r s, rows = p ++ r :: s → ∃ c, a.update r (a.run p) = .ok c

theorem run_snoc {a : Agg} {p : List Row} {r : Row} {c : Cell} (h : a.update r (a.run p) = .ok c) : a.run (p ++ [r]) = c := by
  simp only [Agg.run, List.foldl_append, List.foldl_cons, List.foldl_nil] at h ⊢
  rw [h]; rfl

theorem updateAll_run {aggs : List Agg} {p : List Row} {r : Row} (h : ∀ a ∈ aggs, ∃ c, a.update r (a.run p) = .ok c) :
    updateAll r aggs (aggs.map (·.run p)) = some (aggs.map (·.run (p ++ [r]))) := by
  induction aggs with
  | nil => rfl
  | cons a as ih =>
    obtain ⟨c, hc⟩ := h a (List.mem_cons_self ..)
    simp only [List.map_cons, updateAll, hc, ih fun b hb => h b (List.mem_cons_of_mem _ hb), Option.map_some, run_snoc hc]

theorem vrefl (a : Row) : valuesEq a a = true := (valuesEq_iff a a).2 rfl
theorem vsymm {a b : Row} (h : valuesEq a b = true) : valuesEq b a = true := (valuesEq_iff _ _).2 ((valuesEq_iff _ _).1 h).symm
theorem vtrans {a b c : Row} (h : valuesEq a b = true) (h' : valuesEq b c = true) : valuesEq a c = true :=
  (valuesEq_iff _ _).2 (((valuesEq_iff _ _).1 h).trans ((valuesEq_iff _ _).1 h'))

theorem touch_map {aggs : List Agg} {key row : Row} {ks : List Row} {f f' : Row → List Cell} (hp : ks.Pairwise fun a b => valuesEq a b = false)
    (h1 : ∀ k ∈ ks, valuesEq k key = true → updateAll row aggs (f k) = some (f' k)) (h2 : ∀ k ∈ ks, valuesEq k key = false → f' k = f k)
    (h3 : ks.any (valuesEq · key) = false → updateAll row aggs (aggs.map fun _ => (new .null, 0)) = some (f' key)) :
    touch aggs key row (ks.map fun k => (k, f k)) = some ((ks ++ if ks.any (valuesEq · key) then [] else [key]).map fun k => (k, f' k)) := by
  induction ks with
  | nil => simp only [List.map_nil, touch, h3 rfl]; rfl
  | cons k ks ih =>
    rw [List.pairwise_cons] at hp
    simp only [List.map_cons, touch, List.any_cons]
    by_cases hk : valuesEq k key = true
    · simp only [hk, if_true, h1 k (List.mem_cons_self ..) hk, Option.map_some, Bool.true_or, List.append_nil, List.map_cons, Option.some.injEq, List.cons.injEq, true_and]
      apply List.map_congr_left
      intro k' hk'
      rw [h2 k' (List.mem_cons_of_mem _ hk')]
      cases h : valuesEq k' key with
      | false => rfl
      | true =>
        have := vtrans hk (vsymm h)
        rw [hp.1 k' hk'] at this
        cases this
    · rw [Bool.not_eq_true] at hk
      have ih := ih hp.2 (fun k' hk' => h1 k' (List.mem_cons_of_mem _ hk')) (fun k' hk' => h2 k' (List.mem_cons_of_mem _ hk'))
        (fun h => h3 (by rw [List.any_cons, hk, h]; rfl))
      simp only [hk, Bool.false_eq_true, if_false, ih, Option.map_some, Bool.false_or, List.cons_append, List.map_cons, h2 k (List.mem_cons_self ..) hk]

theorem firsts_snoc (ks : List Row) (k : Row) : ∀ before, firsts before (ks ++ [k]) = firsts before ks ++ if (before ++ ks).any (valuesEq · k) then [] else [k] := by
  induction ks with
  | nil => intro before; simp [firsts]
  | cons x ks ih =>
    intro before
    simp only [List.cons_append, firsts, ih]
    split <;> simp

theorem any_firsts (ks : List Row) (k : Row) : (firsts [] ks).any (valuesEq · k) = ks.any (valuesEq · k) := by
  obtain ⟨h1, -, h3⟩ := C42_firsts ks
  rw [Bool.eq_iff_iff, List.any_eq_true, List.any_eq_true]
  constructor
  · rintro ⟨x, hx, h⟩; exact ⟨x, h1.subset hx, h⟩
  · rintro ⟨x, hx, h⟩
    obtain ⟨s, hs, h'⟩ := h3 x hx
    exact ⟨s, hs, vtrans h' h⟩

/-- The groups after the rows `pre`. -/
def groupsOf (aggs : List Agg) (key : Row → Row) (pre : List Row) : List Group :=
  (firsts [] (pre.map key)).map fun k => (k, aggs.map (·.run (rowsOf key pre k)))

theorem touch_groups {aggs : List Agg} {key : Row → Row} {pre rest : List Row} {x : Row} (hg : ∀ a ∈ aggs, ∀ k, Good a (rowsOf key (pre ++ x :: rest) k)) :
    touch aggs (key x) x (groupsOf aggs key pre) = some (groupsOf aggs key (pre ++ [x])) := by
  have hr : ∀ k, rowsOf key (pre ++ [x]) k = rowsOf key pre k ++ if valuesEq k (key x) then [x] else [] := by
    intro k
    simp only [rowsOf, List.filter_append, List.filter_cons, List.filter_nil]
  have hgo : ∀ k, valuesEq k (key x) = true → ∀ a ∈ aggs, ∃ c, a.update x (a.run (rowsOf key pre k)) = .ok c := by
    intro k hk a ha
    refine hg a ha k _ _ (rowsOf key rest k) ?_
    simp only [rowsOf, List.filter_append, List.filter_cons, hk, if_true]
  unfold groupsOf
  rw [List.map_append, List.map_cons, List.map_nil, firsts_snoc, List.nil_append, ← any_firsts]
  refine touch_map (C42_firsts _).2.1 ?_ ?_ ?_
  · intro k _ hk
    rw [hr, if_pos hk]
    exact updateAll_run (hgo k hk)
  · intro k _ hk
    rw [hr, hk]
    simp
  · intro hn
    rw [any_firsts, List.any_eq_false] at hn
    have he : rowsOf key pre (key x) = [] := by
      rw [rowsOf, List.filter_eq_nil_iff]
      intro r hr h
      exact hn (key r) (List.mem_map.2 ⟨r, hr, rfl⟩) (vsymm h)
    have := updateAll_run (hgo (key x) (vrefl _))
    rw [he] at this
    rw [hr, he, vrefl]
    exact this

theorem zip_final (aggs : List Agg) (g : Agg → Cell) : ((aggs.zip (aggs.map g)).map fun x => x.1.final x.2) = aggs.map fun a => a.final (g a) := by
  induction aggs with
  | nil => rfl
  | cons a as ih => simp only [List.map_cons, List.zip_cons_cons, ih]

theorem aggOut_yields {drain : List Group → List Group} {by_ : List Expr} {aggs : List Agg} {child : Machine σ Row} (rows : List Row) :
    Yields (aggregate drain by_ aggs child) (.out rows) rows .done := by
  induction rows with
  | nil => exact .stop rfl
  | cons a as ih => exact .emit rfl ih

theorem collect_yields {drain : List Group → List Group} (hd : ∀ gs, (drain gs).Perm gs) {by_ : List Expr} {aggs : List Agg} {child : Machine σ Row} {c : σ}
    {xs : List Row} {e : End} (h : Yields child c xs e) (he : e = .done) {key : Row → Row} : ∀ (pre : List Row) (any : Bool),
    (any = false → pre = []) → (pre ++ xs ≠ [] ∨ by_ ≠ []) → (any = false ∧ xs = [] → by_ ≠ []) →
    (∀ r ∈ xs, project (rowEnv r) by_ = .ok (key r)) → (∀ a ∈ aggs, ∀ k, Good a (rowsOf key (pre ++ xs) k)) →
    ∃ out, Yields (aggregate drain by_ aggs child) (.collect (groupsOf aggs key pre) any c) out .done ∧
      out.Perm ((groupsOf aggs key (pre ++ xs)).map (outRow aggs)) := by
  induction h with
  | @emit s a s' xs e h _ ih =>
    intro pre any h0 h1 h2 hk hg
    obtain ⟨out, ho, hp⟩ := ih he (pre ++ [a]) true (by simp) (by simp) (by simp) (fun r hr => hk r (List.mem_cons_of_mem _ hr)) (by simpa using hg)
    refine ⟨out, .cont (s' := .collect (groupsOf aggs key (pre ++ [a])) true s') ?_ ho, by simpa using hp⟩
    simp only [aggregate, h, hk a (List.mem_cons_self ..), touch_groups hg]
  | @cont s s' xs e h _ ih =>
    intro pre any h0 h1 h2 hk hg
    obtain ⟨out, ho, hp⟩ := ih he pre any h0 h1 h2 hk hg
    refine ⟨out, .cont (s' := .collect (groupsOf aggs key pre) any s') ?_ ho, hp⟩
    simp only [aggregate, h]
  | @stop s e h =>
    intro pre any h0 h1 h2 hk hg
    subst he
    refine ⟨_, .cont (s' := .out ((stableSort (drain (groupsOf aggs key pre)) fun a b => groupCmp a.1 b.1 != .gt).reverse.map (outRow aggs))) ?_ (aggOut_yields _), ?_⟩
    · have : ¬ (any = false ∧ by_.isEmpty = true) := by
        rintro ⟨ha, hb⟩
        exact h2 ⟨ha, rfl⟩ (List.isEmpty_iff.1 hb)
      simp only [aggregate, h, if_neg this]
    · rw [List.append_nil]
      exact (((List.reverse_perm _).trans (stableSort_perm _ _)).trans (hd _)).map _

/-- GROUP BY: one output row for each different key, namely the key followed by the final values of the aggregates over exactly the rows with that key. The order is that of the
code's hash map and sort, which is left open. -/
theorem C45_groups {drain : List Group → List Group} (hd : ∀ gs, (drain gs).Perm gs) {by_ : List Expr} {aggs : List Agg} {child : Machine σ Row} {c : σ}
    {xs : List Row} (h : Yields child c xs .done) (hne : xs ≠ [] ∨ by_ ≠ []) {key : Row → Row} (hk : ∀ r ∈ xs, project (rowEnv r) by_ = .ok (key r))
    (hg : ∀ a ∈ aggs, ∀ k, Good a (rowsOf key xs k)) :
    ∃ out, Yields (aggregate drain by_ aggs child) (.collect [] false c) out .done ∧
      out.Perm ((firsts [] (xs.map key)).map fun k => k ++ aggs.map fun a => a.final (a.run (rowsOf key xs k))) := by
  obtain ⟨out, ho, hp⟩ := collect_yields hd h rfl (key := key) [] false (fun _ => rfl) hne (fun h => hne.resolve_left (fun h' => h' h.2)) hk hg
  refine ⟨out, ho, ?_⟩
  simpa [groupsOf, outRow, zip_final, Function.comp_def] using hp

/-! ## The aggregates -/

theorem run_ind {a : Agg} {rows : List Row} {P : List Row → Cell → Prop} (h0 : P [] (new .null, 0))
    (hs : ∀ p r s c, rows = p ++ r :: s → P p c → ∃ c', a.update r c = .ok c' ∧ P (p ++ [r]) c') : Good a rows ∧ P rows (a.run rows) := by
  have key : ∀ n p s, p.length = n → rows = p ++ s → P p (a.run p) := by
    intro n
    induction n with
    | zero =>
      intro p s hp _
      rw [List.length_eq_zero_iff] at hp
      subst hp
      exact h0
    | succ n ih =>
      intro p s hp hr
      rcases List.eq_nil_or_concat p with rfl | ⟨q, r, rfl⟩
      · cases hp
      · rw [List.concat_eq_append] at hp hr ⊢
        have hq := ih q (r :: s) (by simpa using hp) (by simpa using hr)
        obtain ⟨c', h1, h2⟩ := hs q r s _ (by simpa using hr) hq
        rw [run_snoc h1]
        exact h2
  refine ⟨?_, key _ rows [] rfl (by simp)⟩
  intro p r s hr
  obtain ⟨c', h1, _⟩ := hs p r s _ hr (key _ p (r :: s) rfl hr)
  exact ⟨c', h1⟩

theorem int_notNull (t : Nat) (i : Int) : isNull (intVal t i) = false := by
  unfold intVal isNull newTyped val
  split <;> simp_all
  split at * <;> simp_all

theorem add_ints {t : Nat} (ht : 1 ≤ t ∧ t ≤ 4) {i j : Int} (h : lo t ≤ i + j ∧ i + j ≤ hi t) : addValue (intVal t i) (intVal t j) = .ok (intVal t (i + j)) := by
  have : t = 1 ∨ t = 2 ∨ t = 3 ∨ t = 4 := by omega
  rcases this with rfl | rfl | rfl | rfl <;>
    simp [addValue, intVal, newTyped, isNull, val, plusInt, h]

theorem lt_ints {t : Nat} (ht : 1 ≤ t ∧ t ≤ 4) (i j : Int) : compareOp .lt (intVal t i) (intVal t j) = .t ↔ i < j := by
  have : ∀ i, IsInt (intVal t i) i := by
    intro i
    have : t = 1 ∨ t = 2 ∨ t = 3 ∨ t = 4 := by omega
    rcases this with rfl | rfl | rfl | rfl
    · exact .inl rfl
    · exact .inr (.inl rfl)
    · exact .inr (.inr (.inl rfl))
    · exact .inr (.inr (.inr rfl))
  rw [C38_int_compare .lt (this i) (this j)]
  simp only [CmpOp.rel, Tri.of]
  by_cases h : i < j <;> simp [h]

theorem ints_snoc (num : Expr → Row → Option Int) (e : Expr) (p : List Row) (r : Row) : ints num e (p ++ [r]) = ints num e p ++ (num e r).toList := by
  simp only [ints, List.filterMap_append]
  cases h : num e r <;> simp [List.filterMap_cons, h]

theorem ints_prefix {num : Expr → Row → Option Int} {e : Expr} {rows p s : List Row} (h : rows = p ++ s) : ints num e p <+: ints num e rows := by
  subst h
  simp only [ints, List.filterMap_append]
  exact List.prefix_append ..

variable {typ : Expr → Nat} {num : Expr → Row → Option Int} {e : Expr} {rows : List Row}

theorem add_one {n : Nat} (h : n + 1 < 9223372036854775808) : addValue (new (.bigInt n)) (new (.bigInt 1)) = .ok (new (.bigInt (n + 1))) :=
  add_ints (t := 4) (by decide) (i := (n : Int)) (j := 1) (by
    have h1 : lo 4 = -9223372036854775808 := by decide
    have h2 : hi 4 = 9223372036854775807 := by decide
    rw [h1, h2]
    omega)

theorem count_step {n : Nat} (h : n + 1 < 9223372036854775808) (r : Row) :
    Agg.countStar.update r (new (.bigInt n), 0) = .ok (new (.bigInt (n + 1)), 0) := by
  have ha := add_one h
  have hx : ∀ {a v : Value}, isNull a = false → addValue a (new (.bigInt 1)) = .ok v → Agg.countStar.update r (a, 0) = .ok (v, 0) := by
    intro a v h0 h1
    simp only [Agg.update, h0, addTo, h1, Bool.false_eq_true, if_false]
  exact hx rfl ha

theorem countStar_run (h : rows.length < 2 ^ 63) : Good .countStar rows ∧ Agg.run .countStar rows = (if rows.length = 0 then new .null else new (.bigInt rows.length), 0) := by
  refine run_ind (P := fun p c => c = (if p.length = 0 then new .null else new (.bigInt p.length), 0)) rfl ?_
  intro p r s c hp hc
  have hl : p.length + 1 < 9223372036854775808 := by
    have h' : rows.length = p.length + (s.length + 1) := by rw [hp, List.length_append, List.length_cons]
    have h2 : (2 : Nat) ^ 63 = 9223372036854775808 := by decide
    omega
  rw [List.length_append, List.length_singleton]
  generalize p.length = n at *
  subst hc
  by_cases hn : n = 0
  · subst hn; exact ⟨(new (.bigInt 1), 0), rfl, rfl⟩
  · rw [if_neg hn, if_neg (Nat.succ_ne_zero n)]
    exact ⟨_, count_step hl r, rfl⟩

theorem count_run (h : rows.length < 2 ^ 63) : Good (.count e) rows ∧ Agg.run (.count e) rows = (if rows.length = 0 then new .null else new (.bigInt rows.length), 0) :=
  countStar_run h

theorem sum_run (h : Fine typ num (.sum e) rows) : Good (.sum e) rows ∧
    Agg.run (.sum e) rows = (if ints num e rows = [] then new .null else intVal (typ e) (ints num e rows).sum, 0) := by
  obtain ⟨ht, hm, hb⟩ := h
  refine run_ind (P := fun p c => c = (if ints num e p = [] then new .null else intVal (typ e) (ints num e p).sum, 0)) rfl ?_
  rintro p r s c hp rfl
  obtain ⟨v, hv, hn⟩ := hm r (by rw [hp]; simp)
  rw [ints_snoc]
  simp only [Agg.update, withArg, hv]
  cases hr : num e r with
  | none =>
    rw [hr] at hn
    exact ⟨_, by rw [if_pos hn], by simp⟩
  | some i =>
    rw [hr] at hn
    simp only at hn
    subst hn
    rw [int_notNull]
    have hb := hb (ints num e p ++ [i]) (by have := ints_prefix (num := num) (e := e) (rows := rows) (p := p ++ [r]) (s := s) (by simpa using hp); rwa [ints_snoc, hr] at this)
    rw [List.sum_append, List.sum_singleton] at hb
    by_cases hi : ints num e p = []
    · refine ⟨(intVal (typ e) i, 0), ?_, ?_⟩
      · simp only [hi, if_true, Bool.false_eq_true, if_false, show isNull (new .null) = true from rfl]
      · simp [hi]
    · refine ⟨(intVal (typ e) ((ints num e p).sum + i), 0), ?_, ?_⟩
      · simp only [if_neg hi, int_notNull, Bool.false_eq_true, if_false, addTo, add_ints ht hb]
      · simp [List.sum_append]

theorem avg_run (h : Fine typ num (.avg e) rows) : Good (.avg e) rows ∧
    Agg.run (.avg e) rows = (if ints num e rows = [] then new .null else intVal (typ e) (ints num e rows).sum, (ints num e rows).length) := by
  obtain ⟨ht, hm, hb⟩ := h
  have ht : 1 ≤ typ e ∧ typ e ≤ 4 := by omega
  refine run_ind (P := fun p c => c = (if ints num e p = [] then new .null else intVal (typ e) (ints num e p).sum, (ints num e p).length)) rfl ?_
  rintro p r s c hp rfl
  obtain ⟨v, hv, hn⟩ := hm r (by rw [hp]; simp)
  rw [ints_snoc]
  simp only [Agg.update, withArg, hv]
  cases hr : num e r with
  | none =>
    rw [hr] at hn
    exact ⟨_, by rw [if_pos hn], by simp⟩
  | some i =>
    rw [hr] at hn
    simp only at hn
    subst hn
    rw [int_notNull]
    have hb := hb (ints num e p ++ [i]) (by have := ints_prefix (num := num) (e := e) (rows := rows) (p := p ++ [r]) (s := s) (by simpa using hp); rwa [ints_snoc, hr] at this)
    rw [List.sum_append, List.sum_singleton] at hb
    by_cases hi : ints num e p = []
    · refine ⟨(intVal (typ e) i, (ints num e p).length + 1), ?_, ?_⟩
      · simp only [hi, if_true, Bool.false_eq_true, if_false, show isNull (new .null) = true from rfl]
      · simp [hi]
    · refine ⟨(intVal (typ e) ((ints num e p).sum + i), (ints num e p).length + 1), ?_, ?_⟩
      · simp only [if_neg hi, int_notNull, Bool.false_eq_true, if_false, addTo, add_ints ht hb]
      · simp [List.sum_append]

/-- `better` is the test by which MIN or MAX takes a new value. -/
theorem best_run {a : Agg} {better : Int → Int → Bool} (htr : ∀ i j k, better i j = true → better j k = true → better i k = true)
    (hirr : ∀ i, better i i = false) (hm : ∀ r ∈ rows, Means typ num e r)
    (hu : ∀ r c v, eval false (rowEnv r) e = .ok v → (isNull v = true → a.update r c = .ok c) ∧
      (isNull v = false → isNull c.1 = true → a.update r c = .ok (v, c.2)) ∧
      ∀ i j, v = intVal (typ e) i → c.1 = intVal (typ e) j → a.update r c = .ok (if better i j then (v, c.2) else c)) :
    Good a rows ∧ if ints num e rows = [] then isNull (a.run rows).1 = true
      else ∃ m ∈ ints num e rows, (a.run rows).1 = intVal (typ e) m ∧ ∀ i ∈ ints num e rows, better i m = false := by
  refine run_ind (P := fun p c => if ints num e p = [] then isNull c.1 = true
    else ∃ m ∈ ints num e p, c.1 = intVal (typ e) m ∧ ∀ i ∈ ints num e p, better i m = false) rfl ?_
  intro p r s c hp hc
  obtain ⟨v, hv, hn⟩ := hm r (by rw [hp]; simp)
  obtain ⟨u1, u2, u3⟩ := hu r c v hv
  rw [ints_snoc]
  cases hr : num e r with
  | none =>
    rw [hr] at hn
    exact ⟨c, u1 hn, by simpa using hc⟩
  | some i =>
    rw [hr] at hn
    simp only at hn
    have hne : ¬ ints num e p ++ (some i).toList = [] := by simp
    simp only [if_neg hne]
    by_cases hi : ints num e p = []
    · rw [if_pos hi] at hc
      refine ⟨_, u2 (hn ▸ int_notNull _ _) hc, i, by simp, hn, ?_⟩
      simp [hi, hirr]
    · rw [if_neg hi] at hc
      obtain ⟨m, hm, hcm, hall⟩ := hc
      refine ⟨_, u3 i m hn hcm, ?_⟩
      cases hb : better i m with
      | true =>
        refine ⟨i, by simp, by simpa using hn, ?_⟩
        intro j hj
        rcases List.mem_append.1 hj with hj | hj
        · cases hji : better j i with
          | false => rfl
          | true =>
            have := htr j i m hji hb
            rw [hall j hj] at this
            cases this
        · simp at hj; subst hj; exact hirr j
      | false =>
        refine ⟨m, by simp [hm], by simpa using hcm, ?_⟩
        intro j hj
        rcases List.mem_append.1 hj with hj | hj
        · exact hall j hj
        · simp at hj; subst hj; exact hb

theorem min_run (h : Fine typ num (.min e) rows) : Good (.min e) rows ∧ if ints num e rows = [] then isNull (Agg.run (.min e) rows).1 = true
    else ∃ m ∈ ints num e rows, (Agg.run (.min e) rows).1 = intVal (typ e) m ∧ ∀ i ∈ ints num e rows, decide (i < m) = false := by
  obtain ⟨ht, hm⟩ := h
  refine best_run (better := fun i j => decide (i < j)) (fun i j k h h' => by simp only [decide_eq_true_eq] at *; omega) (by simp) hm ?_
  intro r c v hv
  refine ⟨fun h => by simp only [Agg.update, withArg, hv, h, if_true], fun h h' => by simp only [Agg.update, withArg, hv, h, h', if_true, Bool.false_eq_true, if_false], ?_⟩
  intro i j hi hj
  have h1 := int_notNull (typ e) i
  have h2 := int_notNull (typ e) j
  simp only [Agg.update, withArg, hv, hi, hj, h1, h2, Bool.false_eq_true, if_false, decide_eq_true_eq, lt_ints ht]
  split <;> rfl

theorem max_run (h : Fine typ num (.max e) rows) : Good (.max e) rows ∧ if ints num e rows = [] then isNull (Agg.run (.max e) rows).1 = true
    else ∃ m ∈ ints num e rows, (Agg.run (.max e) rows).1 = intVal (typ e) m ∧ ∀ i ∈ ints num e rows, decide (m < i) = false := by
  obtain ⟨ht, hm⟩ := h
  refine best_run (better := fun i j => decide (j < i)) (fun i j k h h' => by simp only [decide_eq_true_eq] at *; omega) (by simp) hm ?_
  intro r c v hv
  refine ⟨fun h => by simp only [Agg.update, withArg, hv, h, if_true], fun h h' => by simp only [Agg.update, withArg, hv, h, h', if_true, Bool.false_eq_true, if_false], ?_⟩
  intro i j hi hj
  have h1 := int_notNull (typ e) i
  have h2 := int_notNull (typ e) j
  simp only [Agg.update, withArg, hv, hi, hj, h1, h2, Bool.false_eq_true, if_false, decide_eq_true_eq, lt_ints ht]
  split <;> rfl

theorem column_run (h : ∀ r ∈ rows, ∃ v, eval false (rowEnv r) e = .ok v) : Good (.column e) rows ∧
    (rows ≠ [] → ∃ r ∈ rows, eval false (rowEnv r) e = .ok (Agg.run (.column e) rows).1) := by
  have := run_ind (a := .column e) (rows := rows) (P := fun p c => (p = [] → isNull c.1 = true) ∧ (p ≠ [] → ∃ r ∈ p, eval false (rowEnv r) e = .ok c.1))
    ⟨fun _ => rfl, fun h => absurd rfl h⟩ (by
    intro p r s c hp hc
    obtain ⟨v, hv⟩ := h r (by rw [hp]; simp)
    by_cases hn : isNull c.1 = true
    · exact ⟨(v, c.2), by simp only [Agg.update, hn, if_true, withArg, hv], by simp, fun _ => ⟨r, by simp, hv⟩⟩
    · obtain ⟨r', hr', h'⟩ := hc.2 fun h => hn (hc.1 h)
      exact ⟨c, by simp only [Agg.update, hn]; simp, by simp, fun _ => ⟨r', by simp [hr'], h'⟩⟩)
  exact ⟨this.1, this.2.2⟩

theorem other_run (h : ∀ r ∈ rows, ∃ v, eval false (rowEnv r) e = .ok v) : Good (.other e) rows ∧
    (rows ≠ [] → ∃ r ∈ rows, eval false (rowEnv r) e = .ok (Agg.run (.other e) rows).1) := by
  refine run_ind (P := fun p c => p ≠ [] → ∃ r ∈ p, eval false (rowEnv r) e = .ok c.1) (fun h => absurd rfl h) ?_
  intro p r s c hp hc
  obtain ⟨v, hv⟩ := h r (by rw [hp]; simp)
  exact ⟨(v, c.2), by simp only [Agg.update, withArg, hv], fun _ => ⟨r, by simp, hv⟩⟩

theorem run_meets {a : Agg} (h : Fine typ num a rows) (hne : rows ≠ []) : Good a rows ∧ Meets typ num a rows (a.final (a.run rows)) := by
  cases a with
  | countStar =>
    obtain ⟨h1, h2⟩ := countStar_run h
    exact ⟨h1, by simp only [Meets, Agg.final, h2, if_neg (fun h => hne (List.length_eq_zero_iff.1 h))]⟩
  | count e =>
    obtain ⟨h1, h2⟩ := count_run (e := e) h.1
    refine ⟨h1, ?_⟩
    simp only [Meets, Agg.final, h2, if_neg (fun h => hne (List.length_eq_zero_iff.1 h))]
    rw [List.countP_eq_length.2 h.2]
  | sum e =>
    obtain ⟨h1, h2⟩ := sum_run h
    refine ⟨h1, ?_⟩
    simp only [Meets, Agg.final, h2]
    split
    · rfl
    · rfl
  | avg e =>
    obtain ⟨h1, h2⟩ := avg_run h
    refine ⟨h1, ?_⟩
    simp only [Meets, Agg.final, h2]
    by_cases hi : ints num e rows = []
    · simp only [if_pos hi, hi, List.length_nil, true_or, if_true]; rfl
    · have hl : (ints num e rows).length ≠ 0 := fun h => hi (List.length_eq_zero_iff.1 h)
      simp only [if_neg hi, int_notNull, hl, Bool.false_eq_true, or_self, if_false]
      rcases h.1 with ht | ht <;> rw [ht] <;> rfl
  | min e =>
    obtain ⟨h1, h2⟩ := min_run h
    refine ⟨h1, ?_⟩
    simp only [Meets, Agg.final]
    split at h2
    · rename_i hi; rw [if_pos hi]; exact h2
    · rename_i hi; rw [if_neg hi]
      obtain ⟨m, hm, hv, ha⟩ := h2
      exact ⟨m, hm, hv, fun i h => by simpa using ha i h⟩
  | max e =>
    obtain ⟨h1, h2⟩ := max_run h
    refine ⟨h1, ?_⟩
    simp only [Meets, Agg.final]
    split at h2
    · rename_i hi; rw [if_pos hi]; exact h2
    · rename_i hi; rw [if_neg hi]
      obtain ⟨m, hm, hv, ha⟩ := h2
      exact ⟨m, hm, hv, fun i h => by simpa using ha i h⟩
  | column e => exact column_run h
  | other e => exact other_run h

/-- C45: one output row for each different key: the key, followed for each aggregate by its SQL value over exactly the rows with that key. For inputs in which arguments are
integers (sums within the range of the argument's type) or NULL. Missing: COUNT(x) with NULLs (`C45_count_fails`), the empty input (`C45_empty_sum_fails`), sums that leave the type
of the argument (`C45_sum_fails`), an input that fails (`C45_input_error_fails`), arguments of other types. -/
theorem C45_aggregates_partial {drain : List Group → List Group} (hd : ∀ gs, (drain gs).Perm gs) {by_ : List Expr} {aggs : List Agg} {child : Machine σ Row} {c : σ}
    {xs : List Row} (h : Yields child c xs .done) (hne : xs ≠ [] ∨ by_ ≠ []) {key : Row → Row} (hk : ∀ r ∈ xs, project (rowEnv r) by_ = .ok (key r))
    (hf : ∀ a ∈ aggs, ∀ k, Fine typ num a (rowsOf key xs k)) :
    ∃ (out : List Row) (res : Row → List Value), Yields (aggregate drain by_ aggs child) (.collect [] false c) out .done ∧
      out.Perm ((firsts [] (xs.map key)).map fun k => k ++ res k) ∧
      ∀ k ∈ firsts [] (xs.map key), (res k).length = aggs.length ∧
        ∀ (i : Nat) a v, aggs[i]? = some a → (res k)[i]? = some v → Meets typ num a (rowsOf key xs k) v := by
  obtain ⟨out, ho, hp⟩ := C45_groups hd h hne hk fun a ha k => by
    by_cases hr : rowsOf key xs k = []
    · rw [hr]; intro p r s h; cases p <;> cases h
    · exact (run_meets (hf a ha k) hr).1
  refine ⟨out, fun k => aggs.map fun a => a.final (a.run (rowsOf key xs k)), ho, hp, ?_⟩
  intro k hk'
  refine ⟨by simp, ?_⟩
  intro i a v ha hv
  rw [List.getElem?_map, ha, Option.map_some, Option.some.injEq] at hv
  subst hv
  refine (run_meets (hf a (List.mem_of_getElem? ha) k) ?_).2
  obtain ⟨r, hr, rfl⟩ := List.mem_map.1 ((C42_firsts _).1.subset hk')
  intro he
  have : r ∈ rowsOf key xs (key r) := List.mem_filter.2 ⟨hr, vrefl _⟩
  rw [he] at this
  cases this

/-! ## Cases -/

def exNull : Value := newTyped .null 3

/-- Rows of a key and a number. -/
def exAgg : List Row := [[new (.integer 7), new (.integer 5)], [exNull, new (.integer 1)], [new (.integer 7), exNull], [new (.integer 7), new (.integer (-3))]]

def exNum (_ : Expr) (r : Row) : Option Int := match r with
  | [_, .mk (.integer i) _ _ _ _] => some i
  | _ => none

-- `SELECT k, COUNT(*), SUM(x), MIN(x), AVG(x) .. GROUP BY k`: the hypotheses of `C45_aggregates_partial` hold.
example : (∀ r ∈ exAgg, project (rowEnv r) [.col 0 0] = .ok (r.take 1)) ∧
    (∀ a ∈ [Agg.countStar, .sum (.col 0 1), .min (.col 0 1), .avg (.col 0 1)], ∀ k, Fine (fun _ => 3) exNum a (rowsOf (·.take 1) exAgg k)) ∧
    (firsts [] (exAgg.map (·.take 1))).length = 2 := by
  have hsub : ∀ k, ∀ r ∈ rowsOf (·.take 1) exAgg k, r ∈ exAgg := fun k r h => (List.mem_filter.1 h).1
  have hm : ∀ r ∈ exAgg, Means (fun _ => 3) exNum (.col 0 1) r := by
    intro r hr
    simp only [exAgg, List.mem_cons, List.not_mem_nil, or_false] at hr
    rcases hr with rfl | rfl | rfl | rfl <;> exact ⟨_, rfl, rfl⟩
  have hp : ∀ k p, p <+: ints exNum (.col 0 1) (rowsOf (·.take 1) exAgg k) → lo 3 ≤ p.sum ∧ p.sum ≤ hi 3 := by
    have hsum : ∀ p : List Int, p.length ≤ 4 → (∀ i ∈ p, -3 ≤ i ∧ i ≤ 5) → -12 ≤ p.sum ∧ p.sum ≤ 20 := by
      intro p hl hp
      have : ∀ p : List Int, (∀ i ∈ p, -3 ≤ i ∧ i ≤ 5) → -3 * (p.length : Int) ≤ p.sum ∧ p.sum ≤ 5 * (p.length : Int) := by
        intro p
        induction p with
        | nil => simp
        | cons a p ih =>
          intro h
          have h1 := h a (List.mem_cons_self ..)
          have h2 := ih fun i hi => h i (List.mem_cons_of_mem _ hi)
          rw [List.sum_cons, List.length_cons]
          omega
      have := this p hp
      omega
    intro k p hp
    have h1 : p.length ≤ 4 := by
      refine Nat.le_trans hp.length_le (Nat.le_trans (List.length_filterMap_le ..) (Nat.le_trans (List.length_filter_le ..) (by decide)))
    have h2 : ∀ i ∈ p, -3 ≤ i ∧ i ≤ 5 := by
      intro i hi
      obtain ⟨r, hr, he⟩ := List.mem_filterMap.1 (hp.subset hi)
      have hr := hsub k r hr
      simp only [exAgg, List.mem_cons, List.not_mem_nil, or_false] at hr
      rcases hr with rfl | rfl | rfl | rfl <;> simp [exNum, exNull, new, newTyped] at he <;> omega
    have := hsum p h1 h2
    simp only [lo, hi]
    omega
  refine ⟨?_, ?_, by decide⟩
  · intro r hr
    simp only [exAgg, List.mem_cons, List.not_mem_nil, or_false] at hr
    rcases hr with rfl | rfl | rfl | rfl <;> rfl
  · intro a ha k
    simp only [List.mem_cons, List.not_mem_nil, or_false] at ha
    rcases ha with rfl | rfl | rfl | rfl
    · exact Nat.lt_of_le_of_lt (List.length_filter_le ..) (by decide)
    · exact ⟨by decide, fun r hr => hm r (hsub k r hr), hp k⟩
    · exact ⟨by decide, fun r hr => hm r (hsub k r hr)⟩
    · exact ⟨.inl rfl, fun r hr => hm r (hsub k r hr), hp k⟩

variable {drain : List Group → List Group} (hd : ∀ gs, (drain gs).Perm gs)
include hd

theorem one_group (g : Group) : (stableSort (drain [g]) fun a b => groupCmp a.1 b.1 != .gt) = [g] := by
  rw [List.perm_singleton.1 (hd [g])]
  rfl

/-- C45 is false: COUNT(x) counts NULLs. -/
theorem C45_count_fails : ∃ rows : List Row, rows.countP (present (.col 0 0)) = 1 ∧
    Yields (aggregate drain [] [.count (.col 0 0)] source) (.collect [] false rows) [[new (.bigInt 2)]] .done := by
  refine ⟨[[new (.integer 5)], [exNull]], by decide, .cont rfl (.cont rfl (.cont (s' := .out [[new (.bigInt 2)]]) ?_ (.emit rfl (.stop rfl))))⟩
  have := one_group hd ([], [(new (.bigInt 2), 0)])
  exact congrArg (fun l => Step.cont (AggSt.out (List.map (outRow [.count (.col 0 0)]) (List.reverse l)))) this

/-- C45 is false: the SUM of no rows is 0, not NULL. -/
theorem C45_empty_sum_fails : Yields (aggregate drain [] [.sum (.col 0 0)] source) (.collect [] false []) [[new (.integer 0)]] .done := by
  refine .cont (s' := .out [[new (.integer 0)]]) ?_ (.emit rfl (.stop rfl))
  have := one_group hd ([], [(new (.integer 0), 0)])
  exact congrArg (fun l => Step.cont (AggSt.out (List.map (outRow [.sum (.col 0 0)]) (List.reverse l)))) this

/-- For an empty input without GROUP BY the other aggregates are right: COUNT is 0; MIN, MAX and AVG are NULL. -/
theorem C45_empty (e : Expr) : Yields (aggregate drain [] [.countStar, .count e, .min e, .max e, .avg e] source) (.collect [] false [])
    [[new (.bigInt 0), new (.bigInt 0), new .null, new .null, new .null]] .done := by
  refine .cont (s' := .out [[new (.bigInt 0), new (.bigInt 0), new .null, new .null, new .null]]) ?_ (.emit rfl (.stop rfl))
  have := one_group hd ([], [(new (.bigInt 0), 0), (new (.bigInt 0), 0), (new .null, 0), (new .null, 0), (new .null, 0)])
  exact congrArg (fun l => Step.cont (AggSt.out (List.map (outRow [.countStar, .count e, .min e, .max e, .avg e]) (List.reverse l)))) this

omit hd in
/-- C45 is false: 100 and 100 in a TinyInt column have no sum (a panic; release builds wrap around to -56). -/
theorem C45_sum_fails : Yields (aggregate drain [] [.sum (.col 0 0)] source) (.collect [] false [[new (.tinyInt 100)], [new (.tinyInt 100)]]) [] .panic :=
  .cont rfl (.stop rfl)

/-- C45 is false: the AVG of a SmallInt column is NULL. -/
theorem C45_avg_fails : Yields (aggregate drain [] [.avg (.col 0 0)] source) (.collect [] false [[new (.smallInt 4)]]) [[new .null]] .done := by
  refine .cont rfl (.cont (s' := .out [[new .null]]) ?_ (.emit rfl (.stop rfl)))
  have := one_group hd ([], [(new (.smallInt 4), 1)])
  exact congrArg (fun l => Step.cont (AggSt.out (List.map (outRow [.avg (.col 0 0)]) (List.reverse l)))) this

omit hd in
/-- C45 is false: when the input fails the result is empty, without an error. -/
theorem C45_input_error_fails : Yields broken [[new (.integer 5)]] [[new (.integer 5)]] .err ∧
    Yields (aggregate drain [] [.countStar] broken) (.collect [] false [[new (.integer 5)]]) [] .done :=
  ⟨broken_yields _, .cont rfl (.stop rfl)⟩

/-! ## Values of different types -/

/-- The number of an integer or an interval, with the number of its type among the integer types (an interval has 64 bits). -/
def asNum (v : Value) : Option (Nat × Int) := match val v with
  | .tinyInt i => some (1, i)
  | .smallInt i => some (2, i)
  | .integer i => some (3, i)
  | .bigInt i | .interval i => some (4, i)
  | _ => none

/-- The sum `n` in the larger of the types `t` and `u`, or an overflow because it does not fit in it, or an error, never for two values of the same type. -/
def Added (t u : Nat) (n : Int) : PanicR → Prop
  | .ok v => asNum v = some (Nat.max t u, n)
  | .overflow => ¬(lo (Nat.max t u) ≤ n ∧ n ≤ hi (Nat.max t u))
  | .err => t ≠ u ∨ t = 4

/-- C45: what SUM adds in columns whose values have different types: the sum is exact, in the larger of the two types, and there is an overflow only when it does not fit in it. -/
theorem C45_plus {a b : Value} {t u : Nat} {i j : Int} (ha : asNum a = some (t, i)) (hb : asNum b = some (u, j)) : Added t u (i + j) (addValue a b) := by
  obtain ⟨x, _, _, _, _⟩ := a
  obtain ⟨y, _, _, _, _⟩ := b
  cases x <;> cases ha <;> cases y <;> cases hb <;> simp only [addValue, val, isNull, Bool.or_self, Bool.false_eq_true, if_false, plusInt] <;>
    first | exact .inl (by decide : ¬_ = _) | exact .inr rfl | (split <;> first | rfl | assumption)

/-- Values of different types. -/
example : asNum (new (.tinyInt 100)) = some (1, 100) ∧ asNum (new (.integer 70000)) = some (3, 70000) ∧ addValue (new (.tinyInt 100)) (new (.integer 70000)) = .ok (new (.integer 70100)) :=
  ⟨rfl, rfl, rfl⟩

end Verif.Exec

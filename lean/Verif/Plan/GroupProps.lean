import Verif.Plan.SelectProps
import Verif.Exec.AggProps

/-!
# C73 for a SELECT with GROUP BY

The SELECT list is the GROUP BY columns followed by aggregates.
-/

namespace Verif.Plan

open Verif.Wire Verif.Bytes Verif.Sql Verif.Exec

/-- The number of the column a name stands for. -/
def theColumn (s : Schema) (n : Name) : Nat := (matching s n).headD 0

/-- The values of the named columns. -/
def keyOf (s : Schema) (gs : List Name) (row : Row) : Row := gs.filterMap (cell s row)

/-- The groups of the rows: one for each different value of the GROUP BY columns; without GROUP BY one, even if there are no rows. -/
def keysOf (s : Schema) (gs : List Name) (rows : List Row) : List Row := if gs = [] then [[]] else firsts [] (rows.map (keyOf s gs))

/-- `SELECT g1, …, f1(a1), … FROM t GROUP BY g1, …`: the GROUP BY columns first and in their order, qualified or not, then aggregates with different functions, without aliases; the
GROUP BY columns have different names, also without the names of their tables, and none that is or looks like one of an aggregate. Without GROUP BY there is an aggregate. -/
structure Grouped (s : Schema) (q : Select) (gs : List Name) (fs : List (Fn × Name)) : Prop where
  items : q.items = gs.map (fun n => Item.expr (.column n) none) ++ fs.map fun a => Item.expr (.agg a.1 a.2) none
  group : q.groupBy = gs
  some_group : gs ≠ [] ∨ fs ≠ []
  different : (gs.map (·.col)).Nodup
  columns : ∀ n ∈ gs, Refers s n
  args : ∀ a ∈ fs, Refers s a.2
  functions : (fs.map fun a => a.1.name).Nodup
  plain : ∀ n ∈ gs, ∀ f : Fn, n.col ≠ f.name ∧ startsWithFn f n.col = false
  no_having : q.having = none
  no_distinct : q.distinct = false

/-- The planner, with its schema `s'`, finds the column that is meant by `n` in the schema `s`. -/
def Finds (s' s : Schema) (n : Name) : Prop := resolve s' n = some (theColumn s n) ∧ ∃ c, s'[theColumn s n]? = some c ∧ Denotes n c

section
variable {s s' : Schema} {q : Select} {gs : List Name} {fs : List (Fn × Name)}

theorem refers_column {n : Name} (h : Refers s n) : matching s n = [theColumn s n] := by
  obtain ⟨i, hi⟩ := h
  simp [theColumn, hi]

theorem finds_same {n : Name} (h : Refers s n) : Finds s s n := by
  have hm := refers_column h
  refine ⟨(resolve_refers hm).1, ?_⟩
  exact mem_matching.1 (by rw [hm]; exact List.mem_singleton_self _)

/-- The name the planner has for the column. -/
def nameIn (s' s : Schema) (n : Name) : Name := (s'[theColumn s n]?).getD n

theorem nameIn_denotes {n : Name} (h : Finds s' s n) : s'[theColumn s n]? = some (nameIn s' s n) ∧ Denotes n (nameIn s' s n) := by
  obtain ⟨_, c, h1, h2⟩ := h
  have : nameIn s' s n = c := by simp [nameIn, h1]
  rw [this]
  exact ⟨h1, h2⟩

theorem mapM_columns (h : ∀ n ∈ gs, Finds s' s n) : gs.mapM (resolve s') = some (gs.map (theColumn s)) := by
  induction gs with
  | nil => rfl
  | cons n ns ih =>
    simp [List.mapM_cons, (h n List.mem_cons_self).1, ih fun m hm => h m (List.mem_cons_of_mem _ hm)]

theorem names_eq (h : ∀ n ∈ gs, Finds s' s n) : (gs.map (theColumn s)).filterMap (s'[·]?) = gs.map (nameIn s' s) := by
  induction gs with
  | nil => rfl
  | cons n ns ih =>
    have hn := nameIn_denotes (h n List.mem_cons_self)
    simp [hn.1, ih fun m hm => h m (List.mem_cons_of_mem _ hm)]

theorem parse_column {n : Name} (h : Finds s' s n) : parse s' (.column n) = some (.col 0 (theColumn s n)) := by
  simp [parse, NExpr.column, List.mapM_cons, h.1, renumber]

theorem mapM_aggs (h : ∀ a ∈ fs, Finds s' s a.2) :
    (fs.mapM fun a => (parse s' (.column a.2)).map a.1.agg) = some (fs.map fun a => a.1.agg (.col 0 (theColumn s a.2))) := by
  induction fs with
  | nil => rfl
  | cons a as ih => simp [List.mapM_cons, parse_column (h a List.mem_cons_self), ih fun b hb => h b (List.mem_cons_of_mem _ hb)]

theorem aggsOf_columns {rest : List Item} : aggsOf (gs.map (fun n => Item.expr (.column n) none) ++ rest) = aggsOf rest := by
  induction gs with
  | nil => rfl
  | cons n ns ih => exact ih

theorem aggsOf_aggs : aggsOf (fs.map fun a => Item.expr (.agg a.1 a.2) none) = fs := by
  induction fs with
  | nil => rfl
  | cons a as ih => simp [aggsOf, ih]

theorem hasStar_items : hasStar (gs.map (fun n => Item.expr (.column n) none) ++ fs.map fun a => Item.expr (.agg a.1 a.2) none) = false := by
  induction gs with
  | nil =>
    induction fs with
    | nil => rfl
    | cons a as ih => exact ih
  | cons n ns ih => exact ih

theorem dedup_nodup : ∀ {ns seen : List Name}, ns.Nodup → (∀ n ∈ ns, n ∉ seen) → dedup seen ns = ns
  | [], _, _, _ => rfl
  | n :: ns, seen, h, hs => by
    rw [List.nodup_cons] at h
    simp only [dedup, if_neg (hs n List.mem_cons_self)]
    rw [dedup_nodup h.2 fun m hm => ?_]
    intro hms
    rcases List.mem_cons.1 hms with rfl | hms
    · exact h.1 hm
    · exact hs m (List.mem_cons_of_mem _ hm) hms

theorem aliasOf_plain {names : List Name} {n : Name} (hn : n.tbl = none) : ∀ items, aliasOf names items n = n
  | [] => rfl
  | .star :: rest => aliasOf_plain hn rest
  | .expr (.scalar _ _) _ :: rest => aliasOf_plain hn rest
  | .expr (.agg _ _) _ :: rest => aliasOf_plain hn rest
  | .expr (.column m) a :: rest => by
    simp only [aliasOf, aliasOf_plain hn rest]
    split
    · rename_i h
      obtain ⟨_, rfl, h⟩ := h
      simp [hn] at h
    · rfl

/-- Without aliases, a name loses its table or stays as it is. -/
theorem aliasOf_none {names : List Name} {n : Name} : ∀ {items : List Item}, (∀ e a, Item.expr e a ∈ items → a = none) →
    aliasOf names items n = n ∨ aliasOf names items n = ⟨none, n.col⟩
  | [], _ => .inl rfl
  | .star :: rest, h => aliasOf_none (items := rest) fun e a he => h e a (List.mem_cons_of_mem _ he)
  | .expr (.scalar _ _) _ :: rest, h => aliasOf_none (items := rest) fun e a he => h e a (List.mem_cons_of_mem _ he)
  | .expr (.agg _ _) _ :: rest, h => aliasOf_none (items := rest) fun e a he => h e a (List.mem_cons_of_mem _ he)
  | .expr (.column m) a :: rest, h => by
    have ih := aliasOf_none (names := names) (n := n) (items := rest) fun e a he => h e a (List.mem_cons_of_mem _ he)
    have ha := h _ _ List.mem_cons_self
    subst ha
    simp only [aliasOf]
    split
    · rename_i hh
      obtain ⟨_, rfl, _⟩ := hh
      split <;> simp
    · exact ih

/-- A qualified GROUP BY column that stands in the SELECT list loses its table. -/
theorem aliasOf_qualified {names : List Name} {n : Name} (hq : n.tbl.isSome = true) (hn : n ∈ names) : ∀ {items : List Item}, (∀ e a, Item.expr e a ∈ items → a = none) →
    Item.expr (.column n) none ∈ items → aliasOf names items n = ⟨none, n.col⟩
  | [], _, hm => by cases hm
  | .star :: rest, h, hm => aliasOf_qualified hq hn (items := rest) (fun e a he => h e a (List.mem_cons_of_mem _ he)) (by simpa using hm)
  | .expr (.scalar _ _) _ :: rest, h, hm => aliasOf_qualified hq hn (items := rest) (fun e a he => h e a (List.mem_cons_of_mem _ he)) (by simpa using hm)
  | .expr (.agg _ _) _ :: rest, h, hm => aliasOf_qualified hq hn (items := rest) (fun e a he => h e a (List.mem_cons_of_mem _ he)) (by simpa using hm)
  | .expr (.column m) a :: rest, h, hm => by
    have hr := fun e a he => h e a (List.mem_cons_of_mem _ he)
    have h0 := aliasOf_none (names := names) (n := n) (items := rest) hr
    have ha := h _ _ List.mem_cons_self
    subst ha
    simp only [aliasOf]
    by_cases hmn : m = n
    · subst hmn
      by_cases hl : aliasOf names rest m = m
      · simp [hl, hq, hn]
      · simp only [hl, false_and, if_false]
        exact h0.resolve_left hl
    · have hm' : Item.expr (.column n) none ∈ rest := by
        rcases List.mem_cons.1 hm with hm | hm
        · cases hm; exact (hmn rfl).elim
        · exact hm
      have ih := aliasOf_qualified hq hn hr hm'
      simp only [ih, hmn, false_and, and_false, if_false]

/-- The names of the GROUP BY columns in the output of the aggregation. -/
def aggName (s' s : Schema) (q : Select) (gs : List Name) (n : Name) : Name := aliasOf (gs.map (nameIn s' s)) q.items (nameIn s' s n)

theorem no_alias (h : Grouped s q gs fs) : ∀ e a, Item.expr e a ∈ q.items → a = none := by
  intro e a he
  rw [h.items] at he
  rcases List.mem_append.1 he with he | he <;> (obtain ⟨x, _, hx⟩ := List.mem_map.1 he; cases hx; rfl)

theorem aggName_denotes (h : Grouped s q gs fs) (hf : ∀ n ∈ gs, Finds s' s n) {n : Name} (hn : n ∈ gs) : Denotes n (aggName s' s q gs n) := by
  obtain ⟨_, h2, h3⟩ := nameIn_denotes (hf n hn)
  unfold aggName
  rcases aliasOf_none (names := gs.map (nameIn s' s)) (n := nameIn s' s n) (no_alias h) with he | he
  · rw [he]; exact ⟨h2, h3⟩
  · rw [he]; exact ⟨h2, .inr (.inl rfl)⟩

theorem aggName_cols (h : Grouped s q gs fs) (hf : ∀ n ∈ gs, Finds s' s n) : (gs.map (aggName s' s q gs)).map (·.col) = gs.map (·.col) := by
  rw [List.map_map]
  exact List.map_congr_left fun n hn => (aggName_denotes h hf hn).1.symm

theorem aggSchema_eq (h : Grouped s q gs fs) (hf : ∀ n ∈ gs, Finds s' s n) :
    aggSchema (gs.map (nameIn s' s)) q.items = gs.map (aggName s' s q gs) ++ fs.map fun a => ⟨none, a.1.name⟩ := by
  have h0 : aggsOf q.items = fs := by rw [h.items, aggsOf_columns, aggsOf_aggs]
  have h1 : (gs.map (nameIn s' s)).map (aliasOf (gs.map (nameIn s' s)) q.items) = gs.map (aggName s' s q gs) := by
    rw [List.map_map]; rfl
  rw [aggSchema, h0, h1]
  refine dedup_nodup ?_ nofun
  rw [List.nodup_append]
  refine ⟨?_, ?_, ?_⟩
  · have := h.different
    rw [← aggName_cols h hf] at this
    rw [List.nodup_iff_pairwise_ne, List.pairwise_map] at this
    rw [List.nodup_iff_pairwise_ne]
    exact this.imp fun hne he => hne (by rw [he])
  · have := h.functions
    rw [List.nodup_iff_pairwise_ne, List.pairwise_map] at this ⊢
    exact this.imp fun hne he => hne (by injection he)
  · intro m hm d hd he
    obtain ⟨n, hn, rfl⟩ := List.mem_map.1 hm
    obtain ⟨a, _, rfl⟩ := List.mem_map.1 hd
    exact (h.plain n hn a.1).1 (by rw [(aggName_denotes h hf hn).1, he])

theorem groupByOk_items (h : ∀ n ∈ gs, Finds s' s n) {names : List Name} (hn : ∀ n ∈ gs, nameIn s' s n ∈ names) :
    groupByOk s' names (gs.map (fun n => Item.expr (.column n) none) ++ fs.map fun a => Item.expr (.agg a.1 a.2) none) = true := by
  induction gs with
  | nil =>
    induction fs with
    | nil => rfl
    | cons a as ih => exact ih
  | cons n ns ih =>
    have h1 := h n List.mem_cons_self
    have ih := ih (fun m hm => h m (List.mem_cons_of_mem _ hm)) (fun m hm => hn m (List.mem_cons_of_mem _ hm))
    have h2 : (resolve s' n).bind (s'[·]?) = some (nameIn s' s n) := by
      rw [h1.1]
      exact (nameIn_denotes h1).1
    have h3 : names.contains (nameIn s' s n) = true := by simpa using hn n List.mem_cons_self
    simp only [List.map_cons, List.cons_append, groupByOk, h2, h3, Bool.true_or, ih, Bool.and_self]

theorem out_col (f : Fn) (arg : Name) : startsWithFn f (outName (.agg f arg) none).col = true := by
  have hs : ∀ a b : String, (a ++ b).startsWith a = true := by
    intro a b
    simp [String.startsWith_string_iff]
  rw [startsWithFn, Bool.or_eq_true]
  refine .inr ?_
  cases f with
  | countStar => exact hs "COUNT_" "star"
  | _ => exact hs _ _

theorem range_one {k i : Nat} {p : Nat → Bool} (hi : i < k) (hp : ∀ j < k, p j = true ↔ j = i) : (List.range k).filter p = [i] := by
  induction k with
  | zero => omega
  | succ k ih =>
    rw [List.range_succ, List.filter_append]
    by_cases hk : i = k
    · subst hk
      have : (List.range i).filter p = [] := by
        rw [List.filter_eq_nil_iff]
        intro j hj hpj
        have := List.mem_range.1 hj
        have := (hp j (by omega)).1 hpj
        omega
      rw [this]
      simp [(hp i (by omega)).2 rfl]
    · rw [ih (by omega) fun j hj => hp j (by omega)]
      have : p k = false := by
        cases h : p k with
        | false => rfl
        | true => exact (hk ((hp k (by omega)).1 h).symm).elim
      simp [this]

/-- A name refers to the only column with its last part. -/
theorem refers_unique {D : Schema} {n d : Name} {i : Nat} (hi : D[i]? = some d) (hd : Denotes n d) (hu : ∀ (j : Nat) e, D[j]? = some e → e.col = n.col → j = i) : matching D n = [i] := by
  unfold matching
  refine range_one (List.getElem?_eq_some_iff.1 hi).1 fun j hj => ⟨fun h => ?_, fun h => ?_⟩
  · rw [List.getElem?_eq_getElem hj, Option.any_some, decide_eq_true_eq] at h
    exact hu j _ (List.getElem?_eq_getElem hj) h.1.symm
  · subst h
    rw [hi, Option.any_some]
    simpa using hd

theorem fn_not_out (f g : Fn) (arg : Name) : (⟨none, f.name⟩ : Name) ≠ outName (.agg g arg) none := by
  intro h
  have h : f.name = (outName (.agg g arg) none).col := congrArg Name.col h
  have hf : '_' ∉ f.name.toList := by cases f <;> decide
  have hg : '_' ∈ (outName (.agg g arg) none).col.toList := by
    cases g <;> simp [outName, String.toList_append]
  rw [← h] at hg
  exact hf hg

theorem fn_not_start (f g : Fn) : startsWithFn f g.name = false := by
  cases f <;> cases g <;> decide +kernel

theorem aggItem_col (h : Grouped s q gs fs) (hf : ∀ n ∈ gs, Finds s' s n) {i : Nat} {n : Name} (hi : gs[i]? = some n) :
    aggItem (gs.map (aggName s' s q gs) ++ fs.map fun a => ⟨none, a.1.name⟩) s' i (.column n) none = some (.col 0 i) := by
  have hn : n ∈ gs := List.mem_of_getElem? hi
  obtain ⟨hlt, hget⟩ := List.getElem?_eq_some_iff.1 hi
  have hr : resolve (gs.map (aggName s' s q gs) ++ fs.map fun a => (⟨none, a.1.name⟩ : Name)) n = some i := by
    refine (resolve_refers (refers_unique (d := aggName s' s q gs n) ?_ (aggName_denotes h hf hn) fun j d hj hd => ?_)).1
    · rw [List.getElem?_append_left (by simpa using hlt), List.getElem?_map, hi]; rfl
    · by_cases hjl : j < gs.length
      · rw [List.getElem?_append_left (by simpa using hjl), List.getElem?_map, Option.map_eq_some_iff] at hj
        obtain ⟨m, hm, rfl⟩ := hj
        rw [← (aggName_denotes h hf (List.mem_of_getElem? hm)).1] at hd
        obtain ⟨_, hm⟩ := List.getElem?_eq_some_iff.1 hm
        refine (List.getElem_inj (h₀ := by simpa using hjl) (h₁ := by simpa using hlt) h.different).1 ?_
        simp [hm, hget, hd]
      · rw [List.getElem?_append_right (by simp; omega)] at hj
        obtain ⟨a, _, rfl⟩ := List.mem_map.1 (List.mem_of_getElem? hj)
        exact ((h.plain n hn a.1).1 hd.symm).elim
  have hx : parseS s' (.column n) = some (.col 0 (theColumn s n)) := parse_column (hf n hn)
  simp [aggItem, hx, outName, hr]

theorem aggItem_agg (h : Grouped s q gs fs) (hf : ∀ n ∈ gs, Finds s' s n) (hfa : ∀ a ∈ fs, Finds s' s a.2) {i : Nat} {a : Fn × Name} (hi : fs[i]? = some a) :
    aggItem (gs.map (aggName s' s q gs) ++ fs.map fun a => ⟨none, a.1.name⟩) s' (gs.length + i) (.agg a.1 a.2) none = some (.col 0 (gs.length + i)) := by
  have ha : a ∈ fs := List.mem_of_getElem? hi
  obtain ⟨hlt, _⟩ := List.getElem?_eq_some_iff.1 hi
  have hf : (gs.map (aggName s' s q gs) ++ fs.map fun a => (⟨none, a.1.name⟩ : Name)).findIdx?
      (fun c => c == outName (.agg a.1 a.2) none || (c.tbl.isNone && startsWithFn a.1 c.col)) = none := by
    refine findIdx_none fun j d hj => ?_
    rcases List.mem_append.1 (List.mem_of_getElem? hj) with hd | hd
    · obtain ⟨n, hn, rfl⟩ := List.mem_map.1 hd
      have h3 := (h.plain n hn a.1).2
      rw [(aggName_denotes h hf hn).1] at h3
      have h2 : aggName s' s q gs n ≠ outName (.agg a.1 a.2) none := fun he => by
        rw [he, out_col] at h3
        cases h3
      simp [h2, h3]
    · obtain ⟨b, _, rfl⟩ := List.mem_map.1 hd
      simp [fn_not_out b.1 a.1 a.2, fn_not_start a.1 b.1]
  simp only [aggItem, parse_column (hfa a ha), hf, Option.getD_none, List.length_append, List.length_map]
  have : Nat.min (gs.length + i) (gs.length + fs.length - 1) = gs.length + i := Nat.min_eq_left (by omega)
  simp [this]

/-- The names of the columns of the answer: those of the GROUP BY columns, and `SUM_a` for `SUM(a)`. -/
def groupCols (gs : List Name) (fs : List (Fn × Name)) : Schema := gs ++ fs.map fun a => outName (.agg a.1 a.2) none

theorem aggProjection_aggs (h : Grouped s q gs fs) (hf : ∀ n ∈ gs, Finds s' s n) (hfa : ∀ a ∈ fs, Finds s' s a.2) : ∀ (pre post : List (Fn × Name)), fs = pre ++ post →
    aggProjection (gs.map (aggName s' s q gs) ++ fs.map fun a => ⟨none, a.1.name⟩) s' (gs.length + pre.length) (post.map fun a => Item.expr (.agg a.1 a.2) none) =
      some ((List.range' (gs.length + pre.length) post.length).map (.col 0 ·), post.map fun a => outName (.agg a.1 a.2) none)
  | pre, [], _ => rfl
  | pre, a :: post, he => by
    have h1 := aggItem_agg h hf hfa (i := pre.length) (a := a) (by rw [he]; simp)
    have h2 := aggProjection_aggs h hf hfa (pre ++ [a]) post (by rw [he]; simp)
    rw [List.length_append, List.length_singleton, ← Nat.add_assoc] at h2
    simp only [List.map_cons, aggProjection, h1, h2, List.length_cons, List.range'_succ]
    rfl

theorem aggProjection_cols (h : Grouped s q gs fs) (hf : ∀ n ∈ gs, Finds s' s n) (hfa : ∀ a ∈ fs, Finds s' s a.2) : ∀ (pre post : List Name), gs = pre ++ post →
    aggProjection (gs.map (aggName s' s q gs) ++ fs.map fun a => ⟨none, a.1.name⟩) s' pre.length (post.map (fun n => Item.expr (.column n) none) ++ fs.map fun a => Item.expr (.agg a.1 a.2) none) =
      some ((List.range' pre.length (post.length + fs.length)).map (.col 0 ·), post ++ fs.map fun a => outName (.agg a.1 a.2) none)
  | pre, [], hg => by
    have := aggProjection_aggs h hf hfa [] fs rfl
    rw [List.append_nil] at hg
    subst hg
    simpa using this
  | pre, n :: post, hg => by
    have h1 := aggItem_col (fs := fs) h hf (i := pre.length) (n := n) (by rw [hg]; simp)
    have h2 := aggProjection_cols h hf hfa (pre ++ [n]) post (by rw [hg]; simp)
    rw [List.length_append, List.length_singleton] at h2
    simp only [List.map_cons, List.cons_append, aggProjection, h1, h2, List.length_cons, Nat.add_right_comm, List.range'_succ]
    rfl

theorem group_body (h : Grouped s q gs fs) (hf : ∀ n ∈ gs, Finds s' s n) (hfa : ∀ a ∈ fs, Finds s' s a.2) (before : Plan) : planBody s' q before =
    some (.project ((List.range (gs.length + fs.length)).map (.col 0 ·))
      (.agg ((gs.map (theColumn s)).map (.col 0 ·)) (fs.map fun a => a.1.agg (.col 0 (theColumn s a.2))) before), groupCols gs fs) := by
  have h1 := aggProjection_cols h hf hfa [] gs rfl
  rw [List.length_nil, ← List.range_eq_range', ← h.items] at h1
  have h2 : hasStar q.items = false := by rw [h.items]; exact hasStar_items
  have h3 : aggsOf q.items = fs := by rw [h.items, aggsOf_columns, aggsOf_aggs]
  have h4 : groupByOk s' (gs.map (nameIn s' s)) q.items = true := by
    rw [h.items]
    exact groupByOk_items hf fun n hn => List.mem_map_of_mem hn
  have h5 : q.groupBy ≠ [] ∨ fs ≠ [] := by rw [h.group]; exact h.some_group
  have h6 : q.groupBy.mapM (resolve s') = some (gs.map (theColumn s)) := by
    rw [h.group]
    exact mapM_columns hf
  simp only [planBody, h3, if_pos h5, h2, Bool.false_eq_true, if_false, h6, mapM_aggs hfa, h.no_having]
  simp only [Option.bind_eq_bind, Option.bind_some, pure, Option.bind]
  rw [names_eq hf]
  simp [h4, aggSchema_eq h hf, h1, groupCols]

theorem key_project {row : Row} (hl : row.length = s.length) (h : ∀ n ∈ gs, Refers s n) :
    Exec.project (rowEnv row) ((gs.map (theColumn s)).map (.col 0 ·)) = .ok (keyOf s gs row) ∧ (keyOf s gs row).length = gs.length := by
  induction gs with
  | nil => exact ⟨rfl, rfl⟩
  | cons n ns ih =>
    obtain ⟨h1, h2⟩ := ih fun m hm => h m (List.mem_cons_of_mem _ hm)
    have hn := refers_column (h n List.mem_cons_self)
    have hlt := (resolve_refers hn).2
    have hc : row[theColumn s n]? = some row[theColumn s n] := List.getElem?_eq_getElem (by omega)
    have hk : cell s row n = some row[theColumn s n] := by simp [cell, hn, hc]
    simp only [List.map_cons, Exec.project, eval, rowEnv, hc] at h1 ⊢
    simp only [keyOf, List.filterMap_cons, hk] at h1 h2 ⊢
    constructor
    · simp only [h1, Except.map]
    · simpa using h2

end

section
variable {w : World} {ix : Nat → Option Nat} {isConst : Expr → Bool} {known : Nat → Bool} {s s' : Schema} {t : Nat} {q : Select} {base : Plan} {rows : List Row} {gs : List Name} {fs : List (Fn × Name)}

theorem aggD_groups (hd : ∀ l, (w.drain l).Perm l) {by_ : List Expr} {aggs : List Agg} {xs : List Row} (hne : xs ≠ [] ∨ by_ ≠ []) {key : Row → Row}
    (hk : ∀ r ∈ xs, Exec.project (rowEnv r) by_ = .ok (key r)) {typ : Expr → Nat} {num : Expr → Row → Option Int}
    (hf : ∀ a ∈ aggs, ∀ k, Fine typ num a (rowsOf key xs k)) :
    ∃ (out : List Row) (res : Row → List Value), aggD w.drain by_ aggs .done [] false xs = (out, .done) ∧ out.Perm ((firsts [] (xs.map key)).map fun k => k ++ res k) ∧
      ∀ k ∈ firsts [] (xs.map key), (res k).length = aggs.length ∧
        ∀ (i : Nat) a v, aggs[i]? = some a → (res k)[i]? = some v → Meets typ num a (rowsOf key xs k) v := by
  obtain ⟨out, res, h1, h2, h3⟩ := C45_aggregates_partial hd (source_yields xs) hne hk hf
  obtain ⟨h4, h5⟩ := C40_deterministic (agg_den (drain := w.drain) (by_ := by_) (aggs := aggs) (source_yields xs) [] false) h1
  exact ⟨out, res, Prod.ext h4 h5, h2, h3⟩

/-- The aggregate a function name of SQL stands for. -/
def sqlAgg : Fn → Expr → Agg
  | .countStar => fun _ => .countStar
  | .count => .count
  | .sum => .sum
  | .min => .min
  | .max => .max
  | .avg => .avg

theorem sqlAgg_eq : sqlAgg = Fn.agg := by
  funext f e
  cases f <;> rfl

theorem mem_keysOf {rows : List Row} {k : Row} (h : k ∈ keysOf s gs rows) : gs = [] ∧ k = [] ∨ ∃ r ∈ rows, keyOf s gs r = k := by
  unfold keysOf at h
  split at h
  · rename_i h0; exact .inl ⟨h0, List.mem_singleton.1 h⟩
  · exact .inr (List.mem_map.1 ((C42_firsts _).1.subset h))

/-- The aggregates of no rows. -/
theorem aggD_none (hd : ∀ l, (w.drain l).Perm l) (aggs : List Agg) : aggD w.drain [] aggs .done [] false [] = ([aggs.map fun a => a.final a.empty], .done) := by
  unfold aggD
  simp only [List.isEmpty_nil, and_self, if_true]
  rw [List.perm_singleton.1 (hd _)]
  show ([outRow aggs ([], aggs.map Agg.empty)], End.done) = _
  unfold outRow
  rw [List.nil_append]
  congr 2
  induction aggs with
  | nil => rfl
  | cons a as ih => simp only [List.map_cons, List.zip_cons_cons, ih]

theorem meets_none {typ : Expr → Nat} {num : Expr → Row → Option Int} {f : Fn} (h : f ≠ .sum) (e : Expr) : Meets typ num (f.agg e) [] ((f.agg e).final (f.agg e).empty) := by
  cases f with
  | sum => exact absurd rfl h
  | countStar => rfl
  | count => rfl
  | min => exact (rfl : isNull (new .null) = true)
  | max => exact (rfl : isNull (new .null) = true)
  | avg => exact (rfl : isNull (new .null) = true)

theorem firsts_same {α : Type} (xs : List α) (hne : xs ≠ []) : firsts [] (xs.map fun _ => ([] : Row)) = [[]] := by
  have key : ∀ (xs : List α) (before : List Row), [] ∈ before → firsts before (xs.map fun _ => ([] : Row)) = [] := by
    intro xs
    induction xs with
    | nil => exact fun _ _ => rfl
    | cons x xs ih =>
      intro before h
      rw [List.map_cons, firsts, if_pos (List.any_eq_true.2 ⟨[], h, rfl⟩)]
      exact ih _ (List.mem_append_left _ h)
  obtain ⟨x, xs, rfl⟩ := List.exists_cons_of_ne_nil hne
  rw [List.map_cons, firsts, if_neg (by simp), key _ _ (List.mem_append_right _ (List.mem_singleton_self _))]

/-- The aggregates of all groups. -/
theorem aggD_keys (hd : ∀ l, (w.drain l).Perm l) {xs : List Row} (hxl : ∀ r ∈ xs, r.length = s.length) (hcols : ∀ n ∈ gs, Refers s n) {typ : Expr → Nat} {num : Expr → Row → Option Int}
    (hfine : ∀ a ∈ fs, ∀ k, Fine typ num (a.1.agg (.col 0 (theColumn s a.2))) (rowsOf (keyOf s gs) xs k)) (hsum : gs = [] → xs = [] → ∀ a ∈ fs, a.1 ≠ .sum) :
    ∃ (out : List Row) (res : Row → List Value), aggD w.drain ((gs.map (theColumn s)).map (.col 0 ·)) (fs.map fun a => a.1.agg (.col 0 (theColumn s a.2))) .done [] false xs = (out, .done) ∧
      out.Perm ((keysOf s gs xs).map fun k => k ++ res k) ∧ ∀ k ∈ keysOf s gs xs, (res k).length = (fs.map fun a => a.1.agg (.col 0 (theColumn s a.2))).length ∧
        ∀ (i : Nat) a v, (fs.map fun a => a.1.agg (.col 0 (theColumn s a.2)))[i]? = some a → (res k)[i]? = some v → Meets typ num a (rowsOf (keyOf s gs) xs k) v := by
  by_cases hne : xs ≠ [] ∨ gs ≠ []
  · have hk : keysOf s gs xs = firsts [] (xs.map (keyOf s gs)) := by
      unfold keysOf
      split
      · rename_i h0
        subst h0
        have hx : xs ≠ [] := hne.resolve_right (· rfl)
        exact (firsts_same xs hx).symm
      · rfl
    rw [hk]
    refine aggD_groups hd (by simpa using hne) (fun r hr => (key_project (hxl r hr) hcols).1) fun a ha k => ?_
    obtain ⟨b, hb, rfl⟩ := List.mem_map.1 ha
    exact hfine b hb k
  · rw [not_or, Decidable.not_not, Decidable.not_not] at hne
    obtain ⟨rfl, rfl⟩ := hne
    refine ⟨_, fun _ => (fs.map fun a => a.1.agg (.col 0 (theColumn s a.2))).map fun a => a.final a.empty, aggD_none hd _, .refl _, fun k hk => ⟨by simp, fun i a v ha hv => ?_⟩⟩
    rw [List.getElem?_map, ha] at hv
    cases hv
    obtain ⟨b, hb, rfl⟩ := List.mem_map.1 (List.mem_of_getElem? ha)
    exact meets_none (hsum rfl rfl b hb) _

/-- `out` is an answer of the grouped SELECT: a page of an ordering of one row for each different value of the GROUP BY columns among the rows kept by WHERE (one row without GROUP BY), with, for each
aggregate, its SQL value over exactly the rows of the group. -/
def AnswerGrouped (s : Schema) (q : Select) (gs : List Name) (fs : List (Fn × Name)) (typ : Expr → Nat) (num : Expr → Row → Option Int) (kept out : List Row) : Prop :=
  ∃ (l : List Row) (res : Row → List Value), l.Perm ((keysOf s gs kept).map fun k => k ++ res k) ∧
    (∀ k ∈ keysOf s gs kept, (res k).length = fs.length ∧ ∀ (i : Nat) a v, fs[i]? = some a → (res k)[i]? = some v →
      Meets typ num (sqlAgg a.1 (.col 0 (theColumn s a.2))) (rowsOf (keyOf s gs) kept k) v) ∧
    l.Pairwise (Before (groupCols gs fs) q.orderBy) ∧ out = q.page l

/-- `C73_group_by_partial` for any FROM. -/
theorem group_by_on (hf : Faithful w ix) (hk : FromPlan known base) (hbase : den w base = (rows, .done)) (hd : ∀ l, (w.drain l).Perm l) (h : Grouped s q gs fs)
    (hfi : (∀ n ∈ gs, Finds s' s n) ∧ ∀ a ∈ fs, Finds s' s a.2) (hwh : planWhere s' base q = planWhere s base q) {keep : Row → Bool}
    (hl : ∀ r ∈ rows, r.length = s.length)
    (hw : match q.where_ with
      | none => ∀ r ∈ rows, keep r = true
      | some e => Known s e ∧ ∀ r ∈ rows, Settled s r e ∧ (keep r = true ↔ IsTrue s r e))
    {typ : Expr → Nat} {num : Expr → Row → Option Int}
    (hfine : ∀ a ∈ fs, ∀ k, Fine typ num (sqlAgg a.1 (.col 0 (theColumn s a.2))) (rowsOf (keyOf s gs) (rows.filter keep) k))
    (hsum : gs = [] → rows.filter keep = [] → ∀ a ∈ fs, a.1 ≠ .sum) (ho : ∀ k ∈ q.orderBy, Known (groupCols gs fs) k.1)
    (hv : ∀ k ∈ keysOf s gs (rows.filter keep), ∀ vals : List Value, vals.length = fs.length → (∀ (i : Nat) a v, fs[i]? = some a → vals[i]? = some v →
      Meets typ num (sqlAgg a.1 (.col 0 (theColumn s a.2))) (rowsOf (keyOf s gs) (rows.filter keep) k) v) → KeysHave (groupCols gs fs) q.orderBy (k ++ vals)) :
    ∃ p p' out, planOn s' base q = some p ∧ optimize ix isConst known p = some p' ∧ Runs w p' out .done ∧
      AnswerGrouped s q gs fs typ num (rows.filter keep) out := by
  simp only [AnswerGrouped, sqlAgg_eq] at *
  obtain ⟨before, hb, hbd, hbs⟩ := where_den hbase hl hw
  have hpb := group_body h hfi.1 hfi.2 before
  rw [← hwh] at hb
  generalize hxs : rows.filter keep = xs at *
  have hxl : ∀ r ∈ xs, r.length = s.length := fun r hr => by
    rw [← hxs] at hr
    exact hl r (List.mem_filter.1 hr).1
  have hcols := h.columns
  obtain ⟨out, res, hagg, hperm, hres⟩ := aggD_keys (w := w) hd hxl hcols hfine hsum
  have hlen : ∀ r ∈ out, r.length = gs.length + fs.length ∧ KeysHave (groupCols gs fs) q.orderBy r := fun r hr => by
    obtain ⟨k, hk', rfl⟩ := List.mem_map.1 (hperm.mem_iff.1 hr)
    have hkl : k.length = gs.length := by
      rcases mem_keysOf hk' with ⟨rfl, rfl⟩ | ⟨a, ha, rfl⟩
      · rfl
      · exact (key_project (hxl a ha) hcols).2
    refine ⟨by rw [List.length_append, hkl, (hres _ hk').1, List.length_map], ?_⟩
    exact hv _ hk' _ (by simpa using (hres _ hk').1) fun i a v ha hv' => (hres _ hk').2 i _ v (by simp [ha]) hv'
  have hout : ∀ r ∈ out, r.length = (groupCols gs fs).length := fun r hr => by simp [groupCols, (hlen r hr).1]
  generalize hes : (List.range (gs.length + fs.length)).map (Expr.col 0 ·) = es at hpb
  have hne : es ≠ [] := by
    intro h0
    rw [h0] at hes
    have := congrArg List.length hes
    simp only [List.length_map, List.length_range, List.length_nil] at this
    rcases h.some_group with h0 | h0 <;> have := List.length_pos_iff.2 h0 <;> omega
  generalize hag : Plan.agg ((gs.map (theColumn s)).map (.col 0 ·)) (fs.map fun a => a.1.agg (.col 0 (theColumn s a.2))) before = ag at hpb
  have hall : ((gs.map (theColumn s)).map (Expr.col 0 ·)).all isCol = true := by simp [isCol]
  have hagd : den w ag = (out, .done) := by
    subst hag
    simp only [den, hbd, hall, hagg, checkD, true_or, if_true]
  have hpd : den w (.project es ag) = (out, .done) := by
    simp only [den, hagd]
    have : out = out.map id := by simp
    conv => rhs; rw [this]
    refine projectD_sel fun r hr => ?_
    have := range_project (ρ := r) (es := []) (hlen r hr).1
    rw [List.append_nil, hes] at this
    rw [this]
    simp [Exec.project, Except.map]
  have hval : validate known (rewrite (prune isConst (useIndex ix (.project es ag)))) = true ∧ Safe w (.project es ag) ∧ NoRename (.project es ag) := by
    subst hag
    obtain ⟨e, es, rfl⟩ := List.exists_cons_of_ne_nil hne
    have hbe : (gs.map (theColumn s)).map (Expr.col 0 ·) ≠ [] ∨ (fs.map fun a => a.1.agg (.col 0 (theColumn s a.2))) ≠ [] := by simpa using h.some_group
    obtain ⟨k1, k2, k3⟩ := fromPlan_stays (ix := ix) (isConst := isConst) hk
    obtain ⟨f1, f2, f3, f4⟩ := fromPlan_safe (w := w) hk
    obtain ⟨d1, d2⟩ := fromPlan_kind (ix := ix) hk
    rcases hbs with rfl | ⟨x, rfl⟩
    · simp_all [useIndex, prune, rewrite, validate, isProjection, Safe, NoRename, top]
    · simp only [useIndex, prune]
      split <;> simp_all [prune, rewrite, validate, isProjection, Safe, NoRename, top]
  by_cases hq : q.orderBy = []
  · have hp : planOn s' base q = some (withLimit q (.project es ag)) := by simp [planOn, hb, hpb, planOrder, hq, withDistinct, h.no_distinct]
    have hopt : optimize ix isConst known (withLimit q (.project es ag)) = some (rewrite (prune isConst (useIndex ix (withLimit q (.project es ag))))) := by
      have : validate known (rewrite (prune isConst (useIndex ix (withLimit q (.project es ag))))) = true := by
        unfold withLimit
        cases q.offset <;> cases q.limit <;> simp only [useIndex, prune, rewrite, validate] at hval ⊢ <;> simp_all
      simp only [optimize, this, if_true]
    refine ⟨_, _, q.page out, hp, hopt, ?_, out, res, hperm, fun k hk' => ⟨by simpa using (hres k hk').1, fun i a v ha hv' => ?_⟩, ?_, rfl⟩
    · have hs : Safe w (withLimit q (.project es ag)) ∧ NoRename (withLimit q (.project es ag)) := by
        unfold withLimit
        cases q.offset <;> cases q.limit <;> exact ⟨hval.2.1, hval.2.2⟩
      rw [C72_same_rows_partial hf hs.1 hopt, meant_noRename hs.2, runs_iff]
      exact page_den hpd
    · exact (hres k hk').2 i _ v (by simp [ha]) hv'
    · rw [hq]
      exact List.pairwise_of_forall fun _ _ => trivial
  · obtain ⟨specs, hs, hsv⟩ := keys_parse ho
    have hp : planOn s' base q = some (withLimit q (.sort specs (.project es ag))) := by simp [planOn, hb, hpb, planOrder, hq, withDistinct, h.no_distinct, hs]
    have hopt : optimize ix isConst known (withLimit q (.sort specs (.project es ag))) =
        some (rewrite (prune isConst (useIndex ix (withLimit q (.sort specs (.project es ag)))))) := by
      have : validate known (rewrite (prune isConst (useIndex ix (withLimit q (.sort specs (.project es ag)))))) = true := by
        unfold withLimit
        cases q.offset <;> cases q.limit <;> simp only [useIndex, prune, rewrite, validate] at hval ⊢ <;> simp_all
      simp only [optimize, this, if_true]
    have hks : ∀ r ∈ out, KeysOk specs r := fun r hr => (hsv r r (hout r hr) (hout r hr)).1 (hlen r hr).2
    obtain ⟨g1, g2, _⟩ := good_sort hks
    have hsd : den w (.sort specs (.project es ag)) = (stableSort out fun a b => sortCmp specs a b != .gt, .done) := by
      rw [den, hpd]
      rfl
    refine ⟨_, _, q.page _, hp, hopt, ?_, _, res, g1.trans hperm, fun k hk' => ⟨by simpa using (hres k hk').1, fun i a v ha hv' => ?_⟩, ?_, rfl⟩
    · have hs : Safe w (withLimit q (.sort specs (.project es ag))) ∧ NoRename (withLimit q (.sort specs (.project es ag))) := by
        unfold withLimit
        cases q.offset <;> cases q.limit <;> exact ⟨hval.2.1, hval.2.2⟩
      rw [C72_same_rows_partial hf hs.1 hopt, meant_noRename hs.2, runs_iff]
      exact page_den hsd
    · exact (hres k hk').2 i _ v (by simp [ha]) hv'
    · exact g2.imp_of_mem fun {a b} ha hb' ho' => (hsv a b (hout a (g1.mem_iff.1 ha)) (hout b (g1.mem_iff.1 hb'))).2 ho'

/-- A SELECT with GROUP BY in the form of `Grouped`, ordered by columns of its answer: it is planned, accepted by the optimizer and runs to the end, and what it gives is an
answer in the sense of SQL. -/
theorem C73_group_by_partial (hf : Faithful w ix) (hk : known t = true) (hd : ∀ l, (w.drain l).Perm l) (h : Grouped s q gs fs) {keep : Row → Bool}
    (hl : ∀ r ∈ w.rows t, r.length = s.length)
    (hw : match q.where_ with
      | none => ∀ r ∈ w.rows t, keep r = true
      | some e => Known s e ∧ ∀ r ∈ w.rows t, Settled s r e ∧ (keep r = true ↔ IsTrue s r e))
    {typ : Expr → Nat} {num : Expr → Row → Option Int}
    (hfine : ∀ a ∈ fs, ∀ k, Fine typ num (sqlAgg a.1 (.col 0 (theColumn s a.2))) (rowsOf (keyOf s gs) ((w.rows t).filter keep) k))
    (hsum : gs = [] → (w.rows t).filter keep = [] → ∀ a ∈ fs, a.1 ≠ .sum) (ho : ∀ k ∈ q.orderBy, Known (groupCols gs fs) k.1)
    (hv : ∀ k ∈ keysOf s gs ((w.rows t).filter keep), ∀ vals : List Value, vals.length = fs.length → (∀ (i : Nat) a v, fs[i]? = some a → vals[i]? = some v →
      Meets typ num (sqlAgg a.1 (.col 0 (theColumn s a.2))) (rowsOf (keyOf s gs) ((w.rows t).filter keep) k) v) → KeysHave (groupCols gs fs) q.orderBy (k ++ vals)) :
    ∃ p p' out, plan s t q = some p ∧ optimize ix isConst known p = some p' ∧ Runs w p' out .done ∧
      AnswerGrouped s q gs fs typ num ((w.rows t).filter keep) out :=
  group_by_on (base := .scan t) hf hk rfl hd h ⟨fun n hn => finds_same (h.columns n hn), fun a ha => finds_same (h.args a ha)⟩ rfl hl hw hfine hsum ho hv

end

end Verif.Plan

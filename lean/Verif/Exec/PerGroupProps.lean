import Verif.Exec.PerGroup
import Verif.Exec.AggProps
import Verif.Exec.TopNProps

/-!
# The first rows of each group (C126) and ROW_NUMBER (C127)

Specification vocabulary: `RowVals r es vs` says that the expressions have these values on the row, `RowKey r es is` that they have these integers. The groups are the
different keys (`firsts [] (xs.map gkey)`), the rows of a group are the input rows with an equal key (`rowsOf`). `TopOf k key rows top` says that `top` are the `k` rows
with the greatest sort keys, greatest first. `Numbered n key rows out` says that `out` are the rows by ascending sort key, each followed by its number (`n` times, for `n`
window functions).
-/

namespace Verif.Exec

open Verif.Wire Verif.Bytes Verif.Sql

/-- The expressions have these values on the row. -/
inductive RowVals (row : Row) : List Expr → List Value → Prop where
  | nil : RowVals row [] []
  | cons {e es v vs} : eval false (rowEnv row) e = .ok v → RowVals row es vs → RowVals row (e :: es) (v :: vs)

/-- `top` are the `k` rows (all of them, when there are fewer) with the greatest sort keys, greatest first. -/
def TopOf (k : Nat) (key : Row → List Int) (rows top : List Row) : Prop :=
  ∃ lost, (top ++ lost).Perm rows ∧ top.length = min k rows.length ∧ (∀ y ∈ lost, ∀ x ∈ top, key y ≤ key x) ∧ top.Pairwise fun a b => key b ≤ key a

/-- `out` are the rows by ascending sort key, each followed by its number, `n` times. -/
def Numbered (n : Nat) (key : Row → List Int) (rows out : List Row) : Prop :=
  ∃ sorted : List Row, sorted.Perm rows ∧ sorted.Pairwise (fun a b => key a ≤ key b) ∧
    out = sorted.mapIdx fun i r => r ++ List.replicate n (new (.integer (i + 1)))

/-! ## Groups -/

theorem rowVals_keys {row : Row} {es : List Expr} {vs : List Value} (h : RowVals row es vs) : sortKeys es row = some vs := by
  induction h with
  | nil => rfl
  | cons h1 _ ih => simp [sortKeys, h1, ih]

/-- The groups after the rows `pre`, when each row changes the entry of its group by `step`. -/
def grouped {β : Type} (step : β → Row → β) (empty : β) (key : Row → Row) (pre : List Row) : List (Row × β) :=
  (firsts [] (pre.map key)).map fun k => (k, (rowsOf key pre k).foldl step empty)

theorem entry_map {β : Type} {empty : β} {f : β → β} {key : Row} {ks : List Row} {g g' : Row → β} (hp : ks.Pairwise fun a b => valuesEq a b = false)
    (h1 : ∀ k ∈ ks, valuesEq k key = true → f (g k) = g' k) (h2 : ∀ k ∈ ks, valuesEq k key = false → g' k = g k)
    (h3 : ks.any (valuesEq · key) = false → f empty = g' key) :
    entryIn empty f key (ks.map fun k => (k, g k)) = (ks ++ if ks.any (valuesEq · key) then [] else [key]).map fun k => (k, g' k) := by
  induction ks with
  | nil => simp only [List.map_nil, entryIn, h3 rfl]; rfl
  | cons k ks ih =>
    rw [List.pairwise_cons] at hp
    simp only [List.map_cons, entryIn, List.any_cons]
    by_cases hk : valuesEq k key = true
    · simp only [hk, if_true, h1 k (List.mem_cons_self ..) hk, Bool.true_or, List.append_nil, List.map_cons, List.cons.injEq, true_and]
      apply List.map_congr_left
      intro k' hk'
      rw [h2 k' (List.mem_cons_of_mem _ hk')]
      cases h : valuesEq k' key with
      | false => rfl
      | true =>
        have := vtrans hk (vsymm h)
        rw [hp.1 k' hk'] at this
        cases this
    · rw [Bool.not_eq_true] at hk
      have ih := ih hp.2 (fun k' hk' => h1 k' (List.mem_cons_of_mem _ hk')) (fun k' hk' => h2 k' (List.mem_cons_of_mem _ hk'))
        (fun h => h3 (by rw [List.any_cons, hk, h]; rfl))
      simp only [hk, Bool.false_eq_true, if_false, ih, Bool.false_or, List.cons_append, List.map_cons, h2 k (List.mem_cons_self ..) hk]

theorem entry_grouped {β : Type} {step : β → Row → β} {empty : β} {key : Row → Row} (pre : List Row) (x : Row) :
    entryIn empty (fun b => step b x) (key x) (grouped step empty key pre) = grouped step empty key (pre ++ [x]) := by
  have hr : ∀ k, rowsOf key (pre ++ [x]) k = rowsOf key pre k ++ if valuesEq k (key x) then [x] else [] := by
    intro k
    simp only [rowsOf, List.filter_append, List.filter_cons, List.filter_nil]
  unfold grouped
  rw [List.map_append, List.map_cons, List.map_nil, firsts_snoc, List.nil_append, ← any_firsts]
  refine entry_map (C42_firsts _).2.1 ?_ ?_ ?_
  · intro k _ hk
    rw [hr, if_pos hk, List.foldl_append]
    rfl
  · intro k _ hk
    rw [hr, hk]
    simp
  · intro hn
    rw [any_firsts, List.any_eq_false] at hn
    have he : rowsOf key pre (key x) = [] := by
      rw [rowsOf, List.filter_eq_nil_iff]
      intro r hr h
      exact hn (key r) (List.mem_map.2 ⟨r, hr, rfl⟩) (vsymm h)
    rw [hr, he, vrefl]
    rfl

theorem lookup_map {β : Type} {g : Row → β} {ks : List Row} (hp : ks.Pairwise fun a b => valuesEq a b = false) {k : Row} (hk : k ∈ ks) :
    lookup k (ks.map fun k => (k, g k)) = some (g k) := by
  induction ks with
  | nil => cases hk
  | cons a ks ih =>
    rw [List.pairwise_cons] at hp
    rcases List.mem_cons.1 hk with rfl | hk
    · simp only [List.map_cons, lookup, vrefl, if_true]
    · simp only [List.map_cons, lookup, hp.1 k hk, Bool.false_eq_true, if_false, ih hp.2 hk]

/-- A sort by a comparison that is a total preorder on the entries that occur. -/
theorem mergeSort_good {α : Type} {good : α → Prop} {le : α → α → Bool} (trans : ∀ a b c, good a → good b → good c → le a b = true → le b c = true → le a c = true)
    (total : ∀ a b, good a → good b → (le a b || le b a) = true) {xs : List α} (hg : ∀ x ∈ xs, good x) : (xs.mergeSort le).Pairwise fun a b => le a b = true := by
  let G := { a : α // good a }
  let gs : List G := xs.attachWith good hg
  have hgs : gs.map Subtype.val = xs := List.attachWith_map_subtype_val _
  have hout : (gs.mergeSort fun a b => le a.1 b.1).map Subtype.val = xs.mergeSort le := by
    rw [List.map_mergeSort (s := le) (fun a _ b _ => rfl), hgs]
  rw [← hout, List.pairwise_map]
  exact List.pairwise_mergeSort (fun a b c => trans a.1 b.1 c.1 a.2 b.2 c.2) (fun a b => total a.1 b.1 a.2 b.2) gs

theorem groupKeyCmp_lex {as bs : List Value} {is js : List Int} (ha : AllInts as is) (hb : AllInts bs js) (hl : is.length = js.length) :
    groupKeyCmp as bs = lexCmp is js := by
  induction ha generalizing bs js with
  | nil =>
    cases js with
    | nil => cases hb; rfl
    | cons j js => simp at hl
  | @cons a i as is h1 h2 ih =>
    cases hb with
    | nil => simp at hl
    | @cons b j bs js g1 g2 =>
      simp only [groupKeyCmp, lexCmp, cmp_op h1 g1]
      have := ih g2 (by simpa using hl)
      have h1 := @Int.compare_eq_lt i j
      have h2 := @Int.compare_eq_gt i j
      have h3 := @Int.compare_eq_eq i j
      cases hc : compare i j with
      | lt => have := h1.1 hc; simp [CmpOp.rel, Tri.of, this]
      | eq => have := h3.1 hc; subst this; simp_all [CmpOp.rel, Tri.of]
      | gt => have := h2.1 hc; simp [CmpOp.rel, Tri.of, this, Int.not_lt.2 (Int.le_of_lt this)]

theorem lexLe (a b : List Int) : (lexCmp a b != .gt) = true ↔ a ≤ b := by rw [bne_iff_ne, lexCmp_le]

/-- The keys in the order they are given out: each once, and ascending when they are integers. -/
theorem sortedKeys_good {β : Type} {drain : List Row → List Row} (hd : ∀ ks, (drain ks).Perm ks) (gs : List (Row × β)) :
    (sortedKeys drain gs).Perm (gs.map (·.1)) ∧
    ∀ (n : Nat) (num : Row → List Int), (∀ g ∈ gs, (num g.1).length = n ∧ AllInts g.1 (num g.1)) → (sortedKeys drain gs).Pairwise fun a b => num a ≤ num b := by
  refine ⟨(List.mergeSort_perm _ _).trans (hd _), ?_⟩
  intro n num hn
  have hg : ∀ k ∈ drain (gs.map (·.1)), (num k).length = n ∧ AllInts k (num k) := by
    intro k hk
    obtain ⟨g, hg, rfl⟩ := List.mem_map.1 ((hd _).subset hk)
    exact hn g hg
  have hle : ∀ a b, ((num a).length = n ∧ AllInts a (num a)) → ((num b).length = n ∧ AllInts b (num b)) → ((groupKeyCmp a b != .gt) = true ↔ num a ≤ num b) := by
    intro a b ha hb
    rw [groupKeyCmp_lex ha.2 hb.2 (ha.1.trans hb.1.symm), lexLe]
  have hs := mergeSort_good (good := fun k => (num k).length = n ∧ AllInts k (num k)) (le := fun a b => groupKeyCmp a b != .gt)
    (fun a b c ha hb hc h1 h2 => (hle a c ha hc).2 (List.le_trans ((hle a b ha hb).1 h1) ((hle b c hb hc).1 h2)))
    (fun a b ha hb => by
      rw [Bool.or_eq_true, hle a b ha hb, hle b a hb ha]
      exact List.le_total ..) hg
  refine hs.imp_of_mem fun {a b} ha hb h => ?_
  exact (hle a b (hg a ((List.mergeSort_perm _ _).subset ha)) (hg b ((List.mergeSort_perm _ _).subset hb))).1 h

/-! ## The first rows of each group -/

section Top

variable {σ : Type} {child : Machine σ Row} {c : σ} {xs : List Row} {h : Heap Entry} {k : Nat} {es by_ : List Expr} {key : Row → List Int} {gkey : Row → Row}

/-- The entry of a row. -/
def entryOf (es : List Expr) (r : Row) : Entry := ((sortKeys es r).getD [], r)

theorem entryOf_keyed {es : List Expr} {key : Row → List Int} {r : Row} (h : RowKey r es (key r)) : sortKeys es r = some (entryOf es r).1 ∧ Keyed key es.length (entryOf es r) := by
  obtain ⟨ks, h1, h2, h3⟩ := rowKey_keys h
  exact ⟨by simp [entryOf, h1], h3, by simpa [entryOf, h1] using h2⟩

/-- The heap of a group after its rows. -/
def heapStepRow (h : Heap Entry) (k : Nat) (es : List Expr) (heap : List Entry) (r : Row) : List Entry := heapStep h k heap (entryOf es r)

theorem heap_best (law : h.Lawful (Keyed key es.length) fun a b => keyCmp a.1 b.1) (rows : List Row) (hk : ∀ r ∈ rows, RowKey r es (key r)) :
    ∀ (seen heap dropped : List Entry), (∀ y ∈ seen, Keyed key es.length y) → Best key k seen heap dropped →
      ∃ dropped', Best key k (seen ++ rows.map (entryOf es)) (rows.foldl (heapStepRow h k es) heap) dropped' := by
  induction rows with
  | nil => intro seen heap dropped _ hb; exact ⟨dropped, by simpa using hb⟩
  | cons r rows ih =>
    intro seen heap dropped hs hb
    have hs' : ∀ y ∈ seen ++ [entryOf es r], Keyed key es.length y := by
      intro y hy
      rcases List.mem_append.1 hy with hy | hy
      · exact hs y hy
      · rw [List.mem_singleton] at hy; subst hy; exact (entryOf_keyed (hk r List.mem_cons_self)).2
    obtain ⟨d, hd⟩ := best_step (x := entryOf es r) law hs' hb
    obtain ⟨d', hd'⟩ := ih (fun r hr => hk r (List.mem_cons_of_mem _ hr)) _ _ _ hs' hd
    exact ⟨d', by simpa [heapStepRow] using hd'⟩

theorem groupRows_top (law : h.Lawful (Keyed key es.length) fun a b => keyCmp a.1 b.1) (rows : List Row) (hk : ∀ r ∈ rows, RowKey r es (key r)) :
    TopOf k key rows ((groupRows h (rows.foldl (heapStepRow h k es) [])).map (·.2)) := by
  obtain ⟨dropped, hp, hl, hd⟩ := heap_best (k := k) law rows hk [] [] [] (by simp) ⟨List.Perm.refl _, by simp, by simp⟩
  rw [List.nil_append] at hp hl
  generalize hh : rows.foldl (heapStepRow h k es) [] = heap at hp hl hd
  have hperm : (groupRows h heap).Perm heap := (List.mergeSort_perm _ _).trans (law.order_perm heap)
  have hkey : ∀ x ∈ heap, Keyed key es.length x := by
    intro x hx
    obtain ⟨r, hr, rfl⟩ := List.mem_map.1 (hp.subset (List.mem_append_left _ hx))
    exact (entryOf_keyed (hk r hr)).2
  have hrows : (rows.map (entryOf es)).map (·.2) = rows := by simp [entryOf, Function.comp_def]
  refine ⟨dropped.map (·.2), ?_, ?_, ?_, ?_⟩
  · have := ((hperm.append_right dropped).trans hp).map (·.2)
    rwa [hrows, List.map_append] at this
  · rw [List.length_map, hperm.length_eq, hl, List.length_map]
  · intro y hy x hx
    obtain ⟨y', hy', rfl⟩ := List.mem_map.1 hy
    obtain ⟨x', hx', rfl⟩ := List.mem_map.1 hx
    exact hd y' hy' x' (hperm.subset hx')
  · rw [List.pairwise_map]
    have hle : ∀ a b : Entry, Keyed key es.length a → Keyed key es.length b → ((keyCmp b.1 a.1 != .gt) = true ↔ key b.2 ≤ key a.2) := fun a b ha hb => by
      rw [keyed_cmp hb ha, lexLe]
    have hin : ∀ x ∈ h.order heap, Keyed key es.length x := fun x hx => hkey x ((law.order_perm heap).subset hx)
    have hs := mergeSort_good (good := Keyed key es.length) (le := fun a b => keyCmp b.1 a.1 != .gt)
      (fun a b c ha hb hc h1 h2 => (hle a c ha hc).2 (List.le_trans ((hle b c hb hc).1 h2) ((hle a b ha hb).1 h1)))
      (fun a b ha hb => by
        rw [Bool.or_eq_true, hle a b ha hb, hle b a hb ha]
        exact List.le_total ..) hin
    refine hs.imp_of_mem fun {a b} ha hb h' => ?_
    exact (hle a b (hkey a (hperm.subset ha)) (hkey b (hperm.subset hb))).1 h'

variable {drain : List Row → List Row}

theorem groupOut_yields {g : Row → List Entry} {gs : List Row} (hp : gs.Pairwise fun a b => valuesEq a b = false) (keys : List Row) (hk : ∀ x ∈ keys, x ∈ gs) :
    ∀ cur : List Entry, Yields (topNPerGroup drain h k es by_ child) (.out cur keys (gs.map fun a => (a, g a)))
      (cur.map (·.2) ++ keys.flatMap fun a => (groupRows h (g a)).map (·.2)) .done := by
  induction keys with
  | nil =>
    intro cur
    induction cur with
    | nil => exact .stop rfl
    | cons x cur ih => exact .emit rfl ih
  | cons a keys ih =>
    intro cur
    induction cur with
    | nil =>
      have h1 := ih (fun x hx => hk x (List.mem_cons_of_mem _ hx)) (groupRows h (g a))
      refine .cont (s' := .out (groupRows h (g a)) keys (gs.map fun a => (a, g a))) ?_ (by simpa using h1)
      simp only [topNPerGroup, lookup_map hp (hk a List.mem_cons_self)]
    | cons x cur ih => exact .emit rfl ih

theorem topGroup_collect (hk : ∀ r ∈ xs, RowKey r es (key r)) (hg : ∀ r ∈ xs, RowVals r by_ (gkey r)) {e : End} (hy : Yields child c xs e) (he : e = .done) :
    ∀ (pre out : List Row),
      Yields (topNPerGroup drain h k es by_ child) (.out [] (sortedKeys drain (grouped (heapStepRow h k es) [] gkey (pre ++ xs))) (grouped (heapStepRow h k es) [] gkey (pre ++ xs))) out .done →
      Yields (topNPerGroup drain h k es by_ child) (.collect (grouped (heapStepRow h k es) [] gkey pre) c) out .done := by
  induction hy with
  | @emit s a s' xs e h1 _ ih =>
    intro pre out ho
    have h2 := ih (fun r hr => hk r (List.mem_cons_of_mem _ hr)) (fun r hr => hg r (List.mem_cons_of_mem _ hr)) he (pre ++ [a]) out (by simpa using ho)
    refine .cont ?_ h2
    have h3 := (entryOf_keyed (hk a List.mem_cons_self)).1
    rw [← entry_grouped]
    simp only [topNPerGroup, h1, h3, rowVals_keys (hg a List.mem_cons_self)]
    rfl
  | @cont s s' xs e h1 _ ih =>
    intro pre out ho
    exact .cont (by simp only [topNPerGroup, h1]) (ih hk hg he pre out ho)
  | @stop s e h1 =>
    intro pre out ho
    subst he
    rw [List.append_nil] at ho
    exact .cont (by simp only [topNPerGroup, h1]) ho

/-- C126: the rows given out are blocks, one for each group that occurs; the block of a group has the `k` rows of the group with the greatest sort keys, greatest first.
With group keys that are integers the groups come in ascending order. For an input that ends without an error, sort keys that are integers and group keys of any type.
Missing: sort keys that are NULL (`C126_null_fails`), keys that fail to evaluate (`C126_panic_fails`), an input that fails (`C126_input_error_fails`). -/
theorem C126_top_per_group_partial (law : h.Lawful (Keyed key es.length) fun a b => keyCmp a.1 b.1) (hd : ∀ ks, (drain ks).Perm ks) (hy : Yields child c xs .done)
    (hk : ∀ r ∈ xs, RowKey r es (key r)) (hg : ∀ r ∈ xs, RowVals r by_ (gkey r)) :
    ∃ blocks : List (Row × List Row), Yields (topNPerGroup drain h k es by_ child) (.collect [] c) (blocks.flatMap (·.2)) .done ∧
      (blocks.map (·.1)).Perm (firsts [] (xs.map gkey)) ∧ (∀ b ∈ blocks, TopOf k key (rowsOf gkey xs b.1) b.2) ∧
      ∀ num : Row → List Int, (∀ r ∈ xs, (num (gkey r)).length = by_.length ∧ AllInts (gkey r) (num (gkey r))) → blocks.Pairwise fun a b => num a.1 ≤ num b.1 := by
  let gs := grouped (heapStepRow h k es) [] gkey xs
  have hfst : gs.map (·.1) = firsts [] (xs.map gkey) := by simp [gs, grouped, Function.comp_def]
  obtain ⟨hs1, hs2⟩ := sortedKeys_good hd gs
  rw [hfst] at hs1
  refine ⟨(sortedKeys drain gs).map fun a => (a, (groupRows h ((rowsOf gkey xs a).foldl (heapStepRow h k es) [])).map (·.2)), ?_, ?_, ?_, ?_⟩
  · have h1 := groupOut_yields (drain := drain) (h := h) (k := k) (es := es) (by_ := by_) (child := child) (g := fun a => (rowsOf gkey xs a).foldl (heapStepRow h k es) [])
      (C42_firsts (xs.map gkey)).2.1 (sortedKeys drain gs) (fun x hx => hs1.subset hx) []
    rw [List.map_nil, List.nil_append] at h1
    have h2 := topGroup_collect (drain := drain) (h := h) (k := k) hk hg hy rfl [] _ h1
    rw [List.flatMap_map]
    exact h2
  · rw [List.map_map]
    simpa [Function.comp_def] using hs1
  · intro b hb
    obtain ⟨a, ha, rfl⟩ := List.mem_map.1 hb
    exact groupRows_top law _ fun r hr => hk r (List.mem_filter.1 hr).1
  · intro num hn
    rw [List.pairwise_map]
    refine hs2 by_.length num ?_
    intro g hg'
    have : g.1 ∈ firsts [] (xs.map gkey) := hfst ▸ List.mem_map_of_mem hg'
    obtain ⟨r, hr, hr'⟩ := List.mem_map.1 ((C42_firsts _).1.subset this)
    rw [← hr']
    exact hn r hr

end Top

/-- Departments and salaries. -/
def exStaff : List Row := [[intVal 3 2, intVal 3 60], [intVal 3 1, intVal 3 50], [intVal 3 2, intVal 3 70], [intVal 3 1, intVal 3 55], [intVal 3 2, intVal 3 65]]

def exNumAt (i : Nat) (r : Row) : List Int := match r[i]? with
  | some v => (match val v with | .integer i => [i] | _ => [])
  | none => []

theorem exStaff_keys : ∀ r ∈ exStaff, RowKey r [.col 0 1] (exNumAt 1 r) ∧ RowVals r [.col 0 0] (r.take 1) ∧
    (exNumAt 0 (r.take 1)).length = 1 ∧ AllInts (r.take 1) (exNumAt 0 (r.take 1)) := by
  intro r hr
  simp only [exStaff, List.mem_cons, List.not_mem_nil, or_false] at hr
  rcases hr with rfl | rfl | rfl | rfl | rfl <;>
    exact ⟨.cons rfl (.inr (.inr (.inl rfl))) .nil, .cons rfl .nil, rfl, .cons (.inr (.inr (.inl rfl))) .nil⟩

-- The two best paid of each department: the hypotheses of `C126_top_per_group_partial` hold.
example : ∃ blocks : List (Row × List Row), Yields (topNPerGroup id listHeap 2 [.col 0 1] [.col 0 0] source) (.collect [] exStaff) (blocks.flatMap (·.2)) .done ∧
    (blocks.map (·.1)).Perm [[intVal 3 2], [intVal 3 1]] ∧ (∀ b ∈ blocks, TopOf 2 (exNumAt 1) (rowsOf (·.take 1) exStaff b.1) b.2) ∧
    blocks.Pairwise fun a b => exNumAt 0 a.1 ≤ exNumAt 0 b.1 := by
  obtain ⟨b, h1, h2, h3, h4⟩ := C126_top_per_group_partial (drain := id) (k := 2) (listHeap_lawful (exNumAt 1) 1) (fun _ => List.Perm.refl _) (source_yields exStaff)
    (fun r hr => (exStaff_keys r hr).1) (fun r hr => (exStaff_keys r hr).2.1)
  exact ⟨b, h1, h2, h3, h4 (exNumAt 0) fun r hr => (exStaff_keys r hr).2.2⟩

/-- C126 is false with NULL sort keys: which row is kept depends on the order of the input. -/
theorem C126_null_fails : ∃ a b : Row, a ≠ b ∧ ∀ (drain : List Row → List Row) (h : Heap Entry), (∀ x : Entry, h.top [x] = 0) → (∀ x : Entry, h.order [x] = [x]) → (∀ x : Row, drain [x] = [x]) →
    Yields (topNPerGroup drain h 1 [.col 0 0] [] source) (.collect [] [a, b]) [a] .done ∧
    Yields (topNPerGroup drain h 1 [.col 0 0] [] source) (.collect [] [b, a]) [b] .done := by
  refine ⟨[exNull], [intVal 3 5], (fun h => by cases h), ?_⟩
  intro drain h ht ho hd
  have key : ∀ x y : Row, ∀ vx vy, sortKeys [.col 0 0] x = some [vx] → sortKeys [.col 0 0] y = some [vy] → compareOp .lt vx vy = .n →
      Yields (topNPerGroup drain h 1 [.col 0 0] [] source) (.collect [] [x, y]) [x] .done := by
    intro x y vx vy hx hy hn
    refine .cont (s' := .collect [([], [([vx], x)])] [y]) ?_ (.cont (s' := .collect [([], [([vx], x)])] []) ?_ (.cont (s' := .out [] [[]] [([], [([vx], x)])]) ?_
      (.cont (s' := .out [([vx], x)] [] [([], [([vx], x)])]) ?_ (.emit rfl (.stop rfl)))))
    · simp [topNPerGroup, source, hx, show sortKeys [] x = some [] from rfl, entryIn, heapStep]
    · simp [topNPerGroup, source, hy, show sortKeys [] y = some [] from rfl, entryIn, heapStep, valuesEq, ht, keyCmp, hn]
    · simp [topNPerGroup, source, sortedKeys, hd]
    · simp [topNPerGroup, lookup, valuesEq, groupRows, ho]
  exact ⟨key _ _ exNull (intVal 3 5) rfl rfl rfl, key _ _ (intVal 3 5) exNull rfl rfl rfl⟩

/-- C126 is false: a sort key or a group key that fails to evaluate is a panic. -/
theorem C126_panic_fails (drain : List Row → List Row) (h : Heap Entry) : ∃ (rows : List Row) (e : Expr),
    Yields (topNPerGroup drain h 1 [e] [] source) (.collect [] rows) [] .panic ∧ Yields (topNPerGroup drain h 1 [] [e] source) (.collect [] rows) [] .panic :=
  ⟨[[]], .col 0 0, .stop rfl, .stop rfl⟩

/-- C126 is false: when the input fails the result is empty, without an error. -/
theorem C126_input_error_fails (drain : List Row → List Row) (h : Heap Entry) : Yields broken [[intVal 3 5]] [[intVal 3 5]] .err ∧
    Yields (topNPerGroup drain h 1 [.col 0 0] [] broken) (.collect [] [[intVal 3 5]]) [] .done :=
  ⟨broken_yields _, .cont rfl (.stop rfl)⟩

/-! ## ROW_NUMBER -/

section Win

variable {σ : Type} {child : Machine σ Row} {c : σ} {xs : List Row} {h : Heap Entry} {part order : List Expr} {key : Row → List Int} {gkey : Row → Row}

theorem popAll_good {n : Nat} (law : h.Lawful (Keyed key n) fun a b => keyCmp a.1 b.1) : ∀ (m : Nat) (heap : List Entry), heap.length = m → (∀ x ∈ heap, Keyed key n x) →
    (popAll h m heap).Perm heap ∧ (popAll h m heap).Pairwise fun a b => key a.2 ≤ key b.2 := by
  intro m
  induction m with
  | zero =>
    intro heap hl _
    rw [List.length_eq_zero_iff] at hl
    subst hl
    exact ⟨List.Perm.refl _, List.Pairwise.nil⟩
  | succ m ih =>
    intro heap hl hk
    have hne : heap ≠ [] := fun h => by rw [h] at hl; cases hl
    obtain ⟨x, hx, hmin⟩ := law.top_min heap hk hne
    obtain ⟨hi, hxi⟩ := List.getElem?_eq_some_iff.1 hx
    have hperm : (x :: heap.eraseIdx (h.top heap)).Perm heap := by rw [← hxi]; exact cons_eraseIdx hi
    have hk' : ∀ y ∈ heap.eraseIdx (h.top heap), Keyed key n y := fun y hy => hk y (List.mem_of_mem_eraseIdx hy)
    obtain ⟨h1, h2⟩ := ih (heap.eraseIdx (h.top heap)) (by rw [List.length_eraseIdx_of_lt hi]; omega) hk'
    simp only [popAll, hx]
    refine ⟨(List.Perm.cons x h1).trans hperm, List.pairwise_cons.2 ⟨fun y hy => ?_, h2⟩⟩
    have hy' := List.mem_of_mem_eraseIdx (h1.subset hy)
    have := hmin y hy'
    rw [keyed_cmp (hk x (hperm.subset List.mem_cons_self)) (hk y hy'), lexCmp_le] at this
    exact this

/-- `n + 1` times the same ROW_NUMBER function. -/
def rowNumbers (n : Nat) (part order : List Expr) : List WinFn := List.replicate (n + 1) ⟨.rowNumber, part, order⟩

theorem winResults_numbers (i n : Nat) : winResults i (List.replicate n ⟨.rowNumber, part, order⟩) = some (List.replicate n (new (.integer (asI32 (i + 1))))) := by
  induction n with
  | zero => rfl
  | succ n ih => simp [List.replicate_succ, winResults, ih]

theorem asI32_small {n : Nat} (h : n < 2 ^ 31) : asI32 n = n := by
  unfold asI32
  rw [Int.bmod_eq_of_le (by omega) (by omega)]

variable {drain : List Row → List Row} {n width : Nat}

theorem fold_snoc (es : List Expr) (rows : List Row) : ∀ acc : List Entry, rows.foldl (fun l r => l ++ [entryOf es r]) acc = acc ++ rows.map (entryOf es) := by
  induction rows with
  | nil => simp
  | cons r rows ih => intro acc; simp [ih]

theorem winKeys_numbers {r : Row} (hk : RowKey r order (key r)) (hg : RowVals r part (gkey r)) : winKeys (rowNumbers n part order) r = some (gkey r, (entryOf order r).1) := by
  simp only [rowNumbers, List.replicate_succ, winKeys, rowVals_keys hg, (entryOf_keyed hk).1]

theorem win_collect (hk : ∀ r ∈ xs, RowKey r order (key r)) (hg : ∀ r ∈ xs, RowVals r part (gkey r)) {e : End} (hy : Yields child c xs e) (he : e = .done) :
    ∀ (pre out : List Row),
      (let gs := grouped (fun l r => l ++ [entryOf order r]) [] gkey (pre ++ xs)
       Yields (window drain h width (rowNumbers n part order) child) (.out 0 (sortedKeys drain gs) (gs.map fun g => (g.1, popAll h g.2.length g.2))) out .done) →
      Yields (window drain h width (rowNumbers n part order) child) (.collect (grouped (fun l r => l ++ [entryOf order r]) [] gkey pre) c) out .done := by
  induction hy with
  | @emit s a s' xs e h1 _ ih =>
    intro pre out ho
    have h2 := ih (fun r hr => hk r (List.mem_cons_of_mem _ hr)) (fun r hr => hg r (List.mem_cons_of_mem _ hr)) he (pre ++ [a]) out (by simpa using ho)
    refine .cont ?_ h2
    rw [← entry_grouped]
    simp only [window, h1, winKeys_numbers (hk a List.mem_cons_self) (hg a List.mem_cons_self)]
    rfl
  | @cont s s' xs e h1 _ ih =>
    intro pre out ho
    exact .cont (by simp only [window, h1]) (ih hk hg he pre out ho)
  | @stop s e h1 =>
    intro pre out ho
    subst he
    rw [List.append_nil] at ho
    exact .cont (by simp only [window, h1]) ho

/-- The rows of a partition from index `i` on. -/
theorem win_part {gs : List (Row × List Entry)} {a : Row} {keys : List Row} {p : List Entry} (hl : lookup a gs = some p) (hw : ∀ x ∈ p, x.2.length + (n + 1) = width)
    (hlen : p.length < 2 ^ 31) {rest : List Row} {e : End}
    (hr : Yields (window drain h width (rowNumbers n part order) child) (.out 0 keys gs) rest e) : ∀ (q : List Entry) (i : Nat), p.drop i = q →
    Yields (window drain h width (rowNumbers n part order) child) (.out i (a :: keys) gs)
      ((q.map (·.2)).mapIdx (fun j r => r ++ List.replicate (n + 1) (new (.integer ((i + j : Nat) + 1)))) ++ rest) e := by
  intro q
  induction q with
  | nil =>
    intro i hi
    refine .cont (s' := .out 0 keys gs) ?_ (by simpa using hr)
    have : p[i]? = none := List.getElem?_eq_none (List.drop_eq_nil_iff.1 hi)
    simp only [window, hl, this]
  | cons x q ih =>
    intro i hi
    have hx : p[i]? = some x := by
      have := List.getElem?_drop (xs := p) (i := i) (j := 0)
      rw [hi] at this
      simpa using this.symm
    have hi' : p.drop (i + 1) = q := by rw [← List.tail_drop, hi]; rfl
    have hil : i < p.length := (List.getElem?_eq_some_iff.1 hx).1
    have := ih (i + 1) hi'
    have hmem := List.mem_of_getElem? hx
    rw [List.map_cons, List.mapIdx_cons, List.cons_append]
    refine .emit (s' := .out (i + 1) (a :: keys) gs) ?_ ?_
    · have hwx := hw x hmem
      have hsmall : asI32 (i + 1) = ((i : Int) + 1) := by rw [asI32_small (by omega)]; rfl
      simp only [window, hl, hx, rowNumbers, winResults_numbers, List.length_append, List.length_replicate, hwx, if_true, hsmall]
      rfl
    · have hf : (fun (j : Nat) (r : Row) => r ++ List.replicate (n + 1) (new (.integer ((i + 1 + j : Nat) + 1)))) =
          fun (j : Nat) (r : Row) => r ++ List.replicate (n + 1) (new (.integer ((i + (j + 1) : Nat) + 1))) := by
        funext j r
        rw [show i + 1 + j = i + (j + 1) by omega]
      rw [hf] at this
      exact this

theorem winOut_yields {gs : List Row} {g : Row → List Entry} (hp : gs.Pairwise fun a b => valuesEq a b = false) (keys : List Row) (hk : ∀ x ∈ keys, x ∈ gs)
    (hw : ∀ a ∈ gs, ∀ x ∈ g a, x.2.length + (n + 1) = width) (hlen : ∀ a ∈ gs, (g a).length < 2 ^ 31) :
    Yields (window drain h width (rowNumbers n part order) child) (.out 0 keys (gs.map fun a => (a, g a)))
      (keys.flatMap fun a => ((g a).map (·.2)).mapIdx fun j r => r ++ List.replicate (n + 1) (new (.integer ((j : Nat) + 1)))) .done := by
  induction keys with
  | nil => exact .stop rfl
  | cons a keys ih =>
    have ha := hk a List.mem_cons_self
    have := win_part (drain := drain) (h := h) (part := part) (order := order) (child := child) (lookup_map (g := g) hp ha) (hw a ha) (hlen a ha)
      (ih fun x hx => hk x (List.mem_cons_of_mem _ hx)) (g a) 0 rfl
    simpa using this

/-- C127: the rows given out are blocks, one for each partition that occurs; the block of a partition has all its rows by ascending sort key, each followed by its
number from 1 on, as often as there are functions. With partition keys that are integers the partitions come in ascending order. For functions that all are ROW_NUMBER
over the same partitions and order, an input that ends without an error, sort keys that are integers and partition keys of any type, fewer than 2^31 rows. Missing: another
partition or order for a second function (`C127_second_fails`), the other functions (`C127_rank_fails`), no function (`C127_none_fails`), an input that fails
(`C127_input_error_fails`), NULL sort keys. -/
theorem C127_row_number_partial (law : h.Lawful (Keyed key order.length) fun a b => keyCmp a.1 b.1) (hd : ∀ ks, (drain ks).Perm ks) (hy : Yields child c xs .done)
    (hk : ∀ r ∈ xs, RowKey r order (key r)) (hg : ∀ r ∈ xs, RowVals r part (gkey r)) (hw : ∀ r ∈ xs, r.length + (n + 1) = width) (hlen : xs.length < 2 ^ 31) :
    ∃ blocks : List (Row × List Row), Yields (window drain h width (rowNumbers n part order) child) (.collect [] c) (blocks.flatMap (·.2)) .done ∧
      (blocks.map (·.1)).Perm (firsts [] (xs.map gkey)) ∧ (∀ b ∈ blocks, Numbered (n + 1) key (rowsOf gkey xs b.1) b.2) ∧
      ∀ num : Row → List Int, (∀ r ∈ xs, (num (gkey r)).length = part.length ∧ AllInts (gkey r) (num (gkey r))) → blocks.Pairwise fun a b => num a.1 ≤ num b.1 := by
  let gs := grouped (fun l r => l ++ [entryOf order r]) [] gkey xs
  have hfst : gs.map (·.1) = firsts [] (xs.map gkey) := by simp [gs, grouped, Function.comp_def]
  obtain ⟨hs1, hs2⟩ := sortedKeys_good hd gs
  rw [hfst] at hs1
  let g : Row → List Entry := fun a => popAll h (rowsOf gkey xs a).length ((rowsOf gkey xs a).map (entryOf order))
  have hgood : ∀ a, (g a).Perm ((rowsOf gkey xs a).map (entryOf order)) ∧ (g a).Pairwise fun a b => key a.2 ≤ key b.2 := by
    intro a
    refine popAll_good law _ _ (by simp) ?_
    intro x hx
    obtain ⟨r, hr, rfl⟩ := List.mem_map.1 hx
    exact (entryOf_keyed (hk r (List.mem_filter.1 hr).1)).2
  have hparts : (gs.map fun x => (x.1, popAll h x.2.length x.2)) = (firsts [] (xs.map gkey)).map fun a => (a, g a) := by
    simp only [gs, grouped, List.map_map]
    apply List.map_congr_left
    intro a _
    simp only [g, Function.comp_apply, fold_snoc, List.nil_append, List.length_map]
  refine ⟨(sortedKeys drain gs).map fun a => (a, ((g a).map (·.2)).mapIdx fun j r => r ++ List.replicate (n + 1) (new (.integer ((j : Nat) + 1)))), ?_, ?_, ?_, ?_⟩
  · have h1 := winOut_yields (drain := drain) (h := h) (part := part) (order := order) (child := child) (width := width) (n := n) (g := g)
      (C42_firsts (xs.map gkey)).2.1 (sortedKeys drain gs) (fun x hx => hs1.subset hx)
      (by
        intro a _ x hx
        obtain ⟨r, hr, rfl⟩ := List.mem_map.1 ((hgood a).1.subset hx)
        exact hw r (List.mem_filter.1 hr).1)
      (by
        intro a _
        rw [(hgood a).1.length_eq, List.length_map]
        exact Nat.lt_of_le_of_lt (List.length_filter_le ..) hlen)
    rw [← hparts] at h1
    have h2 := win_collect (drain := drain) (h := h) (n := n) (width := width) hk hg hy rfl [] _ h1
    rw [List.flatMap_map]
    exact h2
  · rw [List.map_map]
    simpa [Function.comp_def] using hs1
  · intro b hb
    obtain ⟨a, ha, rfl⟩ := List.mem_map.1 hb
    refine ⟨(g a).map (·.2), ?_, ?_, rfl⟩
    · have := (hgood a).1.map (·.2)
      simpa [entryOf, Function.comp_def] using this
    · rw [List.pairwise_map]
      exact (hgood a).2
  · intro num hn
    rw [List.pairwise_map]
    refine hs2 part.length num ?_
    intro g hg'
    have : g.1 ∈ firsts [] (xs.map gkey) := hfst ▸ List.mem_map_of_mem hg'
    obtain ⟨r, hr, hr'⟩ := List.mem_map.1 ((C42_firsts _).1.subset this)
    rw [← hr']
    exact hn r hr

end Win

-- ROW_NUMBER() OVER (PARTITION BY department ORDER BY salary): the hypotheses of `C127_row_number_partial` hold.
example : ∃ blocks : List (Row × List Row), Yields (window id listHeap 3 (rowNumbers 0 [.col 0 0] [.col 0 1]) source) (.collect [] exStaff) (blocks.flatMap (·.2)) .done ∧
    (blocks.map (·.1)).Perm [[intVal 3 2], [intVal 3 1]] ∧ (∀ b ∈ blocks, Numbered 1 (exNumAt 1) (rowsOf (·.take 1) exStaff b.1) b.2) ∧
    blocks.Pairwise fun a b => exNumAt 0 a.1 ≤ exNumAt 0 b.1 := by
  obtain ⟨b, h1, h2, h3, h4⟩ := C127_row_number_partial (drain := id) (n := 0) (width := 3) (listHeap_lawful (exNumAt 1) 1) (fun _ => List.Perm.refl _) (source_yields exStaff)
    (fun r hr => (exStaff_keys r hr).1) (fun r hr => (exStaff_keys r hr).2.1) (by decide) (by decide)
  exact ⟨b, h1, h2, h3, h4 (exNumAt 0) fun r hr => (exStaff_keys r hr).2.2⟩

/-- C127 is false of a second function: it is numbered by the partitions of the first. Over the rows 1 and 2, ROW_NUMBER() OVER (PARTITION BY x) and
ROW_NUMBER() OVER () are both 1 on both rows; the second should be 1 and 2. -/
theorem C127_second_fails : Yields (window id listHeap 3 [⟨.rowNumber, [.col 0 0], []⟩, ⟨.rowNumber, [], []⟩] source) (.collect [] [[intVal 3 1], [intVal 3 2]])
    [[intVal 3 1, intVal 3 1, intVal 3 1], [intVal 3 2, intVal 3 1, intVal 3 1]] .done := by
  have hs : sortedKeys id [([intVal 3 1], [(([] : List Value), [intVal 3 1])]), ([intVal 3 2], [([], [intVal 3 2])])] = [[intVal 3 1], [intVal 3 2]] := by
    have : groupKeyCmp [intVal 3 1] [intVal 3 2] = .lt := by decide
    simp [sortedKeys, List.mergeSort, List.MergeSort.Internal.splitInTwo, this]
  refine .cont rfl (.cont rfl (.cont (s' := .out 0 [[intVal 3 1], [intVal 3 2]] [([intVal 3 1], [([], [intVal 3 1])]), ([intVal 3 2], [([], [intVal 3 2])])]) ?_
    (.emit rfl (.cont rfl (.emit rfl (.cont rfl (.stop rfl)))))))
  exact congrArg (fun ks => Step.cont (WinSt.out 0 ks [([intVal 3 1], [([], [intVal 3 1])]), ([intVal 3 2], [([], [intVal 3 2])])])) hs

/-- C127 is false of every other function: the query ends with an error at its first row. -/
theorem C127_rank_fails : Yields (window id listHeap 2 [⟨.other, [], []⟩] source) (.collect [] [[intVal 3 1]]) [] .err := by
  have hs : sortedKeys id [([], [(([] : List Value), [intVal 3 1])])] = [[]] := List.mergeSort_singleton _
  refine .cont rfl (.cont (s' := .out 0 [[]] [([], [([], [intVal 3 1])])]) ?_ (.stop rfl))
  exact congrArg (fun ks => Step.cont (WinSt.out 0 ks [([], [([], [intVal 3 1])])])) hs

/-- C127 is false without a function: a panic at the first row. -/
theorem C127_none_fails (drain : List Row → List Row) (h : Heap Entry) (width : Nat) (r : Row) (rs : List Row) :
    Yields (window drain h width [] source) (.collect [] (r :: rs)) [] .panic := .stop rfl

/-- C127 is false: when the input fails the result is empty, without an error. -/
theorem C127_input_error_fails (drain : List Row → List Row) (h : Heap Entry) : Yields broken [[intVal 3 5]] [[intVal 3 5]] .err ∧
    Yields (window drain h 2 (rowNumbers 0 [] []) broken) (.collect [] [[intVal 3 5]]) [] .done :=
  ⟨broken_yields _, .cont rfl (.stop rfl)⟩

end Verif.Exec

import Verif.Exec.DistinctProps

/-!
# TOP-N (C46)

Specification vocabulary: `key : Row → List Int` gives the numbers of the sort keys of a row, and `≤` is the lexicographic order of lists of integers.
-/

namespace Verif.Exec

open Verif.Wire Verif.Bytes Verif.Sql

/-- The values are these integers, of any integer types. -/
inductive AllInts : List Value → List Int → Prop where
  | nil : AllInts [] []
  | cons {a i as is} : IsInt a i → AllInts as is → AllInts (a :: as) (i :: is)

/-- The keys of the entry are these `n` integers. -/
def Keyed (key : Row → List Int) (n : Nat) (x : Entry) : Prop := (key x.2).length = n ∧ AllInts x.1 (key x.2)

theorem cmp_op {op : CmpOp} {a b : Value} {i j : Int} (ha : IsInt a i) (hb : IsInt b j) : compareOp op a b = .of (op.rel i j) := C38_int_compare op ha hb

theorem keyCmp_lex {as bs : List Value} {is js : List Int} (ha : AllInts as is) (hb : AllInts bs js) (hl : is.length = js.length) :
    keyCmp as bs = lexCmp is js := by
  induction ha generalizing bs js with
  | nil =>
    cases js with
    | nil => cases hb; rfl
    | cons j js => simp at hl
  | @cons a i as is h1 h2 ih =>
    cases hb with
    | nil => simp at hl
    | @cons b j bs js g1 g2 =>
      simp only [keyCmp, lexCmp, cmp_op h1 g1]
      have := ih g2 (by simpa using hl)
      have h1 := @Int.compare_eq_lt i j
      have h2 := @Int.compare_eq_gt i j
      have h3 := @Int.compare_eq_eq i j
      cases hc : compare i j with
      | lt => have := h1.1 hc; simp [CmpOp.rel, Tri.of, this]
      | eq => have := h3.1 hc; subst this; simp_all [CmpOp.rel, Tri.of]
      | gt => have := h2.1 hc; simp [CmpOp.rel, Tri.of, this, Int.not_lt.2 (Int.le_of_lt this)]

theorem lexCmp_lt (a b : List Int) : lexCmp a b = .lt ↔ a < b := by
  induction a generalizing b with
  | nil => cases b <;> simp [lexCmp]
  | cons x a ih =>
    cases b with
    | nil => simp [lexCmp]
    | cons y b =>
      rw [List.cons_lt_cons_iff, ← ih]
      simp only [lexCmp]
      have h1 := @Int.compare_eq_lt x y
      have h3 := @Int.compare_eq_eq x y
      cases hc : compare x y <;> simp_all <;> omega

theorem lexCmp_le (a b : List Int) : lexCmp a b ≠ .gt ↔ a ≤ b := by
  rw [← List.not_lt, ← lexCmp_lt, lexCmp_swap]
  cases lexCmp a b <;> simp

theorem keyed_cmp {key : Row → List Int} {n : Nat} {x y : Entry} (hx : Keyed key n x) (hy : Keyed key n y) :
    keyCmp x.1 y.1 = lexCmp (key x.2) (key y.2) := keyCmp_lex hx.2 hy.2 (hx.1.trans hy.1.symm)

/-- The heap holds the greatest of the entries seen: the others are `dropped`. -/
def Best (key : Row → List Int) (k : Nat) (xs heap dropped : List Entry) : Prop :=
  (heap ++ dropped).Perm xs ∧ heap.length = min k xs.length ∧ ∀ y ∈ dropped, ∀ x ∈ heap, key y.2 ≤ key x.2

theorem cons_eraseIdx {α : Type} {l : List α} {i : Nat} (h : i < l.length) : (l[i] :: l.eraseIdx i).Perm l := by
  induction l generalizing i with
  | nil => simp at h
  | cons a l ih =>
    cases i with
    | zero => exact List.Perm.refl _
    | succ i =>
      simp only [List.getElem_cons_succ, List.eraseIdx_cons_succ]
      exact (List.Perm.swap ..).trans (List.Perm.cons a (ih (by simpa using h)))

theorem best_step {h : Heap Entry} {key : Row → List Int} {n k : Nat} {xs heap dropped : List Entry} {x : Entry}
    (law : h.Lawful (Keyed key n) fun a b => keyCmp a.1 b.1) (hg : ∀ y ∈ xs ++ [x], Keyed key n y) (hb : Best key k xs heap dropped) :
    ∃ dropped', Best key k (xs ++ [x]) (heapStep h k heap x) dropped' := by
  obtain ⟨hp, hl, hd⟩ := hb
  have gh : ∀ y ∈ heap, Keyed key n y := fun y hy => hg y (by simp [hp.subset (List.mem_append_left _ hy)])
  have gd : ∀ y ∈ dropped, Keyed key n y := fun y hy => hg y (by simp [hp.subset (List.mem_append_right _ hy)])
  have gx : Keyed key n x := hg x (by simp)
  have hlen := hp.length_eq
  rw [List.length_append] at hlen
  have pend : (x :: (heap ++ dropped)).Perm (xs ++ [x]) := (List.Perm.cons x hp).trans (List.perm_append_comm (l₁ := [x]) (l₂ := xs))
  unfold heapStep
  split
  · rename_i hk
    have : dropped = [] := List.length_eq_zero_iff.1 (by omega)
    subst this
    exact ⟨[], by simpa using pend, by simp; omega, by simp⟩
  · rename_i hk
    by_cases he : heap = []
    · subst he
      simp only [List.getElem?_nil]
      simp only [List.length_nil, List.nil_append] at *
      exact ⟨x :: dropped, pend, by simp; omega, by simp⟩
    · obtain ⟨m, hm, hmin⟩ := law.top_min heap gh he
      rw [hm]
      have hmm : m ∈ heap := List.mem_of_getElem? hm
      have gm := gh m hmm
      have lem : ∀ y ∈ heap, key m.2 ≤ key y.2 := fun y hy => by
        rw [← lexCmp_le, ← keyed_cmp gm (gh y hy)]
        exact hmin y hy
      simp only
      split
      · rename_i hlt
        rw [keyed_cmp gm gx, lexCmp_lt] at hlt
        obtain ⟨hi, hmi⟩ := List.getElem?_eq_some_iff.1 hm
        have hperm : (m :: heap.eraseIdx (h.top heap)).Perm heap := by
          rw [← hmi]
          exact cons_eraseIdx hi
        refine ⟨m :: dropped, ?_, ?_, ?_⟩
        · refine List.Perm.trans ?_ pend
          rw [List.cons_append]
          refine List.Perm.cons x ?_
          refine List.perm_middle.trans ?_
          rw [← List.cons_append]
          exact hperm.append_right dropped
        · rw [List.length_cons, List.length_eraseIdx_of_lt hi, List.length_append]
          simp only [List.length_singleton]
          omega
        · intro y hy z hz
          have hz' : z = x ∨ z ∈ heap := by
            rcases List.mem_cons.1 hz with rfl | hz
            · exact .inl rfl
            · exact .inr (List.mem_of_mem_eraseIdx hz)
          rcases List.mem_cons.1 hy with rfl | hy
          · rcases hz' with rfl | hz
            · exact List.le_of_lt hlt
            · exact lem z hz
          · rcases hz' with rfl | hz
            · exact List.le_of_lt (List.lt_of_le_of_lt (hd y hy m hmm) hlt)
            · exact hd y hy z hz
      · rename_i hlt
        rw [keyed_cmp gm gx, lexCmp_lt, List.not_lt] at hlt
        refine ⟨x :: dropped, ?_, ?_, ?_⟩
        · exact List.perm_middle.trans pend
        · rw [List.length_append]
          simp only [List.length_singleton]
          omega
        · intro y hy z hz
          rcases List.mem_cons.1 hy with rfl | hy
          · exact List.le_trans hlt (lem z hz)
          · exact hd y hy z hz

theorem topOut_yields {σ : Type} {child : Machine σ Row} (h : Heap Entry) (k : Nat) (es : List Expr) (xs : List Entry) :
    Yields (topN h k es child) (.out xs) (xs.map (·.2)) .done := by
  induction xs with
  | nil => exact .stop rfl
  | cons r rows ih => exact .emit rfl ih

/-- The keys of the row: each expression evaluates to the integer. -/
inductive RowKey (row : Row) : List Expr → List Int → Prop where
  | nil : RowKey row [] []
  | cons {e es v i is} : eval false (rowEnv row) e = .ok v → IsInt v i → RowKey row es is → RowKey row (e :: es) (i :: is)

theorem rowKey_keys {row : Row} {es : List Expr} {is : List Int} (h : RowKey row es is) :
    ∃ ks, sortKeys es row = some ks ∧ AllInts ks is ∧ is.length = es.length := by
  induction h with
  | nil => exact ⟨[], rfl, .nil, rfl⟩
  | @cons e es v i is h1 h2 _ ih =>
    obtain ⟨ks, h3, h4, h5⟩ := ih
    exact ⟨v :: ks, by simp [sortKeys, h1, h3], .cons h2 h4, by simp [h5]⟩

theorem topN_from {σ : Type} {child : Machine σ Row} {c : σ} {xs : List Row} {e : End} {h : Heap Entry} {k : Nat} {es : List Expr} {key : Row → List Int}
    (law : h.Lawful (Keyed key es.length) fun a b => keyCmp a.1 b.1) (hy : Yields child c xs e) (he : e ≠ .panic) (hk : ∀ r ∈ xs, RowKey r es (key r))
    {seen heap dropped : List Entry} (hs : ∀ y ∈ seen, Keyed key es.length y) (hb : Best key k seen heap dropped) :
    ∃ out lost, Yields (topN h k es child) (.collect heap c) out .done ∧ (out ++ lost).Perm (seen.map (·.2) ++ xs) ∧
      out.length = min k (seen.length + xs.length) ∧ ∀ y ∈ lost, ∀ x ∈ out, key y ≤ key x := by
  induction hy generalizing seen heap dropped with
  | @emit s a s' xs e h1 h2 ih =>
    obtain ⟨ks, g1, g2, g3⟩ := rowKey_keys (hk a List.mem_cons_self)
    have hs' : ∀ y ∈ seen ++ [(ks, a)], Keyed key es.length y := by
      intro y hy
      rcases List.mem_append.1 hy with hy | hy
      · exact hs y hy
      · rw [List.mem_singleton] at hy
        subst hy
        exact ⟨g3, g2⟩
    obtain ⟨d', hb'⟩ := best_step (x := (ks, a)) law hs' hb
    obtain ⟨out, lost, o1, o2, o3, o4⟩ := ih he (fun r hr => hk r (List.mem_cons_of_mem _ hr)) hs' hb'
    refine ⟨out, lost, .cont (by simp [topN, h1, g1]) o1, by simpa using o2, ?_, o4⟩
    rw [o3]
    simp
    omega
  | @cont s s' xs e h1 h2 ih =>
    obtain ⟨out, lost, o1, o2⟩ := ih he hk hs hb
    exact ⟨out, lost, .cont (by simp [topN, h1]) o1, o2⟩
  | @stop s e h1 =>
    obtain ⟨p1, p2, p3⟩ := hb
    have hperm : ((h.order heap).reverse).Perm heap := (List.reverse_perm _).trans (law.order_perm heap)
    refine ⟨((h.order heap).reverse).map (·.2), dropped.map (·.2), ?_, ?_, ?_, ?_⟩
    · refine .cont ?_ (topOut_yields h k es _)
      cases e <;> simp_all [topN]
    · rw [← List.map_append, List.append_nil]
      exact ((hperm.append_right dropped).trans p1).map _
    · rw [List.length_map, hperm.length_eq, p2]
      rfl
    · intro y hy x hx
      obtain ⟨y', hy', rfl⟩ := List.mem_map.1 hy
      obtain ⟨x', hx', rfl⟩ := List.mem_map.1 hx
      exact p3 y' hy' x' (hperm.subset hx')

/-- TopN with integer keys, whatever the heap leaves open: it gives `k` rows of the input (all, when there are fewer), and no row it leaves out has a
greater key than a row it gives. So it keeps the `k` last rows of the ascending order; their own order is not fixed. -/
theorem C46_topn_partial {σ : Type} {child : Machine σ Row} {c : σ} {xs : List Row} {h : Heap Entry} {k : Nat} {es : List Expr} {key : Row → List Int}
    (law : h.Lawful (Keyed key es.length) fun a b => keyCmp a.1 b.1) (hy : Yields child c xs .done) (hk : ∀ r ∈ xs, RowKey r es (key r)) :
    ∃ out lost, Yields (topN h k es child) (.collect [] c) out .done ∧ (out ++ lost).Perm xs ∧ out.length = min k xs.length ∧
      ∀ y ∈ lost, ∀ x ∈ out, key y ≤ key x := by
  have := topN_from law hy (by decide) hk (seen := []) (heap := []) (dropped := []) (by simp) ⟨List.Perm.refl _, by simp, by simp⟩ (k := k)
  simpa using this

/-! ## A heap -/

/-- A heap: the entry on top is the first that is not greater than any other. -/
def listHeap : Heap Entry where
  top l := l.findIdx fun x => l.all fun y => keyCmp x.1 y.1 != .gt
  order := id

theorem exists_min (key : Row → List Int) (l : List Entry) (hl : l ≠ []) : ∃ m ∈ l, ∀ x ∈ l, key m.2 ≤ key x.2 := by
  induction l with
  | nil => exact absurd rfl hl
  | cons a l ih =>
    by_cases h : l = []
    · subst h
      exact ⟨a, by simp, by simp⟩
    · obtain ⟨m, hm, hmin⟩ := ih h
      by_cases hle : key a.2 ≤ key m.2
      · refine ⟨a, by simp, fun x hx => ?_⟩
        rcases List.mem_cons.1 hx with rfl | hx
        · exact List.le_refl _
        · exact List.le_trans hle (hmin x hx)
      · refine ⟨m, by simp [hm], fun x hx => ?_⟩
        rcases List.mem_cons.1 hx with rfl | hx
        · rw [List.not_le] at hle
          exact List.le_of_lt hle
        · exact hmin x hx

theorem listHeap_lawful (key : Row → List Int) (n : Nat) : listHeap.Lawful (Keyed key n) fun a b => keyCmp a.1 b.1 where
  top_min l hg hl := by
    obtain ⟨m, hm, hmin⟩ := exists_min key l hl
    have hlt : listHeap.top l < l.length := by
      refine List.findIdx_lt_length_of_exists ⟨m, hm, ?_⟩
      rw [List.all_eq_true]
      intro y hy
      rw [bne_iff_ne, keyed_cmp (hg m hm) (hg y hy), lexCmp_le]
      exact hmin y hy
    refine ⟨l[listHeap.top l], List.getElem?_eq_getElem hlt, fun x hx => ?_⟩
    have := List.findIdx_getElem (w := hlt)
    rw [List.all_eq_true] at this
    have := this x hx
    rw [bne_iff_ne] at this
    exact this
  order_perm l := List.Perm.refl l

/-- Rows 1, 2, 3 in one column. -/
def exTop : List Row := [[intVal 3 1], [intVal 3 2], [intVal 3 3]]
def exKey (r : Row) : List Int := match r with
  | [v] => (match val v with | .integer i => [i] | _ => [])
  | _ => []

theorem exTop_keys : ∀ r ∈ exTop, RowKey r [.col 0 0] (exKey r) := by
  intro r hr
  simp only [exTop, List.mem_cons, List.not_mem_nil, or_false] at hr
  rcases hr with rfl | rfl | rfl <;> exact .cons rfl (.inr (.inr (.inl rfl))) .nil

/-- The first row in ascending order is not what `ORDER BY … LIMIT 1` as TopN gives: over the rows 1, 2, 3 every heap gives 3. -/
theorem C46_first_fails {h : Heap Entry} (law : h.Lawful (Keyed exKey 1) fun a b => keyCmp a.1 b.1) :
    ∃ out, Yields (topN h 1 [.col 0 0] source) (.collect [] exTop) out .done ∧ out = [[intVal 3 3]] := by
  obtain ⟨out, lost, h1, h2, h3, h4⟩ := C46_topn_partial (k := 1) law (source_yields exTop) exTop_keys
  refine ⟨out, h1, ?_⟩
  obtain ⟨x, rfl⟩ := List.length_eq_one_iff.1 h3
  have hx : x ∈ exTop := h2.subset (by simp)
  have h3 : ([intVal 3 3] : Row) ∈ [x] ++ lost := h2.symm.subset (by simp [exTop])
  rcases List.mem_append.1 h3 with h3 | h3
  · rw [List.mem_singleton] at h3
    rw [h3]
  · have := h4 _ h3 x (by simp)
    simp only [exTop, List.mem_cons, List.not_mem_nil, or_false] at hx
    rcases hx with rfl | rfl | rfl
    · exact absurd this (by decide)
    · exact absurd this (by decide)
    · rfl

example : ∃ out, Yields (topN listHeap 1 [.col 0 0] source) (.collect [] exTop) out .done ∧ out = [[intVal 3 3]] :=
  C46_first_fails (listHeap_lawful exKey 1)

/-- A key that fails to evaluate is a panic. -/
theorem C46_panic_fails (h : Heap Entry) : ∃ (rows : List Row) (es : List Expr), Yields (topN h 1 es source) (.collect [] rows) [] .panic :=
  ⟨[[]], [.col 0 0], .stop rfl⟩

end Verif.Exec

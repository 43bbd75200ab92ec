import Verif.PTree.Insert
import Verif.PTree.Spec

/-!
# Paged B+ tree: properties
-/

namespace Verif.PTree

variable {V : Type}

/-- The removals of the history leave their pages full enough. -/
def CalmRun (s : State V) : List (Op V) → Prop
  | [] => True
  | op :: ops => (match op with | .remove k => Calm s k | .removeLatched k => Calm s k | _ => True) ∧ CalmRun (step s op).1 ops

theorem get_filter {E : List (Int × V)} (key j : Int) : get (E.filter (fun e => decide (e.1 ≠ key))) j = if j = key then none else get E j := by
  induction E with
  | nil => simp [get]
  | cons e E ih =>
    rw [List.filter_cons]
    by_cases h : e.1 = key
    · rw [if_neg (by simp [h]), ih, get_cons]
      by_cases hj : j = key
      · simp [hj]
      · rw [if_neg (show ¬ e.1 = j by omega)]
    · rw [if_pos (by simpa using h), get_cons, get_cons, ih]
      by_cases hj : j = key
      · simp [hj, h]
      · simp [hj]

theorem step_rep {s : State V} {E : List (Int × V)} (h : Rep s E) (op : Op V) (hc : CalmRun s [op]) :
    ∃ E', Rep (step s op).1 E' ∧ (step s op).2 = .ok (op.answer (get E)) ∧ get E' = op.effect (get E) := by
  cases op with
  | insert k v =>
    obtain ⟨s', h1, h2⟩ := insert_rep h k v
    refine ⟨_, by rw [step, h1]; exact h2, by rw [step, h1]; rfl, ?_⟩
    funext j
    rw [leafPut_get h.asc]
    rfl
  | insertLatched k v =>
    obtain ⟨s', h1, h2⟩ := insert_rep h k v
    rw [← insertC_eq h] at h1
    refine ⟨_, by rw [step, h1]; exact h2, by rw [step, h1]; rfl, ?_⟩
    funext j
    rw [leafPut_get h.asc]
    rfl
  | remove k =>
    obtain ⟨s', h1, h2⟩ := remove_rep h hc.1
    refine ⟨_, by rw [step, h1]; exact h2, by rw [step, h1]; rfl, ?_⟩
    funext j
    rw [get_filter]
    rfl
  | removeLatched k =>
    obtain ⟨s', h1, h2⟩ := removeC_rep h hc.1
    refine ⟨_, by rw [step, h1]; exact h2, by rw [step, h1]; rfl, ?_⟩
    funext j
    rw [get_filter]
    rfl

theorem run_rep : ∀ (ops : List (Op V)) (s : State V) (E : List (Int × V)), Rep s E → CalmRun s ops →
    ∃ E', Rep (run s ops).1 E' ∧ (run s ops).2 = (expect (get E) ops).2.map .ok ∧ get E' = (expect (get E) ops).1
  | [], s, E, h, _ => ⟨E, h, rfl, rfl⟩
  | op :: ops, s, E, h, hc => by
    obtain ⟨E1, h1, h2, h3⟩ := step_rep h op ⟨hc.1, trivial⟩
    obtain ⟨E2, g1, g2, g3⟩ := run_rep ops _ E1 h1 hc.2
    rw [h3] at g2 g3
    exact ⟨E2, g1, by simp only [run, expect, List.map_cons, h2, g2], g3⟩

theorem calm_inserts : ∀ (ops : List (Op V)) (s : State V), (∀ op ∈ ops, op.isInsert = true) → CalmRun s ops
  | [], _, _ => trivial
  | op :: ops, s, h => by
    refine ⟨?_, calm_inserts ops _ fun o ho => h o (by simp [ho])⟩
    have := h op (by simp)
    cases op <;> simp_all [Op.isInsert]

/-- The empty map. -/
def Map.empty : Map V := fun _ => none

theorem get_nil : get ([] : List (Int × V)) = Map.empty := rfl

theorem rep_lists {s : State V} {E : List (Int × V)} (h : Rep s E) (lo hi : Int) :
    Lists (get E) (fun k => lo ≤ k ∧ k ≤ hi) (E.filter (fun e => decide (lo ≤ e.1 ∧ e.1 ≤ hi))) := by
  refine ⟨List.Pairwise.filter _ (List.pairwise_map.mp h.asc), fun k v => ?_⟩
  rw [List.mem_filter, get_mem h.asc]
  simp only [decide_eq_true_eq]
  exact And.comm

/-! ## C94: after any inserts, a search gives the last value of the key -/

/-- C94. -/
theorem C94_inserts_are_found {o : Nat} (ho : 2 ≤ o) (ops : List (Op V)) (hi : ∀ op ∈ ops, op.isInsert = true) :
    (run (State.new o) ops).2 = ops.map (fun _ => .ok true) ∧ ∀ k, search (run (State.new o) ops).1 k = .ok ((expect Map.empty ops).1 k) := by
  obtain ⟨E, h1, h2, h3⟩ := run_rep ops _ _ (rep_new ho) (calm_inserts ops _ hi)
  rw [get_nil] at h2 h3
  refine ⟨?_, fun k => by rw [search_rep h1, h3]⟩
  rw [h2]
  have : ∀ (ops : List (Op V)) (m : Map V), (∀ op ∈ ops, op.isInsert = true) → (expect m ops).2 = ops.map (fun _ => true) := by
    intro ops
    induction ops with
    | nil => intros; rfl
    | cons op ops ih =>
      intro m h
      rw [expect, ih _ fun o ho => h o (by simp [ho])]
      have := h op (by simp)
      cases op <;> simp_all [Op.isInsert, Op.answer]
  rw [this _ _ hi, List.map_map]
  rfl

/-- Thirty inserts into an index of order 4, upwards and downwards from both ends, with some keys twice. -/
def manyInserts : List (Op Nat) :=
  (List.range 12).flatMap fun i => [.insert (Int.ofNat i * 3) i, .insertLatched (100 - Int.ofNat i) (i + 50), .insert (Int.ofNat (i % 5)) (i + 70)]

example : (∀ op ∈ manyInserts, op.isInsert = true) ∧ (run (State.new 4) manyInserts).1.height = 3 ∧
    search (run (State.new 4) manyInserts).1 3 = .ok (some 78) ∧ search (run (State.new 4) manyInserts).1 33 = .ok (some 11) ∧
    search (run (State.new 4) manyInserts).1 34 = .ok none := by decide +kernel

/-- C94. An index made with an order below 2 loses the inserts it reports as done. -/
theorem C94_order_one_fails : (run (State.new 1) [.insert 1 10, .insert 2 20, .insert 3 (30 : Nat)]).2 = [.ok true, .ok true, .ok true] ∧
    search (run (State.new 1) [.insert 1 10, .insert 2 20, .insert 3 (30 : Nat)]).1 3 ≠ .ok (some 30) := by decide +kernel

/-! ## C95: a range scan gives the entries in the range, in order -/

/-- C95. -/
theorem C95_range_scan {o : Nat} (ho : 2 ≤ o) (ops : List (Op V)) (hi : ∀ op ∈ ops, op.isInsert = true) (a b : Int) :
    ∃ r, rangeScan (run (State.new o) ops).1 a b = .ok r ∧ Lists (expect Map.empty ops).1 (fun k => a ≤ k ∧ k ≤ b) r := by
  obtain ⟨E, h1, _, h3⟩ := run_rep ops _ _ (rep_new ho) (calm_inserts ops _ hi)
  rw [get_nil] at h3
  exact ⟨_, rangeScan_rep h1 a b, h3 ▸ rep_lists h1 a b⟩

/-- C95. The key count is the number of entries. -/
theorem C95_size {o : Nat} (ho : 2 ≤ o) (ops : List (Op V)) (hi : ∀ op ∈ ops, op.isInsert = true) :
    ∃ r, Lists (expect Map.empty ops).1 (fun _ => True) r ∧ (run (State.new o) ops).1.num = r.length := by
  obtain ⟨E, h1, _, h3⟩ := run_rep ops _ _ (rep_new ho) (calm_inserts ops _ hi)
  rw [get_nil] at h3
  refine ⟨E, ⟨List.pairwise_map.mp h1.asc, fun k v => ?_⟩, h1.num⟩
  rw [← h3, get_mem h1.asc]
  simp

example : rangeScan (run (State.new 4) manyInserts).1 27 92 = .ok [(27, 9), (30, 10), (33, 11), (89, 61), (90, 60), (91, 59), (92, 58)] ∧
    (run (State.new 4) manyInserts).1.num = 27 := by decide +kernel

/-! ## C96: removals -/

/-- C96. Histories with removals that leave each page at least half full. Missing: removals after which pages are merged or
entries move between pages, which can lose keys and never return. -/
theorem C96_removals_partial {o : Nat} (ho : 2 ≤ o) (ops : List (Op V)) (hc : CalmRun (State.new o) ops) :
    (run (State.new o) ops).2 = (expect Map.empty ops).2.map .ok ∧ (∀ k, search (run (State.new o) ops).1 k = .ok ((expect Map.empty ops).1 k)) ∧
    ∀ a b, ∃ r, rangeScan (run (State.new o) ops).1 a b = .ok r ∧ Lists (expect Map.empty ops).1 (fun k => a ≤ k ∧ k ≤ b) r := by
  obtain ⟨E, h1, h2, h3⟩ := run_rep ops _ _ (rep_new ho) hc
  rw [get_nil] at h2 h3
  exact ⟨h2, fun k => by rw [search_rep h1, h3], fun a b => ⟨_, rangeScan_rep h1 a b, h3 ▸ rep_lists h1 a b⟩⟩

/-- `Calm`, computed. -/
def calmB (s : State V) (key : Int) : Bool :=
  match locate s key with
  | .ok (some (id, _)) => match s.leaf id with
    | .ok l => l.isRoot || decide (s.order / 2 < l.es.length) || (leafGet l.es key).isNone
    | _ => true
  | _ => true

theorem calmB_calm {s : State V} {key : Int} (h : calmB s key = true) : Calm s key := by
  intro id path l h1 h2
  simpa [calmB, h1, h2, or_assoc] using h

/-- `CalmRun`, computed. -/
def calmRunB (s : State V) : List (Op V) → Bool
  | [] => true
  | op :: ops => (match op with | .remove k => calmB s k | .removeLatched k => calmB s k | _ => true) && calmRunB (step s op).1 ops

theorem calmRunB_calm : ∀ (ops : List (Op V)) (s : State V), calmRunB s ops = true → CalmRun s ops
  | [], _, _ => trivial
  | op :: ops, s, h => by
    obtain ⟨h1, h2⟩ := Bool.and_eq_true_iff.mp h
    refine ⟨?_, calmRunB_calm ops _ h2⟩
    cases op with
    | remove k => exact calmB_calm h1
    | removeLatched k => exact calmB_calm h1
    | insert k v => trivial
    | insertLatched k v => trivial

/-- Removals of keys that are there and keys that are not, in a tree of three levels and in a tree of one page that becomes empty. -/
example : CalmRun (State.new 4) (manyInserts ++ [.remove 33, .removeLatched 91, .remove 31, .insert 30 5, .remove 2]) ∧
    (run (State.new 4) (manyInserts ++ [.remove 33, .removeLatched 91, .remove 31, .insert 30 5, .remove 2])).2.drop 36 =
      [.ok true, .ok true, .ok false, .ok true, .ok true] ∧
    CalmRun (State.new 2) [.insert 1 (1 : Nat), .remove 1, .insert 2 2, .removeLatched 2, .insert 3 3] :=
  ⟨calmRunB_calm _ _ (by decide +kernel), by decide +kernel, calmRunB_calm _ _ (by decide +kernel)⟩

/-- Inserts of the keys from 1. -/
def upTo (n : Nat) : List (Op Nat) := (List.range n).map fun i => .insert (Int.ofNat (i + 1)) (i + 1)

/-- C96. After the keys 1 to 11 are inserted into an index of the default order 4, the removal of 7 never returns: it latches one
page twice. -/
theorem C96_removal_hangs_fails : (run (State.new 4) (upTo 11 ++ [.remove 7])).2.getLast? = some .hang := by decide +kernel

/-- C96. After a removal and three more inserts, keys that were inserted are not found, although they are in a range scan. -/
theorem C96_keys_lost_fails : (run (State.new 4) (upTo 6 ++ [.remove 1, .insert 7 7, .insert 8 8, .insert 9 9])).2.all (fun r => r = .ok true) = true ∧
    search (run (State.new 4) (upTo 6 ++ [.remove 1, .insert 7 7, .insert 8 8, .insert 9 9])).1 9 = .ok none ∧
    rangeScan (run (State.new 4) (upTo 6 ++ [.remove 1, .insert 7 7, .insert 8 8, .insert 9 9])).1 1 9 =
      .ok [(2, 2), (3, 3), (4, 4), (5, 5), (6, 6), (7, 7), (8, 8), (9, 9)] := by decide +kernel

/-! ## C97: what the index holds does not depend on what the pool evicts -/

theorem descend_path {s : State V} {key : Int} : ∀ (n id : Nat) (path : List Nat) (i : Nat) (p : List Nat), descend s key n id path = .ok (i, p) →
    (∀ x ∈ path, x ∈ p) ∧ (id = i ∨ id ∈ p)
  | 0, id, path, i, p, h => by
    unfold descend at h
    split at h <;> simp_all
  | n + 1, id, path, i, p, h => by
    unfold descend at h
    split at h <;> try (simp at h; done)
    split at h <;> try (simp at h; done)
    obtain ⟨h1, _⟩ := descend_path n _ _ i p h
    exact ⟨fun x hx => h1 x (by simp [hx]), Or.inr (h1 id (by simp))⟩

theorem descend_agree {s s' : State V} {key : Int} : ∀ (n id : Nat) (path : List Nat) (i : Nat) (p : List Nat), descend s key n id path = .ok (i, p) →
    (∀ x, x = i ∨ x ∈ p → s'.pages x = s.pages x) → descend s' key n id path = .ok (i, p)
  | 0, id, path, i, p, h, ha => by
    have hid := (descend_path 0 id path i p h).2
    rw [descend] at h ⊢
    rw [State.leaf, ha id hid]
    exact h
  | n + 1, id, path, i, p, h, ha => by
    have hid := (descend_path (n + 1) id path i p h).2
    rw [descend] at h ⊢
    rw [State.inner, ha id hid]
    change (match s.inner id with | .ok p => (match p.findChild key with | some c => descend s' key n c (id :: path) | none => .err) | .err => .err | .panic => .panic | .hang => .hang) = _
    cases hx : s.inner id <;> rw [hx] at h <;> try (simp at h; done)
    rename_i a
    cases hc : a.findChild key <;> simp only [hc] at h ⊢ <;> try (simp at h; done)
    exact descend_agree n _ _ i p h ha

/-- C97. A search is not changed by the eviction of pages that are not on its way. Missing: the pages on the way; an evicted
page of the tree cannot be read again. -/
theorem C97_other_pages_partial {s : State V} {k : Int} {i : Nat} {path : List Nat} (hl : locate s k = .ok (some (i, path))) (id : Nat) (h : id ∉ i :: path) :
    search (evict s id) k = search s k := by
  have hp : ∀ x, x = i ∨ x ∈ path → (evict s id).pages x = s.pages x := by
    intro x hx
    have hne : x ≠ id := by rintro rfl; exact h (by simpa using hx)
    unfold evict
    split
    · simp [State.set, hne]
    · rfl
  have hroot : (evict s id).root = s.root := by unfold evict; split <;> rfl
  have hhei : (evict s id).height = s.height := by unfold evict; split <;> rfl
  have hl' : locate (evict s id) k = .ok (some (i, path)) := by
    rw [locate] at hl ⊢
    rw [hroot, hhei]
    cases hr : s.root with
    | none => rw [hr] at hl; simp at hl
    | some r =>
      rw [hr] at hl
      simp only at hl ⊢
      split at hl <;> try (simp at hl; done)
      rename_i x hx
      simp only [Res.ok.injEq, Option.some.injEq] at hl
      subst hl
      rw [descend_agree _ _ _ _ _ hx hp]
  rw [search, search, hl, hl']
  simp only [State.leaf, hp i (Or.inl rfl)]

example : locate (run (State.new 4) (upTo 11)).1 2 = .ok (some (1, [3, 8])) ∧ (7 ∉ [1, 3, 8]) ∧ ((run (State.new 4) (upTo 11)).1.pages 7).isSome := by decide +kernel

/-- C97. After a leaf has been evicted, a search for one of its keys panics. -/
theorem C97_leaf_evicted_fails : search (run (State.new 4) (upTo 3)).1 2 = .ok (some 2) ∧ search (evict (run (State.new 4) (upTo 3)).1 1) 2 = .panic := by decide +kernel

/-- C97. After the header page has been evicted, the index looks empty, and an insert reported as done is lost. -/
theorem C97_header_evicted_fails : search (evictHeader (run (State.new 4) (upTo 3)).1) 2 = .ok none ∧
    (insert (evictHeader (run (State.new 4) (upTo 3)).1) 5 50).2 = .ok () ∧ search (insert (evictHeader (run (State.new 4) (upTo 3)).1) 5 50).1 5 = .ok none := by decide +kernel

/-! ## C98: inserts at the same time -/

theorem descend_leaves {s s' : State V} {key : Int} (hi : ∀ x, s'.inner x = s.inner x) (hl : ∀ x l, s.leaf x = .ok l → ∃ l', s'.leaf x = .ok l') :
    ∀ (n id : Nat) (path : List Nat) (r : Nat × List Nat), descend s key n id path = .ok r → descend s' key n id path = .ok r
  | 0, id, path, r, h => by
    rw [descend] at h ⊢
    split at h <;> try (simp at h; done)
    rename_i l hx
    obtain ⟨l', hx'⟩ := hl _ _ hx
    rw [hx']
    exact h
  | n + 1, id, path, r, h => by
    rw [descend] at h ⊢
    rw [hi]
    split at h <;> try (simp at h; done)
    split at h <;> try (simp at h; done)
    exact descend_leaves hi hl n _ _ r h

theorem locate_leaves {s s' : State V} {key : Int} {r : Nat × List Nat} (hi : ∀ x, s'.inner x = s.inner x) (hl : ∀ x l, s.leaf x = .ok l → ∃ l', s'.leaf x = .ok l')
    (hr : s'.root = s.root) (hh : s'.height = s.height) (h : locate s key = .ok (some r)) : locate s' key = .ok (some r) := by
  rw [locate] at h ⊢
  rw [hr, hh]
  cases hroot : s.root with
  | none => rw [hroot] at h; simp at h
  | some t =>
    rw [hroot] at h
    simp only at h ⊢
    split at h <;> try (simp at h; done)
    rename_i x hx
    simp only [Res.ok.injEq, Option.some.injEq] at h
    subst h
    rw [descend_leaves hi hl _ _ _ _ hx]

/-- C98. An insert that had found its leaf before another insert ran, when that one found room in its leaf: both keys are there, and
nothing else changed. Missing: an insert in between that splits a page, and two inserts into an empty index; both lose keys. -/
theorem C98_two_inserts_partial {o : Nat} (ho : 2 ≤ o) (ops : List (Op V)) (hc : CalmRun (State.new o) ops) {k1 k2 : Int} (v1 v2 : V) {i j : Nat} {p q : List Nat} {l : Leaf V}
    (h1 : locate (run (State.new o) ops).1 k1 = .ok (some (i, p))) (h2 : locate (run (State.new o) ops).1 k2 = .ok (some (j, q)))
    (hl : (run (State.new o) ops).1.leaf j = .ok l) (hroom : l.es.length < (run (State.new o) ops).1.order) :
    (insertAt (insert (run (State.new o) ops).1 k2 v2).1 i p k1 v1).2 = .ok () ∧
      ∀ k, search (insertAt (insert (run (State.new o) ops).1 k2 v2).1 i p k1 v1).1 k =
        .ok (if k = k1 then some v1 else if k = k2 then some v2 else (expect Map.empty ops).1 k) := by
  obtain ⟨E, hE, _, h3⟩ := run_rep ops _ _ (rep_new ho) hc
  rw [get_nil] at h3
  generalize (run (State.new o) ops).1 = s at *
  obtain ⟨s1, e1, r1⟩ := insert_rep hE k2 v2
  have hshape : (∀ x, s1.inner x = s.inner x) ∧ (∀ x l, s.leaf x = .ok l → ∃ l', s1.leaf x = .ok l') ∧ s1.root = s.root ∧ s1.height = s.height := by
    have hset : ∀ (es : List (Int × V)) (n : Nat), (∀ x, ({ s.set j (.leaf { l with es := es }) with num := n } : State V).inner x = s.inner x) ∧
        (∀ x l', s.leaf x = .ok l' → ∃ l'', ({ s.set j (.leaf { l with es := es }) with num := n } : State V).leaf x = .ok l'') := by
      intro es n
      have hj : s.pages j = some (.leaf l) := by
        unfold State.leaf at hl
        split at hl <;> simp_all
      refine ⟨fun x => ?_, fun x l' hx => ?_⟩
      · by_cases e : x = j
        · subst e; simp [State.inner, State.set, hj]
        · simp [State.inner, State.set, e]
      · by_cases e : x = j
        · subst e; exact ⟨_, by simp only [State.leaf, State.set, if_true]; rfl⟩
        · exact ⟨l', by simpa [State.leaf, State.set, e] using hx⟩
    rw [insert, h2] at e1
    simp only [insertAt, hl] at e1
    split at e1
    · have e1 := (Prod.mk.inj e1).1
      subst e1
      exact ⟨(hset _ s.num).1, (hset _ s.num).2, rfl, rfl⟩
    · rw [if_pos hroom] at e1
      have e1 := (Prod.mk.inj e1).1
      subst e1
      exact ⟨(hset _ _).1, (hset _ _).2, rfl, rfl⟩
  have hloc := locate_leaves hshape.1 hshape.2.1 hshape.2.2.1 hshape.2.2.2 h1
  have e2 : insertAt s1 i p k1 v1 = insert s1 k1 v1 := by rw [insert, hloc]
  obtain ⟨s2, e3, r2⟩ := insert_rep r1 k1 v1
  rw [e1, e2, e3]
  refine ⟨rfl, fun k => ?_⟩
  rw [search_rep r2, leafPut_get r1.asc, leafPut_get hE.asc, h3]

example : locate (run (State.new 4) (upTo 9)).1 20 = .ok (some (5, [3])) ∧ locate (run (State.new 4) (upTo 9)).1 0 = .ok (some (1, [3])) ∧
    (run (State.new 4) (upTo 9)).1.leaf 1 = .ok ⟨[(1, 1), (2, 2)], some 2, false⟩ := by decide +kernel

/-- C98. Two inserts go to the same full leaf; the second one finds the leaf before the first one splits it. Both report success, and
the key of the second is not found. -/
theorem C98_split_between_fails : ∃ i p, locate (run (State.new 4) (upTo 4)).1 9 = .ok (some (i, p)) ∧
    (insert (run (State.new 4) (upTo 4)).1 5 5).2 = .ok () ∧ (insertAt (insert (run (State.new 4) (upTo 4)).1 5 5).1 i p 9 9).2 = .ok () ∧
    search (insertAt (insert (run (State.new 4) (upTo 4)).1 5 5).1 i p 9 9).1 9 = .ok none := ⟨1, [], by decide +kernel⟩

/-- C98. Two inserts into an empty index: both see it empty, and the second one replaces the page of the first. -/
theorem C98_empty_index_fails : locate (State.new 4 : State Nat) 1 = .ok none ∧ locate (State.new 4 : State Nat) 2 = .ok none ∧
    search (insertEmpty (insertEmpty (State.new 4) 1 10) 2 20) 1 = .ok none := by decide +kernel

end Verif.PTree

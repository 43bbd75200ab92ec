import Verif.BTree.Props

/-!
# The index iterator (`src/storage/index/index_iterator_mem.rs`): model and property C25

The tree is not changed while the iterator is used. Start and end keys are the extracted keys of the tuples, so the errors for
tuples without the key column do not occur. `seek`, `next_back` and `reset` are not modelled.
-/

namespace Verif.BTree

variable {K V : Type}

/-! ### Model -/

/-- `struct IndexIterator` (index_iterator_mem.rs:132-142). -/
structure Iter (K V : Type) where
  batch : List (K × V)
  pos : Nat
  start : Option K
  stop : Option K
  exhausted : Bool
  last : Option K
  error : Bool

/-- The end of `fetch_next_batch` (index_iterator_mem.rs:275-291) for a scan that went well. -/
def Iter.store (it : Iter K V) (r : List (K × V)) : Iter K V × Bool :=
  match r.getLast? with
  | none => ({ it with exhausted := true }, false)
  | some x => ({ it with last := some x.1, batch := r }, true)

/-- `fetch_next_batch` (index_iterator_mem.rs:188-299): the boolean is `Ok(true)`; `Ok(false)` and `Err` are the same for `next`.
`none` is a panic or a hang of the scan. -/
def Iter.fetch (o : KeyOps K) (t : BTree K V) (it : Iter K V) : Option (Iter K V × Bool) :=
  if it.exhausted then some (it, false)
  else
    let it := { it with batch := [], pos := 0 }
    match it.start, it.stop with
    | none, none =>
      if it.last.isSome then some ({ it with exhausted := true }, false)
      else t.scanFull.map it.store
    | some s, some e => (t.scanRange o (it.last.getD s) e it.last.isNone).map it.store
    | _, _ => some ({ it with exhausted := true, error := true }, false)

/-- `new` (index_iterator_mem.rs:146-165). -/
def Iter.new (o : KeyOps K) (t : BTree K V) (start stop : Option K) : Option (Iter K V) :=
  (Iter.fetch o t { batch := [], pos := 0, start, stop, exhausted := false, last := none, error := false }).map (·.1)

/-- `next` (index_iterator_mem.rs:312-353). -/
def Iter.next (o : KeyOps K) (t : BTree K V) (it : Iter K V) : Option (Iter K V × Option V) :=
  let emit (it : Iter K V) : Iter K V × Option V :=
    match it.batch[it.pos]? with
    | some x => ({ it with pos := it.pos + 1 }, some x.2)
    | none => (it, none)
  if it.exhausted && decide (it.pos ≥ it.batch.length) then some (it, none)
  else if it.pos ≥ it.batch.length then
    (Iter.fetch o t it).map fun r => if r.2 then emit { r.1 with pos := 0 } else (r.1, none)
  else some (emit it)

/-- `n` calls of `next`. -/
def Iter.nexts (o : KeyOps K) (t : BTree K V) : Nat → Iter K V → Option (List (Option V))
  | 0, _ => some []
  | n + 1, it =>
    match it.next o t with
    | none => none
    | some (it', x) => (Iter.nexts o t n it').map (x :: ·)

/-- A new iterator and `n` calls of `next`. -/
def iterate (o : KeyOps K) (t : BTree K V) (start stop : Option K) (n : Nat) : Option (List (Option V)) :=
  (Iter.new o t start stop).bind (Iter.nexts o t n)

/-! ### Specification -/

/-- The answers of `n` calls of an iterator that yields `r` once and then ends. -/
def yields (r : List (K × V)) (n : Nat) : List (Option V) := (r.map (fun x : K × V => some x.2) ++ List.replicate n none).take n

/-! ### Proofs -/

section
variable [LT K] [LE K] [DecidableEq K] [DecidableLT K] [DecidableLE K] [Std.IsLinearOrder K] [Std.LawfulOrderLT K]
set_option linter.unusedSectionVars false

theorem nexts_done {o : KeyOps K} {t : BTree K V} {it : Iter K V} (h1 : it.exhausted = true) (h2 : it.batch.length ≤ it.pos) :
    ∀ n, Iter.nexts o t n it = some (List.replicate n none) := by
  intro n
  induction n with
  | zero => rfl
  | succ n ih =>
    have : it.next o t = some (it, none) := by simp [Iter.next, h1, h2]
    simp [Iter.nexts, this, ih, List.replicate_succ]

/-- A batch is yielded, and then the iterator goes on from its end. -/
theorem nexts_batch {o : KeyOps K} {t : BTree K V} : ∀ (n : Nat) (it : Iter K V), it.pos ≤ it.batch.length → it.exhausted = false →
    (∀ m, Iter.nexts o t m { it with pos := it.batch.length } = some (List.replicate m none)) →
    Iter.nexts o t n it = some (yields (it.batch.drop it.pos) n) := by
  intro n
  induction n with
  | zero => intro it _ _ _; simp [Iter.nexts, yields]
  | succ n ih =>
    intro it h1 h2 h3
    by_cases h4 : it.pos = it.batch.length
    · have : it = { it with pos := it.batch.length } := by rw [← h4]
      rw [this, h3 (n + 1)]
      simp [yields, List.take_of_length_le]
    · have hlt : it.pos < it.batch.length := by omega
      have hnext : it.next o t = some ({ it with pos := it.pos + 1 }, some it.batch[it.pos].2) := by
        simp only [Iter.next, h2, Bool.false_and, Bool.false_eq_true, if_false]
        rw [if_neg (by omega), List.getElem?_eq_getElem hlt]
      have := ih { it with pos := it.pos + 1 } (by simp only; omega) h2 h3
      simp only [Iter.nexts, hnext, this, Option.map_some]
      rw [List.drop_eq_getElem_cons hlt]
      simp only [yields, List.map_cons, List.cons_append, List.take_succ_cons, Option.some.injEq, List.cons.injEq, true_and]
      rw [List.take_append, List.take_append]
      simp only [List.length_map, List.length_drop]
      congr 1
      rw [List.take_replicate, List.take_replicate]
      congr 1; omega

/-- The end: a fetch that finds nothing. -/
theorem nexts_end {o : KeyOps K} {t : BTree K V} {it it' : Iter K V} (h1 : it.batch.length ≤ it.pos) (h2 : it.exhausted = false)
    (h3 : it.fetch o t = some (it', false)) (h4 : it'.exhausted = true) (h5 : it'.batch = []) :
    ∀ n, Iter.nexts o t n it = some (List.replicate n none) := by
  intro n
  cases n with
  | zero => rfl
  | succ n =>
    have : it.next o t = some (it', none) := by
      simp [Iter.next, h2, h1, h3]
    have h6 := nexts_done (o := o) (t := t) (it := it') h4 (by simp [h5]) n
    simp [Iter.nexts, this, h6, List.replicate_succ]

/-- Iterating over everything. -/
theorem iterate_full {o : KeyOps K} {t : BTree K V} {r : List (K × V)} (h : t.scanFull = some r) (n : Nat) :
    iterate o t none none n = some (yields r n) := by
  unfold iterate Iter.new
  cases hr : r.getLast? with
  | none =>
    have : r = [] := List.getLast?_eq_none_iff.1 hr
    subst this
    simp only [Iter.fetch, h, Bool.false_eq_true, if_false, Option.isSome_none, Option.map_some, Iter.store, List.getLast?_nil,
      Option.bind_some]
    rw [nexts_done rfl (by simp)]
    simp [yields, List.take_of_length_le]
  | some x =>
    simp only [Iter.fetch, h, Bool.false_eq_true, if_false, Option.isSome_none, Option.map_some, Iter.store, hr, Option.bind_some]
    rw [nexts_batch n _ (by simp) rfl]
    · simp
    · refine nexts_end (by simp) rfl (it' := ⟨[], 0, none, none, true, some x.1, false⟩) ?_ rfl rfl
      simp [Iter.fetch]

/-- Iterating over a range that is empty or ends with the end key. -/
theorem iterate_range {o : KeyOps K} {t : BTree K V} {s e : K} {r : List (K × V)} (h : t.scanRange o s e true = some r)
    (hlast : ∀ x, r.getLast? = some x → x.1 = e) (hend : t.scanRange o e e false = some []) (n : Nat) :
    iterate o t (some s) (some e) n = some (yields r n) := by
  unfold iterate Iter.new
  cases hr : r.getLast? with
  | none =>
    have : r = [] := List.getLast?_eq_none_iff.1 hr
    subst this
    simp only [Iter.fetch, h, Bool.false_eq_true, if_false, Option.isNone_none, Option.map_some, Iter.store, List.getLast?_nil,
      Option.bind_some, Option.getD_none]
    rw [nexts_done rfl (by simp)]
    simp [yields, List.take_of_length_le]
  | some x =>
    have hx := hlast x hr
    simp only [Iter.fetch, h, Bool.false_eq_true, if_false, Option.isNone_none, Option.map_some, Iter.store, hr, Option.bind_some,
      Option.getD_none]
    rw [nexts_batch n _ (by simp) rfl]
    · simp
    · refine nexts_end (by simp) rfl (it' := ⟨[], 0, some s, some e, true, some x.1, false⟩) ?_ rfl rfl
      simp [Iter.fetch, hx, hend, Iter.store]

/-- The iterator is somewhere in a range whose last key is below the end key. -/
structure Stuck (t : BTree K V) (e : K) (it : Iter K V) : Prop where
  start : it.start.isSome = true
  stop : it.stop = some e
  live : it.exhausted = false
  last : ∃ k v, it.last = some k ∧ (k, v) ∈ t.root.entries ∧ k < e

theorem stuck_next {d : Bool} {t : BTree K V} (hi : Inv d t) {e : K} {it : Iter K V} (h : Stuck t e it) :
    ∃ it' v, it.next (KeyOps.linear K) t = some (it', some v) ∧ Stuck t e it' := by
  by_cases hpos : it.pos ≥ it.batch.length
  · obtain ⟨k, v, hl, hm, hk⟩ := h.last
    obtain ⟨s, hs⟩ := Option.isSome_iff_exists.1 h.start
    have hscan := scanRange_ok hi k e false
    have hmem : (k, v) ∈ t.root.entries.filter (fun x => inRange k e false x.1) :=
      List.mem_filter.2 ⟨hm, by simp only [inRange]; grind⟩
    generalize hr : t.root.entries.filter (fun x => inRange k e false x.1) = r at hscan hmem
    have hne : r ≠ [] := List.ne_nil_of_mem hmem
    have hlast := List.getLast?_eq_some_getLast hne
    have hin : r.getLast hne ∈ r := List.getLast_mem hne
    have hin2 : r.getLast hne ∈ t.root.entries.filter (fun x => inRange k e false x.1) := by rw [hr]; exact hin
    rw [List.mem_filter] at hin2
    have hlt : (r.getLast hne).1 < e := by
      have := hin2.2
      simp only [inRange] at this
      grind
    have hfetch : it.fetch (KeyOps.linear K) t =
        some ({ it with batch := r, pos := 0, last := some (r.getLast hne).1 }, true) := by
      simp [Iter.fetch, h.live, hs, h.stop, hl, hscan, Iter.store, hlast]
    have hlen : 0 < r.length := List.length_pos_iff.2 hne
    refine ⟨{ it with batch := r, pos := 1, last := some (r.getLast hne).1 }, r[0].2, ?_, ⟨h.start, h.stop, h.live, _, _, rfl, hin2.1, hlt⟩⟩
    simp only [Iter.next, h.live, Bool.false_and, Bool.false_eq_true, if_false]
    rw [if_pos hpos, hfetch]
    simp [List.getElem?_eq_getElem hlen, h.live]
  · refine ⟨{ it with pos := it.pos + 1 }, (it.batch[it.pos]'(by omega)).2, ?_, ⟨h.start, h.stop, h.live, h.last⟩⟩
    simp only [Iter.next, h.live, Bool.false_and, Bool.false_eq_true, if_false]
    rw [if_neg hpos, List.getElem?_eq_getElem (by omega)]

theorem stuck_nexts {d : Bool} {t : BTree K V} (hi : Inv d t) {e : K} : ∀ (n : Nat) {it : Iter K V}, Stuck t e it →
    ∃ r : List V, Iter.nexts (KeyOps.linear K) t n it = some (r.map some) ∧ r.length = n := by
  intro n
  induction n with
  | zero => intro it _; exact ⟨[], rfl, rfl⟩
  | succ n ih =>
    intro it h
    obtain ⟨it', v, h1, h2⟩ := stuck_next hi h
    obtain ⟨r, h3, h4⟩ := ih h2
    exact ⟨v :: r, by simp [Iter.nexts, h1, h3], by simp [h4]⟩

variable [DecidableEq V]

/-- C25 for an index filled by inserts with distinct keys: iterating over the whole index, or over a range that is empty or
contains the end key itself, yields each entry in the range once, in key order, and then ends. Missing: ranges whose end key is
not in the index (`C25_iterate_never_ends`). -/
theorem C25_iterate_partial (order : Nat) (ho : 3 ≤ order) (hist : List (K × V)) (hd : (hist.map (·.1)).Nodup) :
    ∃ t bs, run (KeyOps.linear K) (BTree.new order) (inserts hist) = some (t, bs) ∧
      (∃ r, Lists r hist ∧ ∀ n, iterate (KeyOps.linear K) t none none n = some (yields r n)) ∧
      (∀ s e, ((∀ x ∈ hist, inRange s e true x.1 = false) ∨ s ≤ e ∧ e ∈ hist.map (·.1)) →
        ∃ r, Lists r (hist.filter fun x => inRange s e true x.1) ∧
          ∀ n, iterate (KeyOps.linear K) t (some s) (some e) n = some (yields r n)) := by
  obtain ⟨t, h1, h2, r0, h3, h4⟩ := C22_scan_exact order ho hist hd
  refine ⟨t, _, h1, ⟨r0, h4, iterate_full h3⟩, ?_⟩
  intro s e hse
  obtain ⟨r, h5, h6⟩ := h2 s e true
  refine ⟨r, h6, iterate_range h5 ?_ ?_⟩
  · intro x hx
    rcases hse with hse | ⟨hse, hmem⟩
    · have : r = [] := by
        have h7 : hist.filter (fun x => inRange s e true x.1) = [] := by
          rw [List.filter_eq_nil_iff]
          intro y hy
          simp [hse y hy]
        have h8 := h6.1
        rw [h7] at h8
        exact h8.eq_nil
      subst this
      cases hx
    · rw [List.mem_map] at hmem
      obtain ⟨y, hy, rfl⟩ := hmem
      have hyr : y ∈ r := h6.1.symm.subset (List.mem_filter.2 ⟨hy, by simp only [inRange]; grind⟩)
      have hxr : x ∈ r := List.mem_of_getLast? hx
      have hxin := (List.mem_filter.1 (h6.1.subset hxr)).2
      rcases List.eq_nil_or_concat r with rfl | ⟨r', z, rfl⟩
      · cases hx
      · rw [List.concat_eq_append] at *
        simp only [List.getLast?_append, List.getLast?_singleton, Option.some_or, Option.some.injEq] at hx
        subst hx
        rw [List.mem_append, List.mem_singleton] at hyr
        rcases hyr with hyr | rfl
        · have := (List.pairwise_append.1 h6.2).2.2 y hyr z (by simp)
          simp only [inRange] at hxin
          grind
        · rfl
  · obtain ⟨r', h7, h8⟩ := h2 e e false
    rw [h7]
    have h9 : hist.filter (fun x => inRange e e false x.1) = [] := by
      rw [List.filter_eq_nil_iff]
      intro y _
      simp only [inRange]
      grind
    have h10 := h8.1
    rw [h9] at h10
    rw [h10.eq_nil]

/-- C25 does not hold: whenever the range holds an entry but not the end key itself, the iterator never ends. -/
theorem C25_iterate_never_ends (order : Nat) (ho : 3 ≤ order) (hist : List (K × V)) (hd : (hist.map (·.1)).Nodup) (s e : K)
    (hne : ∃ x ∈ hist, inRange s e true x.1 = true) (he : e ∉ hist.map (·.1)) :
    ∃ t bs, run (KeyOps.linear K) (BTree.new order) (inserts hist) = some (t, bs) ∧
      ∀ n, ∃ r : List V, iterate (KeyOps.linear K) t (some s) (some e) n = some (r.map some) ∧ r.length = n := by
  obtain ⟨t, h1, h2, hord, h3⟩ := run_ok (inserts hist) (BTree.new order) [] (inv_new ho (.inl rfl))
    (by simp [BTree.new, Tree.entries, Tree.leaves, entriesOf]) (fresh_inserts hist [] (by simpa using hd)) (clean_inserts hist _)
  rw [ideal_inserts] at h3
  simp only [List.nil_append] at h3
  refine ⟨t, _, h1, ?_⟩
  intro n
  obtain ⟨x, hx, hr⟩ := hne
  have hscan := scanRange_ok h2 s e true
  have hmem : x ∈ t.root.entries.filter (fun x => inRange s e true x.1) := List.mem_filter.2 ⟨h3.symm.subset hx, hr⟩
  generalize hrr : t.root.entries.filter (fun x => inRange s e true x.1) = r at hscan hmem
  have hne : r ≠ [] := List.ne_nil_of_mem hmem
  have hin : r.getLast hne ∈ t.root.entries.filter (fun x => inRange s e true x.1) := by rw [hrr]; exact List.getLast_mem hne
  rw [List.mem_filter] at hin
  have hlt : (r.getLast hne).1 < e := by
    have h4 : (r.getLast hne).1 ≠ e := by
      intro h; exact he (List.mem_map.2 ⟨_, h3.subset hin.1, h⟩)
    have := hin.2
    simp only [inRange] at this
    grind
  unfold iterate Iter.new
  have hfetch : Iter.fetch (KeyOps.linear K) t { batch := [], pos := 0, start := some s, stop := some e, exhausted := false, last := none, error := false } =
      some (⟨r, 0, some s, some e, false, some (r.getLast hne).1, false⟩, true) := by
    simp [Iter.fetch, hscan, Iter.store, List.getLast?_eq_some_getLast hne]
  rw [hfetch]
  exact stuck_nexts h2 n ⟨rfl, rfl, rfl, _, _, rfl, hin.1, hlt⟩

end

/-- The hypotheses of `C25_iterate_partial` are met: a range that ends with a key of the index. -/
example : ((ascending 12).map (·.1)).Nodup ∧ ((3 : Int) ≤ 7 ∧ (7 : Int) ∈ (ascending 12).map (·.1)) ∧
    ((run (KeyOps.linear Int) (BTree.new 4) (inserts (ascending 12))).bind fun r => iterate (KeyOps.linear Int) r.1 (some 3) (some 7) 7) =
      some [some 3, some 4, some 5, some 6, some 7, none, none] := by
  decide +kernel

/-- A range that reaches past the last key: the last entry comes again and again. -/
theorem C25_iterate_fails :
    ((run (KeyOps.linear Int) (BTree.new 4) (inserts (ascending 5))).bind fun r => iterate (KeyOps.linear Int) r.1 (some 3) (some 9) 6) =
      some [some 3, some 4, some 4, some 4, some 4, some 4] := by
  decide +kernel

/-- A range with one bound yields nothing. -/
theorem C25_one_bound_fails :
    ((run (KeyOps.linear Int) (BTree.new 4) (inserts (ascending 5))).bind fun r => iterate (KeyOps.linear Int) r.1 (some 3) none 3) =
      some [none, none, none] := by
  decide +kernel

end Verif.BTree

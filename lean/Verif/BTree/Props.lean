import Verif.BTree.Delete

/-!
# B+ tree: properties C22, C23 and C24
-/

namespace Verif.BTree

variable {K V : Type}

section
variable [LT K] [LE K] [DecidableEq K] [DecidableLT K] [DecidableLE K] [Std.IsLinearOrder K] [Std.LawfulOrderLT K] [DecidableEq V]
set_option linter.unusedSectionVars false

/-! ### Histories -/

/-- Every delete of a history keeps the shape of the nodes it changes. -/
def AllClean (t : BTree K V) : List (Op K V) → Prop
  | [] => True
  | op :: ops =>
    (match op with | .ins _ _ => True | .del k v => t.deleteClean (KeyOps.linear K) k v = true) ∧
    ∀ t' b, (match op with | .ins k v => t.insert (KeyOps.linear K) k v | .del k v => t.delete (KeyOps.linear K) k v) = some (t', b) →
      AllClean t' ops

theorem perm_insert {a x y : List (K × V)} {k : K} {v : V} {c : List (K × V)} (h : a = x ++ y) (hp : a.Perm c) :
    (x ++ (k, v) :: y).Perm (c ++ [(k, v)]) := by
  refine List.Perm.trans List.perm_middle ?_
  rw [← h]
  exact List.Perm.trans (List.Perm.cons _ hp) (List.perm_append_singleton _ _).symm

theorem run_ok : ∀ (ops : List (Op K V)) (t : BTree K V) (c : List (K × V)), Inv true t → t.root.entries.Perm c → Fresh c ops →
    AllClean t ops →
    ∃ t', run (KeyOps.linear K) t ops = some (t', (idealRun c ops).2) ∧ Inv true t' ∧ t'.order = t.order ∧
      t'.root.entries.Perm (idealRun c ops).1
  | [], t, c, hi, hp, _, _ => ⟨t, rfl, hi, rfl, hp⟩
  | .ins k v :: ops, t, c, hi, hp, hf, hcl => by
    have hnew : ∀ e ∈ t.root.entries, e.1 ≠ k := by
      intro e he hk
      exact hf.1 (List.mem_map.2 ⟨e, hp.subset he, hk⟩)
    obtain ⟨t', r, h1, h2, h3, _, h4⟩ := insert_ok hi k v (fun _ => hnew)
    rcases h4 with ⟨rfl, x, y, h5, h6, _, _⟩ | ⟨_, _, hm⟩
    · obtain ⟨t2, g1, g2, g3, g4⟩ := run_ok ops t' (c ++ [(k, v)]) h2 (h6 ▸ perm_insert h5 hp) hf.2 (hcl.2 t' true h1)
      refine ⟨t2, ?_, g2, g3.trans h3, g4⟩
      simp only [run, h1, g1, Option.map_some, idealRun, ideal]
    · exact absurd rfl (hnew _ hm)
  | .del k v :: ops, t, c, hi, hp, hf, hcl => by
    obtain ⟨t', r, h1, h2, h3, h4⟩ := delete_ok hi k v hcl.1
    have hp' : t'.root.entries.Perm (c.erase (k, v)) ∧ r = decide ((k, v) ∈ c) := by
      rcases h4 with ⟨rfl, a, b, h5, h6⟩ | ⟨rfl, rfl, h5⟩
      · have hm : (k, v) ∈ c := hp.subset (by rw [h5]; simp)
        refine ⟨?_, by simp [hm]⟩
        rw [h6]
        rw [h5] at hp
        have := (List.perm_middle.symm.trans hp).erase (k, v)
        simpa using this
      · have hm : (k, v) ∉ c := fun h => h5 (hp.symm.subset h)
        rw [List.erase_of_not_mem hm]
        exact ⟨hp, by simp [hm]⟩
    obtain ⟨t2, g1, g2, g3, g4⟩ := run_ok ops t' (c.erase (k, v)) h2 hp'.1 hf.2 (hcl.2 t' r h1)
    refine ⟨t2, ?_, g2, g3.trans h3, g4⟩
    simp only [run, h1, g1, Option.map_some, idealRun, ideal, hp'.2]

theorem clean_inserts (l : List (K × V)) : ∀ t : BTree K V, AllClean t (inserts l) := by
  induction l with
  | nil => intro t; trivial
  | cons e l ih => intro t; exact ⟨trivial, fun t' _ _ => ih t'⟩

theorem ideal_inserts (l : List (K × V)) : ∀ c : List (K × V), idealRun c (inserts l) = (c ++ l, List.replicate l.length true) := by
  induction l with
  | nil => intro c; simp [inserts, idealRun]
  | cons e l ih =>
    intro c
    have := ih (c ++ [e])
    simp only [inserts, List.map_cons, idealRun, ideal] at this ⊢
    rw [this]
    simp [List.replicate_succ]

theorem fresh_inserts (l : List (K × V)) : ∀ c : List (K × V), ((c ++ l).map (·.1)).Nodup → Fresh c (inserts l) := by
  induction l with
  | nil => intro c _; trivial
  | cons e l ih =>
    intro c h
    refine ⟨?_, ?_⟩
    · simp only [List.map_append, List.map_cons] at h
      rw [List.nodup_append] at h
      intro hm
      exact h.2.2 _ hm e.1 (by simp) rfl
    · have : ideal c (Op.ins e.1 e.2) = (c ++ [e], true) := rfl
      rw [this]
      exact ih (c ++ [e]) (by simpa using h)

theorem scans_of_inv {t : BTree K V} (hi : Inv true t) {c : List (K × V)} (hp : t.root.entries.Perm c) :
    (∀ s e incl, ∃ r, t.scanRange (KeyOps.linear K) s e incl = some r ∧ Lists r (c.filter fun x => inRange s e incl x.1)) ∧
    (∃ r, t.scanFull = some r ∧ Lists r c) := by
  have hs := hi.srt.ents
  simp only [if_true] at hs
  exact ⟨fun s e incl => ⟨_, scanRange_ok hi s e incl, hp.filter _, hs.filter _⟩, _, scanFull_ok hi, hp, hs⟩

/-! ### C22 -/

/-- C22: after any sequence of inserts with distinct keys, each of which answers `true`, range scans return exactly the pairs
in range in ascending order, and the full scan returns all of them. -/
theorem C22_scan_exact (order : Nat) (ho : 3 ≤ order) (hist : List (K × V)) (hd : (hist.map (·.1)).Nodup) :
    ∃ t, run (KeyOps.linear K) (BTree.new order) (inserts hist) = some (t, List.replicate hist.length true) ∧
      (∀ s e incl, ∃ r, t.scanRange (KeyOps.linear K) s e incl = some r ∧ Lists r (hist.filter fun x => inRange s e incl x.1)) ∧
      (∃ r, t.scanFull = some r ∧ Lists r hist) := by
  obtain ⟨t, h1, h2, _, h3⟩ := run_ok (inserts hist) (BTree.new order) [] (inv_new ho (.inl rfl))
    (by simp [BTree.new, Tree.entries, Tree.leaves, entriesOf]) (fresh_inserts hist [] (by simpa using hd)) (clean_inserts hist _)
  rw [ideal_inserts] at h1 h3
  simp only [List.nil_append] at h1 h3
  exact ⟨t, h1, scans_of_inv h2 h3⟩

/-- C22, a lookup of one key returns its pair and nothing else. -/
theorem C22_lookup (order : Nat) (ho : 3 ≤ order) (hist : List (K × V)) (hd : (hist.map (·.1)).Nodup) {k : K} {v : V}
    (hm : (k, v) ∈ hist) :
    ∃ t bs, run (KeyOps.linear K) (BTree.new order) (inserts hist) = some (t, bs) ∧
      t.scanKey (KeyOps.linear K) k = some [(k, v)] := by
  obtain ⟨t, h1, h2, _⟩ := C22_scan_exact order ho hist hd
  obtain ⟨r, h3, h4, h5⟩ := h2 k k true
  refine ⟨t, _, h1, ?_⟩
  have hk : ∀ x ∈ r, x.1 = k := by
    intro x hx
    have := (List.mem_filter.1 (h4.subset hx)).2
    simp only [inRange] at this
    grind
  have hmem : (k, v) ∈ r := h4.symm.subset (List.mem_filter.2 ⟨hm, by simp only [inRange]; grind⟩)
  unfold BTree.scanKey
  rw [h3]
  match r, hk, hmem, h5 with
  | [x], _, hmem, _ => simp at hmem; rw [hmem]
  | x :: y :: r, hk, _, h5 =>
    have h6 := (List.pairwise_cons.1 h5).1 y (by simp)
    have h7 := hk x (by simp)
    have h8 := hk y (by simp)
    grind

/-- C22 when keys repeat, for even orders (the code uses 4): the scans return exactly the accepted pairs in key order, and a
pair is only refused when it is there. -/
theorem C22_scan_repeated_keys (order : Nat) (ho : 3 ≤ order) (he : order % 2 = 0) (hist : List (K × V)) :
    ∃ t bs, run (KeyOps.linear K) (BTree.new order) (inserts hist) = some (t, bs) ∧ bs.length = hist.length ∧
      (∀ p, (p, false) ∈ hist.zip bs → (p, true) ∈ hist.zip bs) ∧
      (∀ s e incl, ∃ r, t.scanRange (KeyOps.linear K) s e incl = some r ∧
        ListsDup r ((((hist.zip bs).filter (·.2)).map (·.1)).filter fun x => inRange s e incl x.1)) ∧
      (∃ r, t.scanFull = some r ∧ ListsDup r (((hist.zip bs).filter (·.2)).map (·.1))) := by
  have main : ∀ (l : List (K × V)) (t : BTree K V), Inv false t →
      ∃ t' bs, run (KeyOps.linear K) t (inserts l) = some (t', bs) ∧ bs.length = l.length ∧ Inv false t' ∧
        t'.root.entries.Perm (t.root.entries ++ ((l.zip bs).filter (·.2)).map (·.1)) ∧
        (∀ p, (p, false) ∈ l.zip bs → p ∈ t.root.entries ∨ (p, true) ∈ l.zip bs) := by
    intro l
    induction l with
    | nil => intro t hi; exact ⟨t, [], rfl, rfl, hi, by simp, by simp⟩
    | cons x l ih =>
      intro t hi
      obtain ⟨k, v⟩ := x
      obtain ⟨t1, r, h1, h2, h3, _, h4⟩ := insert_ok hi k v (by simp)
      obtain ⟨t', bs, g1, g2, g3, g4, g5⟩ := ih t1 h2
      refine ⟨t', r :: bs, ?_, by simp [g2], g3, ?_, ?_⟩
      · simp only [inserts, List.map_cons, run, h1] at g1 ⊢
        rw [g1]; rfl
      · rcases h4 with ⟨rfl, x, y, h5, h6, _, _⟩ | ⟨rfl, h5, hm⟩
        · refine g4.trans ?_
          simp only [List.zip_cons_cons, List.filter_cons_of_pos, List.map_cons]
          refine List.Perm.trans (List.Perm.append_right _ (h6 ▸ perm_insert h5 (List.Perm.refl _))) ?_
          simp
        · rw [h5] at g4
          simpa using g4
      · intro p hp
        simp only [List.zip_cons_cons, List.mem_cons, Prod.mk.injEq] at hp ⊢
        rcases h4 with ⟨rfl, x, y, h5, h6, _, _⟩ | ⟨rfl, h5, hm⟩
        · rcases hp with ⟨_, hp⟩ | hp
          · cases hp
          · rcases g5 p hp with h | h
            · rw [h6, List.mem_append, List.mem_cons] at h
              rw [h5, List.mem_append]
              rcases h with h | h | h
              · exact .inl (.inl h)
              · exact .inr (.inl ⟨h, rfl⟩)
              · exact .inl (.inr h)
            · exact .inr (.inr h)
        · rcases hp with ⟨hp, _⟩ | hp
          · subst hp; exact .inl hm
          · rcases g5 p hp with h | h
            · rw [h5] at h; exact .inl h
            · exact .inr (.inr h)
  obtain ⟨t', bs, g1, g2, g3, g4, g5⟩ := main hist (BTree.new order) (inv_new ho (.inr (by omega)))
  have e0 : (BTree.new order : BTree K V).root.entries = [] := by simp [BTree.new, Tree.entries, Tree.leaves, entriesOf]
  rw [e0] at g4 g5
  simp only [List.nil_append] at g4
  have hs := g3.srt.ents
  simp only [Bool.false_eq_true, if_false] at hs
  refine ⟨t', bs, g1, g2, ?_, fun s e incl => ⟨_, scanRange_ok g3 s e incl, g4.filter _, hs.filter _⟩, _, scanFull_ok g3, g4, hs⟩
  intro p hp
  rcases g5 p hp with h | h
  · simp at h
  · exact h

/-! ### C23 -/

theorem depths_ok {o q : Nat} : ∀ {h : Nat} {hi : Option K} {t : Tree K V}, Ok o q h hi t → ∀ d ∈ t.depths, d = h
  | 0, _, .leaf _ _ _, _, d, hd => by simpa [Tree.depths] using hd
  | 0, _, .node _ _, hh, _, _ => hh.elim
  | _ + 1, _, .leaf _ _ _, hh, _, _ => hh.elim
  | h + 1, hi, .node ks cs, hh, d, hd => by
    have hc : ∀ c ∈ cs, ∀ d ∈ c.depths, d = h := by
      intro c hc
      obtain ⟨b, hb⟩ := OkL_mem hh.2.2 c hc
      exact depths_ok hb
    simp only [Tree.depths] at hd
    clear hh
    induction cs with
    | nil => simp [depthsL] at hd
    | cons c cs ih =>
      simp only [depthsL, List.mem_append, List.mem_map] at hd
      rcases hd with ⟨x, hx, rfl⟩ | hd
      · rw [hc c (by simp) x hx]
      · exact ih hd (fun c hc' => hc c (by simp [hc']))

theorem node_ok {o q : Nat} {d : Bool} {x : Tree K V} : ∀ {t : Tree K V}, Node x t → ∀ {h : Nat} {lo hi : Option K},
    Ok o q h hi t → Srt d (bound lo ++ t.items ++ bound hi) →
    ∃ h lo hi, Ok o q h hi x ∧ Srt d (bound lo ++ x.items ++ bound hi) := by
  intro t hn
  induction hn with
  | self => intro h lo hi h1 h2; exact ⟨_, _, _, h1, h2⟩
  | child hm _ ih =>
    rename_i c ks cs _
    intro h lo hi h1 h2
    cases h with
    | zero => exact h1.elim
    | succ h =>
    obtain ⟨h3, h4, h5⟩ := h1
    obtain ⟨i, hi1, hget⟩ := List.getElem_of_mem hm
    obtain ⟨ks1, ks2, cs1, c', cs2, rfl, rfl, g1, g2, g3⟩ := split_at (OkL_length h5) hi1
    subst g1
    have : c' = c := by rw [← hget]; simp
    subst this
    rw [OkL_append _ _ g2.symm, OkL_cons] at h5
    exact ih h5.2.1 (node_child g2.symm h5.2.2 h2)

/-- C23: after any sequence of inserts with distinct keys: all leaves are at the same depth; no node has more than `order - 1`
keys; an internal node has one more child than keys, its keys ascend, and the keys below each child are within the separators
around it; the keys of a leaf ascend; and the leaf pointers go through the leaves from left to right. -/
theorem C23_well_formed (order : Nat) (ho : 3 ≤ order) (hist : List (K × V)) (hd : (hist.map (·.1)).Nodup) :
    ∃ t bs, run (KeyOps.linear K) (BTree.new order) (inserts hist) = some (t, bs) ∧
      (∃ h, ∀ d ∈ t.root.depths, d = h) ∧
      (∀ id es next, Node (.leaf id es next) t.root → es.length ≤ order - 1 ∧ es.Pairwise (fun a b => a.1 < b.1)) ∧
      (∀ ks cs, Node (.node ks cs) t.root → ks.length ≤ order - 1 ∧ cs.length = ks.length + 1 ∧ ks.Pairwise (· < ·) ∧
        ∀ i (hi : i < cs.length), ∀ l ∈ cs[i].leaves, ∀ e ∈ l.es,
          (∀ k, 0 < i → ks[i - 1]? = some k → k ≤ e.1) ∧ (∀ k, ks[i]? = some k → e.1 < k)) ∧
      (∀ pre l l' post, t.root.leaves = pre ++ l :: l' :: post → l.next = some l'.id) ∧
      (∀ pre l, t.root.leaves = pre ++ [l] → l.next = none) ∧ (t.root.leaves.map (·.id)).Nodup := by
  obtain ⟨t, h1, h2, hord, _⟩ := run_ok (inserts hist) (BTree.new order) [] (inv_new ho (.inl rfl))
    (by simp [BTree.new, Tree.entries, Tree.leaves, entriesOf]) (fresh_inserts hist [] (by simpa using hd)) (clean_inserts hist _)
  have hord : t.order = order := hord
  obtain ⟨h, hok⟩ := h2.ok
  have hs : Srt true (bound none ++ t.root.items ++ bound none) := by simpa [bound] using h2.srt
  rw [hord] at hok
  refine ⟨t, _, h1, ⟨h, depths_ok hok⟩, ?_, ?_, ?_, ?_, h2.nodup⟩
  · intro id es next hn
    obtain ⟨h', lo, hi, g1, g2⟩ := node_ok hn hok hs
    cases h' with
    | succ => exact g1.elim
    | zero =>
      refine ⟨g1.1, ?_⟩
      have := (List.pairwise_append.1 (List.pairwise_append.1 g2).1).2.1
      have := Srt.ents (d := true) (t := Tree.leaf id es next) this
      simpa [Tree.entries, Tree.leaves, entriesOf] using this
  · intro ks cs hn
    obtain ⟨h', lo, hi, g1, g2⟩ := node_ok hn hok hs
    cases h' with
    | zero => exact g1.elim
    | succ h' =>
    have hlen := OkL_length g1.2.2
    refine ⟨g1.1, hlen, ?_, ?_⟩
    · have g3 := (List.pairwise_append.1 (List.pairwise_append.1 g2).1).2.1
      simp only [Tree.items] at g3
      clear g1 g2 hn
      induction ks generalizing cs with
      | nil => exact List.Pairwise.nil
      | cons k ks ih =>
        match cs, hlen with
        | c :: cs, hlen =>
          simp only [itemsL] at g3
          have g4 := List.pairwise_cons.1 (List.pairwise_append.1 g3).2.1
          refine List.pairwise_cons.2 ⟨?_, ih cs (by simpa using hlen) g4.2⟩
          intro k' hk'
          have := g4.1 (.sep k') (node_sep_mem (by simpa using hlen) hk')
          simpa [Rel, Item.key] using this
    · intro i hi1 l hl e he
      obtain ⟨ks1, ks2, cs1, c', cs2, rfl, rfl, e1, e2, e3⟩ := split_at hlen hi1
      subst e1
      have hc := node_child (P := fun _ _ => True) e2.symm (post_true e3) g2
      have hmem : e ∈ c'.entries := by
        simp only [List.getElem_append_right (Nat.le_refl _), Nat.sub_self, List.getElem_cons_zero] at hl
        exact List.mem_flatMap.2 ⟨l, hl, he⟩
      have hit := ent_mem_items hmem
      constructor
      · intro k hpos hk
        rcases List.eq_nil_or_concat ks1 with rfl | ⟨ka, k', rfl⟩
        · simp at e2; omega
        · rw [List.concat_eq_append] at *
          have hlast : k' = k := by
            have : cs1.length - 1 = ka.length := by simp at e2; omega
            rw [this, List.append_assoc, List.singleton_append, get_mid] at hk
            exact Option.some.inj hk
          subst hlast
          have : loOf lo (ka ++ [k']) = some k' := by simp [loOf]
          rw [this] at hc
          have := (List.pairwise_append.1 (List.pairwise_append.1 hc).1).2.2 (.sep k') (by simp [bound]) _ hit
          exact this
      · intro k hk
        cases ks2 with
        | nil => rw [List.append_nil, List.getElem?_eq_none (by omega)] at hk; cases hk
        | cons k2 ks2 =>
          rw [← e2, get_mid] at hk
          cases hk
          rw [List.append_assoc] at hc
          exact srt_items_lt (a := c'.items) (hi := some k) (List.pairwise_append.1 hc).2.1 _ hit k rfl
  · intro pre l l' post hl
    have := h2.link
    rw [hl] at this
    exact (linked_append.1 this).2.1
  · intro pre l hl
    have := h2.link
    rw [hl] at this
    exact (linked_append.1 this).2.1

/-! ### C24 -/

/-- C24 for histories of inserts with new keys and deletes, as long as no rebalancing leaves a node without a separator between
two of its children: each delete answers whether the pair was there and removes exactly it, and scans return exactly what is
left. Missing: the deletes that lose a separator (`C24_delete_fails`). -/
theorem C24_delete_partial (order : Nat) (ho : 3 ≤ order) (ops : List (Op K V)) (hf : Fresh [] ops)
    (hcl : AllClean (BTree.new order) ops) :
    ∃ t, run (KeyOps.linear K) (BTree.new order) ops = some (t, (idealRun [] ops).2) ∧
      (∀ s e incl, ∃ r, t.scanRange (KeyOps.linear K) s e incl = some r ∧
        Lists r ((idealRun [] ops).1.filter fun x => inRange s e incl x.1)) ∧
      (∃ r, t.scanFull = some r ∧ Lists r (idealRun [] ops).1) := by
  obtain ⟨t, h1, h2, _, h3⟩ := run_ok ops (BTree.new order) [] (inv_new ho (.inl rfl))
    (by simp [BTree.new, Tree.entries, Tree.leaves, entriesOf]) hf hcl
  exact ⟨t, h1, scans_of_inv h2 h3⟩

theorem clean_short {o : Nat} : ∀ {p : List Nat} {t : Tree K V}, Shp o 0 t ∨ Shp o 1 t → IsPath p t → clean o p t = true
  | [], _, _, _ => by simp [clean]
  | _ :: _, .leaf _ _ _, _, h => h.elim
  | i :: p, .node ks cs, hsh, hp => by
    rcases hsh with hsh | hsh
    · exact hsh.elim
    obtain ⟨c, hi1, hp⟩ := hp
    obtain ⟨_, h2, h3⟩ := hsh
    have hc := h3 c (List.mem_of_getElem? hi1)
    cases c with
    | node => exact hc.elim
    | leaf id es next =>
    cases p with
    | cons => exact hp.elim
    | nil =>
    have hlt : i < cs.length := by rw [List.getElem?_eq_some_iff] at hi1; exact hi1.1
    have hset : cs.set i (.leaf id es next) = cs := by
      rw [List.getElem?_eq_some_iff] at hi1
      obtain ⟨_, hi1⟩ := hi1
      rw [← hi1]; exact List.set_getElem_self hlt
    simp only [clean, hi1, rebalance, hset, Bool.true_and]
    have merge : ∀ j, j + 1 < cs.length → ∀ r, mergeAt ks cs j = some r → r.2.1.length = r.1.length + 1 := by
      intro j hj r hr
      unfold mergeAt at hr
      have g1 := List.getElem?_eq_getElem (show j < cs.length by omega)
      have g2 := List.getElem?_eq_getElem hj
      have c1 := h3 _ (List.getElem_mem (show j < cs.length by omega))
      have c2 := h3 _ (List.getElem_mem hj)
      rw [g1, g2] at hr
      cases hx : cs[j] with
      | node => rw [hx] at c1; exact c1.elim
      | leaf a b d =>
      cases hy : cs[j + 1] with
      | node => rw [hy] at c2; exact c2.elim
      | leaf a' b' d' =>
        rw [hx, hy] at hr
        cases hr
        simp only [List.length_eraseIdx, List.length_set]
        rw [if_pos hj, if_pos (by omega)]
        omega
    have bl : ∀ r, borrowLeft ks cs i = some r → r.2.length = r.1.length + 1 := by
      intro r hr
      unfold borrowLeft at hr
      split at hr
      · split at hr
        · cases hr
        · split at hr
          · cases hr; simp [h2]
          · cases hr
      · split at hr
        · cases hr; simp [h2]
        · cases hr
      · cases hr
    have br : ∀ r, borrowRight ks cs i = some r → r.2.length = r.1.length + 1 := by
      intro r hr
      unfold borrowRight at hr
      split at hr
      · split at hr
        · split at hr
          · cases hr; simp [h2]
          · cases hr
        · cases hr
      · split at hr
        · cases hr; simp [h2]
        · cases hr
      · cases hr
    cases hr : rebalanceStep o ks cs i with
    | none => rfl
    | some r =>
      simp only [decide_eq_true_eq]
      unfold rebalanceStep at hr
      rw [hi1] at hr
      simp only at hr
      split at hr
      · cases hr; exact h2
      split at hr
      · rw [Option.map_eq_some_iff] at hr
        obtain ⟨a, ha, rfl⟩ := hr
        exact bl a ha
      split at hr
      · rw [Option.map_eq_some_iff] at hr
        obtain ⟨a, ha, rfl⟩ := hr
        exact br a ha
      split at hr
      · rw [Option.map_eq_some_iff] at hr
        obtain ⟨a, ha, rfl⟩ := hr
        exact merge (i - 1) (by omega) a ha
      split at hr
      · rw [Option.map_eq_some_iff] at hr
        obtain ⟨a, ha, rfl⟩ := hr
        exact merge i (by omega) a ha
      · cases hr; exact h2

/-- The guard of `C24_delete_partial` holds for every delete from a tree with at most one level above the leaves, so a delete
from such a tree (filled by any inserts with distinct keys) is right without any further condition. -/
theorem C24_delete_two_levels_partial (order : Nat) (ho : 3 ≤ order) (hist : List (K × V)) (hd : (hist.map (·.1)).Nodup)
    (k : K) (v : V) :
    ∃ t bs, run (KeyOps.linear K) (BTree.new order) (inserts hist) = some (t, bs) ∧
      ((∀ d ∈ t.root.depths, d ≤ 1) →
        ∃ t', t.delete (KeyOps.linear K) k v = some (t', decide ((k, v) ∈ hist)) ∧
          (∀ s e incl, ∃ r, t'.scanRange (KeyOps.linear K) s e incl = some r ∧
            Lists r ((hist.erase (k, v)).filter fun x => inRange s e incl x.1)) ∧
          (∃ r, t'.scanFull = some r ∧ Lists r (hist.erase (k, v)))) := by
  obtain ⟨t, h1, h2, hord, h3⟩ := run_ok (inserts hist) (BTree.new order) [] (inv_new ho (.inl rfl))
    (by simp [BTree.new, Tree.entries, Tree.leaves, entriesOf]) (fresh_inserts hist [] (by simpa using hd)) (clean_inserts hist _)
  rw [ideal_inserts] at h3
  simp only [List.nil_append] at h3
  refine ⟨t, _, h1, ?_⟩
  intro hdep
  obtain ⟨h, hok⟩ := h2.ok
  have hsh := shp_of_ok hok
  have hh : h ≤ 1 := by
    have ne : ∀ {h : Nat} {x : Tree K V}, Shp t.order h x → ∃ d, d ∈ x.depths := by
      intro h
      induction h with
      | zero =>
        intro x hx
        cases x with
        | node => exact hx.elim
        | leaf => exact ⟨0, by simp [Tree.depths]⟩
      | succ h ih =>
        intro x hx
        cases x with
        | leaf => exact hx.elim
        | node ks cs =>
          cases cs with
          | nil => have := hx.2.1; simp at this
          | cons c cs =>
            obtain ⟨d, hd⟩ := ih (hx.2.2 c (by simp))
            exact ⟨d + 1, by simp [Tree.depths, depthsL, hd]⟩
    obtain ⟨d, hd⟩ := ne hsh
    have := depths_ok hok d hd
    have := hdep d hd
    omega
  have hs : Srt true (bound none ++ t.root.items ++ bound none) := by simpa [bound] using h2.srt
  have hclean : t.deleteClean (KeyOps.linear K) k v = true := by
    unfold BTree.deleteClean
    rw [height_ok hok]
    rcases search_ok k v h hsh hs with ⟨p, j, g1, g2⟩ | ⟨g1, g2⟩
    · rw [g1]
      obtain ⟨t', n, r1, r2, _, r4, _⟩ := removeAt_ok p hsh hs g2
      simp only [r1]
      split
      · refine clean_short ?_ r4
        have : h = 0 ∨ h = 1 := by omega
        rcases this with rfl | rfl
        · exact .inl r2
        · exact .inr r2
      · rfl
    · rw [g1]
  have hrun := run_ok [.del k v] t hist h2 h3 ⟨trivial, trivial⟩ ⟨hclean, fun _ _ _ => trivial⟩
  obtain ⟨t', g1, g2, _, g4⟩ := hrun
  refine ⟨t', ?_, scans_of_inv g2 g4⟩
  simp only [run, idealRun, ideal] at g1
  cases hdel : t.delete (KeyOps.linear K) k v with
  | none => rw [hdel] at g1; cases g1
  | some x =>
    rw [hdel] at g1
    simp only [Option.map_some, Option.some.injEq, Prod.mk.injEq, List.cons.injEq, and_true] at g1
    obtain ⟨rfl, g1⟩ := g1
    rw [← g1]

end

/-! ### Instances and failures -/

/-- Keys as SQL values that may be NULL: no comparison with NULL is true. -/
def KeyOps.nullable : KeyOps (Option Int) :=
  let f (p : Int → Int → Bool) (a b : Option Int) : Bool := match a, b with | some x, some y => p x y | _, _ => false
  { lt := f fun x y => decide (x < y), gt := f fun x y => decide (y < x), eq := f fun x y => decide (x = y),
    ge := f fun x y => decide (y ≤ x) }

/-- 0..n-1 in ascending order. -/
def ascending (n : Nat) : List (Int × Nat) := (List.range n).map fun i => (Int.ofNat i, i)

/-- The hypotheses of C22 and C23 are met by a history that splits leaves and internal nodes. -/
example : ((ascending 20).map (·.1)).Nodup ∧
    ((run (KeyOps.linear Int) (BTree.new 4) (inserts (ascending 20))).map fun r => r.1.root.height) = some 3 := by
  decide +kernel

/-- The hypotheses of C24 are met by a history whose deletes borrow and merge. -/
example : Fresh (K := Int) (V := Nat) [] (inserts (ascending 8) ++ [.del 0 0, .del 1 1, .del 9 9]) ∧
    ((run (KeyOps.linear Int) (BTree.new 4) (inserts (ascending 8) ++ [.del 0 0, .del 1 1, .del 9 9])).map fun r =>
      (r.1.scanFull, r.2.drop 8)) = some (some [(2, 2), (3, 3), (4, 4), (5, 5), (6, 6), (7, 7)], [true, true, false]) := by
  refine ⟨?_, by decide +kernel⟩
  simp only [ascending, inserts, List.range, List.range.loop, List.map, List.cons_append, List.nil_append, Fresh, ideal]
  decide

/-- C24 does not hold: in the order the catalog uses, after inserting 0 to 8 and deleting 0, the pair with key 4 is in the
index, but deleting it answers `false` and removes nothing. -/
theorem C24_delete_fails :
    ((run (KeyOps.linear Int) (BTree.new 4) (inserts (ascending 9) ++ [.del 0 0, .del 4 4])).map fun r => (r.2.drop 9, r.1.scanFull)) =
      some ([true, false], some [(1, 1), (2, 2), (3, 3), (4, 4), (5, 5), (6, 6), (7, 7), (8, 8)]) := by
  decide +kernel

/-- After the same delete, an insert puts its key at the wrong place: the scan is no longer in order, and the range scan from 4
to 8 returns nothing although all five pairs are there. -/
theorem C24_insert_after_delete_fails :
    ((run (KeyOps.linear Int) (BTree.new 4) (inserts (ascending 9) ++ [.del 0 0, .ins 10 10])).map fun r =>
      (r.1.scanFull, r.1.scanRange (KeyOps.linear Int) 4 8 true)) =
      some (some [(1, 1), (2, 2), (3, 3), (10, 10), (4, 4), (5, 5), (6, 6), (7, 7), (8, 8)], some []) := by
  decide +kernel

/-- With repeated keys the same pair can be stored twice, because the duplicate check looks at one leaf only. -/
theorem C22_same_pair_twice :
    ((run (KeyOps.linear Int) (BTree.new 4) (inserts [(5, 1), (5, 2), (5, 3), (5, 4), (5, 5), (5, 1)])).map fun r => (r.2, r.1.scanFull)) =
      some ([true, true, true, true, true, true], some [(5, 1), (5, 2), (5, 3), (5, 4), (5, 5), (5, 1)]) := by
  decide +kernel

/-- With repeated keys and an odd order, the new node of a split can be put at the wrong place: the scan is out of order. -/
theorem C22_odd_order_repeated_keys_fails :
    ((run (KeyOps.linear Int) (BTree.new 3) (inserts [(1, 12), (1, 11), (0, 10), (0, 9), (2, 8)])).map fun r =>
      (r.1.scanFull, r.1.scanRange (KeyOps.linear Int) 1 1 true)) =
      some (some [(0, 10), (0, 9), (1, 12), (2, 8), (1, 11)], some [(1, 12)]) := by
  decide +kernel

/-- A NULL key is returned by every range scan that comes by. -/
theorem C22_null_key_fails :
    ((run KeyOps.nullable (BTree.new 4) (inserts [(some 1, 1), (none, 2), (some 3, 3)])).map fun r =>
      r.1.scanRange KeyOps.nullable (some 0) (some 9) true) = some (some [(some 1, 1), (none, 2), (some 3, 3)]) := by
  decide +kernel

end Verif.BTree

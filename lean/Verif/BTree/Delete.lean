import Verif.BTree.Scan

/-!
# B+ tree: deletes that keep the shape
-/

namespace Verif.BTree

variable {K V : Type}

/-! ### Guard -/

/-- Every step of the rebalancing along the path leaves a node with one more child than keys. -/
def clean (order : Nat) : List Nat → Tree K V → Bool
  | [], _ => true
  | _ :: _, .leaf _ _ _ => true
  | i :: p, .node keys cs =>
    match cs[i]? with
    | none => true
    | some c =>
      clean order p c &&
      match rebalance order p c with
      | some (c', true, _) =>
        (match rebalanceStep order keys (cs.set i c') i with
        | some r => decide (r.cs.length = r.keys.length + 1)
        | none => true)
      | _ => true

/-- The guard for one delete. -/
def BTree.deleteClean [DecidableEq V] (o : KeyOps K) (t : BTree K V) (key : K) (v : V) : Bool :=
  match search o key v t.root.height t.root with
  | some (some (p, j)) =>
    match removeAt p j t.root with
    | some (r, n) => if n < (t.order - 1) / 2 ∧ p ≠ [] then clean t.order p r else true
    | none => true
  | _ => true

/-! ### Shape -/

/-- Height and capacity. -/
def Shp (o : Nat) : Nat → Tree K V → Prop
  | 0, .leaf _ es _ => es.length ≤ o - 1
  | h + 1, .node ks cs => ks.length ≤ o - 1 ∧ cs.length = ks.length + 1 ∧ ∀ c ∈ cs, Shp o h c
  | _, _ => False

theorem OkL_mem {P : Option K → Tree K V → Prop} {hi : Option K} : ∀ {ks : List K} {cs : List (Tree K V)},
    OkL P hi ks cs → ∀ c ∈ cs, ∃ b, P b c
  | [], [_], h, _, hc => by rw [List.mem_singleton] at hc; subst hc; exact ⟨_, h⟩
  | _ :: ks, _ :: cs, h, c, hc => by
    rw [List.mem_cons] at hc
    rcases hc with rfl | hc
    · exact ⟨_, h.1⟩
    · exact OkL_mem h.2 c hc
  | [], [], h, _, _ => by simp [OkL] at h
  | [], _ :: _ :: _, h, _, _ => by simp [OkL] at h
  | _ :: _, [], h, _, _ => by simp [OkL] at h

theorem shp_of_ok {o q : Nat} : ∀ {h : Nat} {hi : Option K} {t : Tree K V}, Ok o q h hi t → Shp o h t
  | 0, _, .leaf _ _ _, hh => hh.1
  | 0, _, .node _ _, hh => hh.elim
  | _ + 1, _, .leaf _ _ _, hh => hh.elim
  | h + 1, hi, .node ks cs, hh => by
    refine ⟨hh.1, OkL_length hh.2.2, ?_⟩
    intro c hc
    obtain ⟨b, hb⟩ := OkL_mem hh.2.2 c hc
    exact shp_of_ok hb

theorem Shp.height {o : Nat} : ∀ {h : Nat} {t : Tree K V}, Shp o h t → t.height = h
  | 0, .leaf _ _ _, _ => by simp [Tree.height]
  | 0, .node _ _, h => h.elim
  | h + 1, .leaf _ _ _, hh => hh.elim
  | h + 1, .node ks cs, hh => by
    cases cs with
    | nil => have := hh.2.1; simp at this
    | cons c cs => simp [Tree.height, Shp.height (hh.2.2 c (by simp))]

section
variable [LT K] [LE K] [DecidableEq K] [DecidableLT K] [DecidableLE K] [Std.IsLinearOrder K] [Std.LawfulOrderLT K]
set_option linter.unusedSectionVars false

theorem NR_of_lt {q : Nat} {ks : List K} {hi : Option K} (h : ∀ k ∈ ks, ∀ b, hi = some b → k < b) : NR q ks hi := by
  intro b hb _ he
  rw [List.getElem?_eq_some_iff] at he
  obtain ⟨hlt, he⟩ := he
  have := h _ (List.getElem_mem hlt) b hb
  rw [he] at this
  grind

theorem srt_items_lt {a : List (Item K)} {hi : Option K} (h : Srt true (a ++ bound hi)) :
    ∀ x ∈ a, ∀ b, hi = some b → x.key < b := by
  intro x hx b hb
  have := (List.pairwise_append.1 h).2.2 x hx (.sep b) (bound_mem hb)
  cases x <;> simpa [Rel, Item.key] using this

theorem node_sep_mem {ks : List K} {cs : List (Tree K V)} (h : cs.length = ks.length + 1) {k : K} (hk : k ∈ ks) :
    Item.sep k ∈ itemsL cs ks := by
  obtain ⟨a, b, rfl⟩ := List.append_of_mem hk
  rw [← List.take_append_drop (a.length + 1) cs]
  have : a ++ k :: b = (a ++ [k]) ++ b := by simp
  rw [this, itemsL_append _ _ _ _ (by simp at h ⊢; omega), List.mem_append]
  left
  exact sep_mem_pre (by simp at h ⊢; omega) (by simp)

/-- With distinct keys the shape is all that is needed. -/
theorem ok_of_shp {o q : Nat} : ∀ {h : Nat} {hi : Option K} {t : Tree K V}, Shp o h t → Srt true (t.items ++ bound hi) →
    Ok o q h hi t
  | 0, _, .leaf _ _ _, hh, hs => ⟨hh, NR_of_lt fun k hk b hb => by
      rw [List.mem_map] at hk
      obtain ⟨e, he, rfl⟩ := hk
      exact srt_items_lt hs (.ent e.1) (List.mem_map.2 ⟨e, he, rfl⟩) b hb⟩
  | 0, _, .node _ _, hh, _ => hh.elim
  | _ + 1, _, .leaf _ _ _, hh, _ => hh.elim
  | h + 1, hi, .node ks cs, hh, hs => by
    refine ⟨hh.1, NR_of_lt ?_, ?_⟩
    · intro k hk b hb
      exact srt_items_lt hs (.sep k) (node_sep_mem hh.2.1 hk) b hb
    · obtain ⟨_, h2, h3⟩ := hh
      simp only [Tree.items] at hs
      clear ‹ks.length ≤ o - 1›
      induction ks generalizing cs with
      | nil =>
        match cs, h2 with
        | [c], _ =>
          simp only [itemsL, List.append_nil] at hs
          exact ok_of_shp (h3 c (by simp)) hs
      | cons k ks ih =>
        match cs, h2 with
        | c :: cs, h2 =>
          rw [itemsL] at hs
          refine ⟨ok_of_shp (h3 c (by simp)) ?_, ih cs ?_ (by simpa using h2) (fun c' hc' => h3 c' (by simp [hc']))⟩
          · refine List.Pairwise.sublist ?_ hs
            rw [List.append_assoc]
            refine List.Sublist.append (List.Sublist.refl _) ?_
            simp [bound]
          · rw [List.append_assoc] at hs
            have := (List.pairwise_append.1 hs).2.1
            simp only [List.cons_append] at this
            exact (List.pairwise_cons.1 this).2

/-! ### One child, with the shape only -/

theorem post_true {hi : Option K} : ∀ {ks2 : List K} {cs2 : List (Tree K V)}, cs2.length = ks2.length →
    PostL (fun _ _ => True) hi ks2 cs2
  | [], [], _ => rfl
  | _ :: ks, cs, h => by
    simp only [PostL]
    induction ks generalizing cs with
    | nil =>
      match cs, h with
      | [c], _ => simp [OkL]
    | cons k ks ih =>
      match cs, h with
      | c :: cs, h => exact ⟨trivial, ih cs (by simp at h ⊢; omega)⟩
  | [], _ :: _, h => by simp at h

/-- Splitting a node's keys and children at a child. -/
theorem split_at {keys : List K} {cs : List (Tree K V)} (h : cs.length = keys.length + 1) {i : Nat} (hi : i < cs.length) :
    ∃ ks1 ks2 cs1 c cs2, keys = ks1 ++ ks2 ∧ cs = cs1 ++ c :: cs2 ∧ cs1.length = i ∧ ks1.length = i ∧ cs2.length = ks2.length := by
  refine ⟨keys.take i, keys.drop i, cs.take i, cs[i], cs.drop (i + 1), (List.take_append_drop _ _).symm, ?_, ?_, ?_, ?_⟩
  · rw [← List.drop_eq_getElem_cons hi, List.take_append_drop]
  · rw [List.length_take]; omega
  · rw [List.length_take]; omega
  · rw [List.length_drop, List.length_drop]; omega

/-- A path of child indices that leads to a leaf. -/
def IsPath : List Nat → Tree K V → Prop
  | [], .leaf _ _ _ => True
  | [], .node _ _ => False
  | _ :: _, .leaf _ _ _ => False
  | i :: p, .node _ cs => ∃ c, cs[i]? = some c ∧ IsPath p c

/-- The entry at a path and a position. -/
def At (e : K × V) (j : Nat) : List Nat → Tree K V → Prop
  | [], .leaf _ es _ => es[j]? = some e
  | [], .node _ _ => False
  | _ :: _, .leaf _ _ _ => False
  | i :: p, .node _ cs => ∃ c, cs[i]? = some c ∧ At e j p c

/-! ### Search -/

section
variable [DecidableEq V]

theorem At.mem {e : K × V} {j : Nat} : ∀ {p : List Nat} {t : Tree K V}, At e j p t → e ∈ t.entries
  | [], .leaf _ es _, h => by
    simp only [At] at h
    simpa [Tree.entries, Tree.leaves, entriesOf] using List.mem_of_getElem? h
  | [], .node _ _, h => h.elim
  | _ :: _, .leaf _ _ _, h => h.elim
  | i :: p, .node ks cs, h => by
    obtain ⟨c, h1, h2⟩ := h
    have := At.mem h2
    obtain ⟨a, b, rfl⟩ := List.append_of_mem (List.mem_of_getElem? h1)
    simp only [Tree.entries, Tree.leaves, leavesL_append, leavesL, entriesOf_append, List.mem_append] at this ⊢
    exact .inr (.inl this)

theorem mem_entries_node {ks : List K} {cs : List (Tree K V)} {e : K × V} (h : e ∈ (Tree.node ks cs).entries) :
    ∃ (i : Nat) (c : Tree K V), cs[i]? = some c ∧ e ∈ c.entries := by
  simp only [Tree.entries, Tree.leaves] at h
  induction cs with
  | nil => simp [leavesL, entriesOf] at h
  | cons c cs ih =>
    simp only [leavesL, entriesOf_append, List.mem_append] at h
    rcases h with h | h
    · exact ⟨0, c, rfl, h⟩
    · obtain ⟨i, c', h1, h2⟩ := ih h
      exact ⟨i + 1, c', by simpa using h1, h2⟩

theorem candidates_lt {keys : List K} {n : Nat} {key : K} (hn : n = keys.length + 1) :
    ∀ i ∈ candidates (KeyOps.linear K) keys n key, i < n := by
  intro i hi
  unfold candidates at hi
  simp only at hi
  have aux : ∀ i ∈ (keys.zipIdx).flatMap (fun (x : K × Nat) => if (KeyOps.linear K).gt x.1 key then [x.2]
      else if (KeyOps.linear K).eq x.1 key then [x.2, x.2 + 1] else []), i < n := by
    intro i hi
    rw [List.mem_flatMap] at hi
    obtain ⟨⟨k, m⟩, hm, hi⟩ := hi
    have hlt := List.snd_lt_of_mem_zipIdx hm
    simp only at hi hlt
    split at hi
    · simp at hi; omega
    · split at hi
      · simp at hi; omega
      · simp at hi
  split at hi
  · exact aux i hi
  · rw [List.mem_append, List.mem_singleton] at hi
    rcases hi with hi | hi
    · exact aux i hi
    · omega

theorem candidates_gt {keys : List K} {n : Nat} {key : K} {i : Nat} {k : K} (hk : keys[i]? = some k) (hgt : key < k) :
    i ∈ candidates (KeyOps.linear K) keys n key := by
  have h1 : i ∈ (keys.zipIdx).flatMap (fun (x : K × Nat) => if (KeyOps.linear K).gt x.1 key then [x.2]
      else if (KeyOps.linear K).eq x.1 key then [x.2, x.2 + 1] else []) := by
    rw [List.mem_flatMap]
    refine ⟨(k, i), ?_, ?_⟩
    · rw [List.mem_zipIdx_iff_getElem?]; exact hk
    · have : (KeyOps.linear K).gt k key = true := by simp [KeyOps.linear, hgt]
      simp only [this, if_true]; simp
  unfold candidates
  simp only
  split
  · exact h1
  · exact List.mem_append.2 (.inl h1)

theorem candidates_last {keys : List K} {n : Nat} {key : K} : n - 1 ∈ candidates (KeyOps.linear K) keys n key := by
  unfold candidates
  simp only
  split
  · next h => simpa [List.contains_iff_mem] using h
  · simp

theorem search_ok {o : Nat} (key : K) (v : V) : ∀ (h : Nat) {lo hi : Option K} {t : Tree K V}, Shp o h t →
    Srt true (bound lo ++ t.items ++ bound hi) →
    (∃ p j, search (KeyOps.linear K) key v h t = some (some (p, j)) ∧ At (key, v) j p t) ∨
    (search (KeyOps.linear K) key v h t = some none ∧ (key, v) ∉ t.entries) := by
  intro h
  induction h with
  | zero =>
    intro lo hi t hc hs
    cases t with
    | node ks cs => exact hc.elim
    | leaf id es next =>
      simp only [search]
      cases hf : es.findIdx? (fun e => (KeyOps.linear K).eq e.1 key && decide (e.2 = v)) with
      | some j =>
        left
        refine ⟨[], j, rfl, ?_⟩
        rw [List.findIdx?_eq_some_iff_getElem] at hf
        obtain ⟨h1, h2, _⟩ := hf
        simp only [KeyOps.linear, Bool.and_eq_true, decide_eq_true_eq] at h2
        simp only [At]
        rw [List.getElem?_eq_getElem h1]
        exact congrArg some (Prod.ext h2.1 h2.2)
      | none =>
        right
        refine ⟨rfl, ?_⟩
        intro hm
        have hm : (key, v) ∈ es := by simpa [Tree.entries, Tree.leaves, entriesOf] using hm
        rw [List.findIdx?_eq_none_iff] at hf
        have := hf _ hm
        simp [KeyOps.linear] at this
  | succ h ih =>
    intro lo hi t hc hs
    cases t with
    | leaf id es next => exact hc.elim
    | node keys cs =>
      obtain ⟨hc1, hc2, hc3⟩ := hc
      have child : ∀ (i : Nat) (c : Tree K V), cs[i]? = some c →
          (∃ p j, search (KeyOps.linear K) key v h c = some (some (p, j)) ∧ At (key, v) j p c) ∨
          (search (KeyOps.linear K) key v h c = some none ∧ (key, v) ∉ c.entries) := by
        intro i c hi1
        have hlt : i < cs.length := by rw [List.getElem?_eq_some_iff] at hi1; exact hi1.1
        obtain ⟨ks1, ks2, cs1, c', cs2, rfl, rfl, h1, h2, h3⟩ := split_at hc2 hlt
        subst h1
        rw [get_mid] at hi1
        cases hi1
        exact ih (hc3 _ (by simp)) (node_child h2.symm (post_true h3) hs)
      -- the loop over candidates
      have loop : ∀ l : List Nat, (∀ i ∈ l, i < cs.length) →
          (∃ p j, tryAll (fun i => match cs[i]? with
              | none => none
              | some c => (search (KeyOps.linear K) key v h c).map (·.map fun r => (i :: r.1, r.2))) l = some (some (p, j)) ∧ At (key, v) j p (.node keys cs)) ∨
          (tryAll (fun i => match cs[i]? with
              | none => none
              | some c => (search (KeyOps.linear K) key v h c).map (·.map fun r => (i :: r.1, r.2))) l = some none ∧ ∀ i ∈ l, ∀ c, cs[i]? = some c → (key, v) ∉ c.entries) := by
        intro l
        induction l with
        | nil => intro _; right; simp [tryAll]
        | cons i l ihl =>
          intro hl
          have hlt := hl i (by simp)
          have hget : cs[i]? = some cs[i] := List.getElem?_eq_getElem hlt
          simp only [tryAll, hget]
          rcases child i _ hget with ⟨p, j, h1, h2⟩ | ⟨h1, h2⟩
          · left
            rw [h1]
            exact ⟨i :: p, j, rfl, cs[i], hget, h2⟩
          · rw [h1]
            simp only [Option.map_some, Option.map_none]
            rcases ihl (fun i hi => hl i (by simp [hi])) with ⟨p, j, h3, h4⟩ | ⟨h3, h4⟩
            · left; exact ⟨p, j, h3, h4⟩
            · right
              refine ⟨h3, ?_⟩
              intro i' hi' c hc
              rw [List.mem_cons] at hi'
              rcases hi' with rfl | hi'
              · rw [hget] at hc; cases hc; exact h2
              · exact h4 i' hi' c hc
      simp only [search]
      have hcl := candidates_lt (keys := keys) (n := cs.length) (key := key) hc2
      rcases loop _ (fun i hi => hcl i (List.mem_reverse.1 hi)) with h | ⟨h1, h2⟩
      · left; exact h
      · right
        refine ⟨h1, ?_⟩
        intro hm
        obtain ⟨i, c, hi1, hm2⟩ := mem_entries_node hm
        have hlt : i < cs.length := by rw [List.getElem?_eq_some_iff] at hi1; exact hi1.1
        refine h2 i ?_ c hi1 hm2
        rw [List.mem_reverse]
        obtain ⟨ks1, ks2, cs1, c', cs2, rfl, rfl, g1, g2, g3⟩ := split_at hc2 hlt
        subst g1
        rw [get_mid] at hi1
        cases hi1
        cases ks2 with
        | nil =>
          have : cs2 = [] := by simpa using g3
          subst this
          have := candidates_last (keys := ks1 ++ []) (n := (cs1 ++ [c]).length) (key := key)
          simpa using this
        | cons k ks2 =>
          refine candidates_gt (k := k) (by rw [← g2]; simp) ?_
          have hs' := node_child (P := fun _ _ => True) g2.symm (post_true g3) hs
          rw [List.append_assoc] at hs'
          have hs' := (List.pairwise_append.1 hs').2.1
          exact srt_items_lt (hi := some k) (a := c.items) hs' (.ent key) (ent_mem_items hm2) k rfl

end

/-! ### Removing -/

theorem removeAt_ok {o : Nat} {e : K × V} {j : Nat} : ∀ (p : List Nat) {h : Nat} {lo hi : Option K} {t : Tree K V}, Shp o h t →
    Srt true (bound lo ++ t.items ++ bound hi) → At e j p t →
    ∃ t' n, removeAt p j t = some (t', n) ∧ Shp o h t' ∧ Srt true (bound lo ++ t'.items ++ bound hi) ∧ IsPath p t' ∧
      (∀ f, LeafStep f f t.leaves t'.leaves) ∧ ∃ a b, t.entries = a ++ e :: b ∧ t'.entries = a ++ b := by
  intro p
  induction p with
  | nil =>
    intro h lo hi t hc hs ha
    cases t with
    | node ks cs => exact ha.elim
    | leaf id es next =>
      cases h with
      | succ h => exact hc.elim
      | zero =>
      simp only [At] at ha
      have hlt : j < es.length := by rw [List.getElem?_eq_some_iff] at ha; exact ha.1
      have hes : es = es.take j ++ e :: es.drop (j + 1) := by
        have := List.take_append_drop j es
        rw [List.drop_eq_getElem_cons hlt] at this
        rw [List.getElem?_eq_getElem hlt] at ha
        cases ha
        exact this.symm
      have her : es.eraseIdx j = es.take j ++ es.drop (j + 1) := by rw [List.eraseIdx_eq_take_drop_succ]
      refine ⟨_, _, rfl, ?_, ?_, trivial, ?_, es.take j, es.drop (j + 1), ?_, ?_⟩
      · have hc : es.length ≤ o - 1 := hc
        show (es.eraseIdx j).length ≤ o - 1
        rw [List.length_eraseIdx]; split <;> omega
      · refine List.Pairwise.sublist ?_ hs
        refine List.Sublist.append (List.Sublist.append (List.Sublist.refl _) ?_) (List.Sublist.refl _)
        simp only [Tree.items]
        exact (List.eraseIdx_sublist es j).map _
      · intro f
        simp only [Tree.leaves]
        exact ⟨Nat.le_refl _, fun _ => rfl, fun n h => h, fun i hi => .inl hi, fun _ h => h⟩
      · simpa [Tree.entries, Tree.leaves, entriesOf] using hes
      · simpa [Tree.entries, Tree.leaves, entriesOf] using her
  | cons i p ih =>
    intro h lo hi t hc hs ha
    cases t with
    | leaf id es next => exact ha.elim
    | node keys cs =>
      cases h with
      | zero => exact hc.elim
      | succ h =>
      obtain ⟨hc1, hc2, hc3⟩ := hc
      obtain ⟨c, hi1, ha⟩ := ha
      have hlt : i < cs.length := by rw [List.getElem?_eq_some_iff] at hi1; exact hi1.1
      obtain ⟨ks1, ks2, cs1, c', cs2, rfl, rfl, g1, g2, g3⟩ := split_at hc2 hlt
      subst g1
      rw [get_mid] at hi1
      cases hi1
      obtain ⟨t', n, r1, r2, r3, r4, r5, a, b, r6, r7⟩ := ih (hc3 _ (List.mem_append.2 (.inr List.mem_cons_self))) (node_child g2.symm (post_true g3) hs) ha
      simp only [removeAt, get_mid, r1, Option.map_some, set_mid]
      refine ⟨_, _, rfl, ⟨hc1, by simp at hc2 ⊢; omega, ?_⟩, ?_, ⟨t', get_mid _ _ _, r4⟩, ?_,
        entriesOf (leavesL cs1) ++ a, b ++ entriesOf (leavesL cs2), ?_, ?_⟩
      · intro c hc
        rw [List.mem_append, List.mem_cons] at hc
        rcases hc with hc | rfl | hc
        · exact hc3 c (by simp [hc])
        · exact r2
        · exact hc3 c (by simp [hc])
      · rw [node_items g2.symm]
        exact node_replace g2.symm (post_true g3) hs r3
      · intro f
        have := (r5 f).frame (leavesL cs1) (leavesL cs2)
        simpa [Tree.leaves, leavesL_append, leavesL] using this
      · simp only [Tree.entries, Tree.leaves, leavesL_append, leavesL, entriesOf_append] at r6 ⊢
        rw [r6]; simp
      · simp only [Tree.entries, Tree.leaves, leavesL_append, leavesL, entriesOf_append] at r7 ⊢
        rw [r7]; simp

/-! ### Rebalancing -/

/-- What rebalancing keeps of a subtree. -/
structure Reb (o h : Nat) (lo hi : Option K) (t t' : Tree K V) : Prop where
  shp : Shp o h t'
  srt : Srt true (bound lo ++ t'.items ++ bound hi)
  leaves : ∀ f, LeafStep f f t.leaves t'.leaves
  entries : t'.entries = t.entries

/-- Splitting a node at two neighbouring children. -/
theorem split_at2 {keys : List K} {cs : List (Tree K V)} (h : cs.length = keys.length + 1) {i : Nat} (hi : i + 1 < cs.length) :
    ∃ ks1 s ks2 cs1 l r cs2, keys = ks1 ++ s :: ks2 ∧ cs = cs1 ++ l :: r :: cs2 ∧ cs1.length = i ∧ ks1.length = i ∧
      cs2.length = ks2.length := by
  obtain ⟨ks1, ks2, cs1, l, cs2, rfl, rfl, h1, h2, h3⟩ := split_at h (i := i) (by omega)
  cases ks2 with
  | nil =>
    have : cs2 = [] := by simpa using h3
    subst this
    simp at hi; omega
  | cons s ks2 =>
    cases cs2 with
    | nil => simp at h3
    | cons r cs2 => exact ⟨ks1, s, ks2, cs1, l, r, cs2, rfl, rfl, h1, h2, by simpa using h3⟩

theorem pair_items {cs1 : List (Tree K V)} {ks1 : List K} (h : cs1.length = ks1.length) (s : K) (l r : Tree K V)
    (cs2 : List (Tree K V)) (ks2 : List K) (lo hi : Option K) :
    bound lo ++ (Tree.node (ks1 ++ s :: ks2) (cs1 ++ l :: r :: cs2)).items ++ bound hi =
      (bound lo ++ itemsL cs1 ks1) ++ (l.items ++ .sep s :: r.items) ++ (afterHead ks2 cs2 ++ bound hi) := by
  rw [node_items h]
  simp [afterHead, itemsL_cons]

theorem swapL {a b : List (Item K)} {x e s : K} (h : Srt true (a ++ .ent x :: .ent e :: .sep s :: b)) :
    Srt true (a ++ .ent x :: .sep e :: .ent e :: b) := by
  unfold Srt at *
  simp only [List.pairwise_append, List.pairwise_cons, List.mem_cons] at h ⊢
  obtain ⟨h1, ⟨h2, h3, h4, h5⟩, h6⟩ := h
  refine ⟨h1, ⟨?_, ?_, ?_, h5⟩, ?_⟩
  · rintro y (rfl | rfl | hy)
    · have := h2 (.ent e) (.inl rfl); simpa [Rel, Item.key] using this
    · exact h2 _ (.inl rfl)
    · exact h2 _ (.inr (.inr hy))
  · rintro y (rfl | hy)
    · exact Std.le_refl e
    · have := h3 y (.inr hy)
      cases y <;> simp only [Rel, Item.key, if_true] at this ⊢ <;> grind
  · intro y hy; exact h3 y (.inr hy)
  · rintro y hy z (rfl | rfl | rfl | hz)
    · exact h6 y hy _ (.inl rfl)
    · have g1 := h6 y hy (.ent x) (.inl rfl)
      have g2 := h2 (.ent e) (.inl rfl)
      cases y <;> simp only [Rel, Item.key, if_true] at g1 g2 ⊢ <;> grind
    · exact h6 y hy _ (.inr (.inl rfl))
    · exact h6 y hy _ (.inr (.inr (.inr hz)))

theorem swapR {a b : List (Item K)} {e e' s : K} (h : Srt true (a ++ .sep s :: .ent e :: .ent e' :: b)) :
    Srt true (a ++ .ent e :: .sep e' :: .ent e' :: b) := by
  unfold Srt at *
  simp only [List.pairwise_append, List.pairwise_cons, List.mem_cons] at h ⊢
  obtain ⟨h1, ⟨h2, h3, h4, h5⟩, h6⟩ := h
  refine ⟨h1, ⟨?_, ?_, h4, h5⟩, ?_⟩
  · rintro y (rfl | rfl | hy)
    · have := h3 (.ent e') (.inl rfl); simpa [Rel, Item.key] using this
    · exact h3 _ (.inl rfl)
    · exact h3 _ (.inr hy)
  · rintro y (rfl | hy)
    · exact Std.le_refl e'
    · have := h4 y hy
      cases y <;> simp only [Rel, Item.key, if_true] at this ⊢ <;> grind
  · rintro y hy z (rfl | rfl | rfl | hz)
    · exact h6 y hy _ (.inr (.inl rfl))
    · have g1 := h6 y hy (.ent e) (.inr (.inl rfl))
      have g2 := h3 (.ent e') (.inl rfl)
      cases y <;> simp only [Rel, Item.key, if_true] at g1 g2 ⊢ <;> grind
    · exact h6 y hy _ (.inr (.inr (.inl rfl)))
    · exact h6 y hy _ (.inr (.inr (.inr hz)))

/-- Replacing two neighbouring children by two others. -/
theorem pair_shp {o h : Nat} {ks1 ks2 : List K} {s s' : K} {cs1 cs2 : List (Tree K V)} {l r l' r' : Tree K V}
    (hc : Shp o (h + 1) (.node (ks1 ++ s :: ks2) (cs1 ++ l :: r :: cs2))) (hl : Shp o h l') (hr : Shp o h r') :
    Shp o (h + 1) (.node (ks1 ++ s' :: ks2) (cs1 ++ l' :: r' :: cs2)) := by
  obtain ⟨h1, h2, h3⟩ := hc
  refine ⟨by simpa using h1, by simp at h2 ⊢; omega, ?_⟩
  intro c hc
  simp only [List.mem_append, List.mem_cons] at hc
  rcases hc with hc | rfl | rfl | hc
  · exact h3 c (by simp [hc])
  · exact hl
  · exact hr
  · exact h3 c (by simp [hc])

/-- Replacing two neighbouring children by one. -/
theorem merge_shp {o h : Nat} {ks1 ks2 : List K} {s : K} {cs1 cs2 : List (Tree K V)} {l r m : Tree K V}
    (hc : Shp o (h + 1) (.node (ks1 ++ s :: ks2) (cs1 ++ l :: r :: cs2))) (hm : Shp o h m) :
    Shp o (h + 1) (.node (ks1 ++ ks2) (cs1 ++ m :: cs2)) := by
  obtain ⟨h1, h2, h3⟩ := hc
  refine ⟨by simp at h1 ⊢; omega, by simp at h2 ⊢; omega, ?_⟩
  intro c hc
  simp only [List.mem_append, List.mem_cons] at hc
  rcases hc with hc | rfl | hc
  · exact h3 c (by simp [hc])
  · exact hm
  · exact h3 c (by simp [hc])

theorem set_mid2 {A : Type} (a : List A) (x y z : A) (b : List A) : (a ++ x :: y :: b).set (a.length + 1) z = a ++ x :: z :: b := by
  induction a with
  | nil => rfl
  | cons w a ih => simp [ih]

theorem get_mid2 {A : Type} (a : List A) (x y : A) (b : List A) : (a ++ x :: y :: b)[a.length + 1]? = some y := by
  have : a ++ x :: y :: b = (a ++ [x]) ++ y :: b := by simp
  rw [this]
  simp

theorem erase_mid {A : Type} (a : List A) (x : A) (b : List A) : (a ++ x :: b).eraseIdx a.length = a ++ b := by
  induction a with
  | nil => rfl
  | cons w a ih => simp [ih]

theorem erase_mid2 {A : Type} (a : List A) (x y : A) (b : List A) : (a ++ x :: y :: b).eraseIdx (a.length + 1) = a ++ x :: b := by
  have : a ++ x :: y :: b = (a ++ [x]) ++ y :: b := by simp
  rw [this]
  have h := erase_mid (a ++ [x]) y b
  simpa using h

/-- The leaves of two siblings change within the parent. -/
theorem pair_leaves {ks ks' : List K} {cs1 cs2 m m' : List (Tree K V)} {f : Nat} (h : LeafStep f f (leavesL m) (leavesL m')) :
    LeafStep f f (Tree.node ks (cs1 ++ m ++ cs2)).leaves (Tree.node ks' (cs1 ++ m' ++ cs2)).leaves := by
  have := h.frame (leavesL cs1) (leavesL cs2)
  simpa [Tree.leaves, leavesL_append] using this

theorem pair_entries {ks ks' : List K} {cs1 cs2 m m' : List (Tree K V)} (h : entriesOf (leavesL m') = entriesOf (leavesL m)) :
    (Tree.node ks' (cs1 ++ m' ++ cs2)).entries = (Tree.node ks (cs1 ++ m ++ cs2)).entries := by
  simp only [Tree.entries, Tree.leaves, leavesL_append, entriesOf_append, h]

theorem borrowLeft_ok {o h : Nat} {lo hi : Option K} {ks1 ks2 : List K} {s : K} {cs1 cs2 : List (Tree K V)} {l r : Tree K V}
    (hlen : cs1.length = ks1.length) (hc : Shp o (h + 1) (.node (ks1 ++ s :: ks2) (cs1 ++ l :: r :: cs2)))
    (hs : Srt true (bound lo ++ (Tree.node (ks1 ++ s :: ks2) (cs1 ++ l :: r :: cs2)).items ++ bound hi))
    (hrich : l.size > (o - 1) / 2) (hpoor : r.size < (o - 1) / 2) :
    ∃ keys cs, borrowLeft (ks1 ++ s :: ks2) (cs1 ++ l :: r :: cs2) (cs1.length + 1) = some (keys, cs) ∧
      Reb o (h + 1) lo hi (.node (ks1 ++ s :: ks2) (cs1 ++ l :: r :: cs2)) (.node keys cs) := by
  have hcl := hc.2.2 l (by simp)
  have hcr := hc.2.2 r (by simp)
  unfold borrowLeft
  simp only [Nat.add_sub_cancel, get_mid, get_mid2]
  cases h with
  | zero =>
    cases l with
    | node => exact hcl.elim
    | leaf lid les ln =>
    cases r with
    | node => exact hcr.elim
    | leaf rid res rn =>
    simp only [Tree.size] at hrich hpoor
    rcases List.eq_nil_or_concat les with rfl | ⟨les', e, rfl⟩
    · simp at hrich
    rw [List.concat_eq_append] at *
    rcases List.eq_nil_or_concat les' with rfl | ⟨les'', x, rfl⟩
    · simp at hrich; omega
    rw [List.concat_eq_append] at *
    simp only [List.getLast?_append, List.getLast?_singleton, Option.some_or, List.dropLast_concat]
    rw [if_pos (by simp; omega)]
    rw [hlen, set_mid, ← hlen, set_mid, set_mid2]
    refine ⟨_, _, rfl, pair_shp hc ?_ ?_, ?_, ?_, ?_⟩
    · simp only [Shp, List.length_append, List.length_cons, List.length_nil] at hcl ⊢; omega
    · simp only [Shp, List.length_cons] at hcr ⊢; omega
    · rw [pair_items hlen] at hs ⊢
      have := swapL (a := (bound lo ++ itemsL cs1 ks1) ++ les''.map fun e => Item.ent e.1) (x := x.1) (e := e.1) (s := s)
        (b := (res.map fun e => Item.ent e.1) ++ (afterHead ks2 cs2 ++ bound hi)) (by simpa [Tree.items] using hs)
      simpa [Tree.items] using this
    · intro f
      have := pair_leaves (ks := ks1 ++ s :: ks2) (ks' := ks1 ++ e.1 :: ks2) (cs1 := cs1) (cs2 := cs2) (f := f)
        (m := [Tree.leaf lid (les'' ++ [x] ++ [e]) ln, Tree.leaf rid res rn])
        (m' := [Tree.leaf lid (les'' ++ [x]) ln, Tree.leaf rid (e :: res) rn])
        ⟨Nat.le_refl _, fun _ => rfl, fun n h => h, fun i hi => .inl hi, fun _ h => h⟩
      simpa using this
    · have := pair_entries (ks := ks1 ++ s :: ks2) (ks' := ks1 ++ e.1 :: ks2) (cs1 := cs1) (cs2 := cs2)
        (m := [Tree.leaf lid (les'' ++ [x] ++ [e]) ln, Tree.leaf rid res rn])
        (m' := [Tree.leaf lid (les'' ++ [x]) ln, Tree.leaf rid (e :: res) rn])
        (by simp [leavesL, Tree.leaves, entriesOf])
      simpa using this
  | succ h =>
    cases l with
    | leaf => exact hcl.elim
    | node lk lc =>
    cases r with
    | leaf => exact hcr.elim
    | node rk rc =>
    simp only [Tree.size] at hrich hpoor
    obtain ⟨l1, l2, l3⟩ := hcl
    obtain ⟨r1, r2, r3⟩ := hcr
    rcases List.eq_nil_or_concat lk with rfl | ⟨lk', k, rfl⟩
    · simp at hrich
    rcases List.eq_nil_or_concat lc with rfl | ⟨lc', c, rfl⟩
    · simp at l2
    rw [List.concat_eq_append, List.concat_eq_append] at *
    have hlc : lc'.length = lk'.length + 1 := by simpa using l2
    have hgs : (ks1 ++ s :: ks2)[cs1.length]? = some s := by rw [hlen, get_mid]
    simp only [hgs, List.getLast?_append, List.getLast?_singleton, Option.some_or, List.dropLast_concat]
    rw [hlen, set_mid, ← hlen, set_mid, set_mid2]
    refine ⟨_, _, rfl, pair_shp hc ⟨?_, hlc, ?_⟩ ⟨?_, ?_, ?_⟩, ?_, ?_, ?_⟩
    · simp at l1; omega
    · intro c hc; exact l3 c (by simp [hc])
    · simp; omega
    · simp; omega
    · intro c' hc'
      simp only [List.singleton_append, List.mem_cons] at hc'
      rcases hc' with rfl | hc'
      · exact l3 c' (by simp)
      · exact r3 c' hc'
    · rw [pair_items hlen] at hs ⊢
      have e1 : (Tree.node (lk' ++ [k]) (lc' ++ [c])).items = (Tree.node lk' lc').items ++ .sep k :: c.items := by
        simp only [Tree.items]
        rcases List.eq_nil_or_concat lc' with rfl | ⟨lc'', c'', rfl⟩
        · simp at hlc
        rw [List.concat_eq_append] at *
        have hl2 : lc''.length = lk'.length := by simpa using hlc
        rw [List.append_assoc, itemsL_append _ _ _ _ hl2]
        conv => rhs; rw [← List.append_nil lk', itemsL_append _ _ _ _ hl2]
        simp [itemsL]
      have e2 : (Tree.node (s :: rk) ([c] ++ rc)).items = c.items ++ .sep s :: (Tree.node rk rc).items := by
        simp [Tree.items, itemsL]
      rw [e1] at hs
      rw [e2]
      simpa using hs
    · intro f
      have := pair_leaves (ks := ks1 ++ s :: ks2) (ks' := ks1 ++ k :: ks2) (cs1 := cs1) (cs2 := cs2) (f := f)
        (m := [Tree.node (lk' ++ [k]) (lc' ++ [c]), Tree.node rk rc]) (m' := [Tree.node lk' lc', Tree.node (s :: rk) ([c] ++ rc)])
        (by simp only [leavesL, Tree.leaves, leavesL_append, List.append_nil, List.append_assoc]; exact LeafStep.refl _ _)
      simpa using this
    · have := pair_entries (ks := ks1 ++ s :: ks2) (ks' := ks1 ++ k :: ks2) (cs1 := cs1) (cs2 := cs2)
        (m := [Tree.node (lk' ++ [k]) (lc' ++ [c]), Tree.node rk rc]) (m' := [Tree.node lk' lc', Tree.node (s :: rk) ([c] ++ rc)])
        (by simp only [leavesL, Tree.leaves, leavesL_append, List.append_nil, List.append_assoc])
      simpa using this

theorem borrowRight_ok {o h : Nat} {lo hi : Option K} {ks1 ks2 : List K} {s : K} {cs1 cs2 : List (Tree K V)} {l r : Tree K V}
    (hlen : cs1.length = ks1.length) (hc : Shp o (h + 1) (.node (ks1 ++ s :: ks2) (cs1 ++ l :: r :: cs2)))
    (hs : Srt true (bound lo ++ (Tree.node (ks1 ++ s :: ks2) (cs1 ++ l :: r :: cs2)).items ++ bound hi))
    (hrich : r.size > (o - 1) / 2) (hpoor : l.size < (o - 1) / 2) :
    ∃ keys cs, borrowRight (ks1 ++ s :: ks2) (cs1 ++ l :: r :: cs2) cs1.length = some (keys, cs) ∧
      Reb o (h + 1) lo hi (.node (ks1 ++ s :: ks2) (cs1 ++ l :: r :: cs2)) (.node keys cs) := by
  have hcl := hc.2.2 l (by simp)
  have hcr := hc.2.2 r (by simp)
  unfold borrowRight
  simp only [get_mid, get_mid2]
  cases h with
  | zero =>
    cases l with
    | node => exact hcl.elim
    | leaf lid les ln =>
    cases r with
    | node => exact hcr.elim
    | leaf rid res rn =>
    simp only [Tree.size] at hrich hpoor
    match res, hrich, hcr, hc, hs with
    | [], hrich, _, _, _ => simp at hrich
    | [e], hrich, _, _, _ => simp at hrich; omega
    | e :: e' :: res', hrich, hcr, hc, hs =>
    simp only
    rw [if_pos (by simp; omega)]
    rw [hlen, set_mid, ← hlen, set_mid, set_mid2]
    refine ⟨_, _, rfl, pair_shp hc ?_ ?_, ?_, ?_, ?_⟩
    · simp only [Shp, List.length_append, List.length_cons, List.length_nil] at hcl ⊢; omega
    · simp only [Shp, List.length_cons] at hcr ⊢; omega
    · rw [pair_items hlen] at hs ⊢
      have := swapR (a := (bound lo ++ itemsL cs1 ks1) ++ les.map fun e => Item.ent e.1) (e := e.1) (e' := e'.1) (s := s)
        (b := (res'.map fun e => Item.ent e.1) ++ (afterHead ks2 cs2 ++ bound hi)) (by simpa [Tree.items] using hs)
      simpa [Tree.items] using this
    · intro f
      have := pair_leaves (ks := ks1 ++ s :: ks2) (ks' := ks1 ++ e'.1 :: ks2) (cs1 := cs1) (cs2 := cs2) (f := f)
        (m := [Tree.leaf lid les ln, Tree.leaf rid (e :: e' :: res') rn])
        (m' := [Tree.leaf lid (les ++ [e]) ln, Tree.leaf rid (e' :: res') rn])
        ⟨Nat.le_refl _, fun _ => rfl, fun n h => h, fun i hi => .inl hi, fun _ h => h⟩
      simpa using this
    · have := pair_entries (ks := ks1 ++ s :: ks2) (ks' := ks1 ++ e'.1 :: ks2) (cs1 := cs1) (cs2 := cs2)
        (m := [Tree.leaf lid les ln, Tree.leaf rid (e :: e' :: res') rn])
        (m' := [Tree.leaf lid (les ++ [e]) ln, Tree.leaf rid (e' :: res') rn])
        (by simp [leavesL, Tree.leaves, entriesOf])
      simpa using this
  | succ h =>
    cases l with
    | leaf => exact hcl.elim
    | node lk lc =>
    cases r with
    | leaf => exact hcr.elim
    | node rk rc =>
    simp only [Tree.size] at hrich hpoor
    obtain ⟨l1, l2, l3⟩ := hcl
    obtain ⟨r1, r2, r3⟩ := hcr
    cases rk with
    | nil => simp at hrich
    | cons k rk' =>
    cases rc with
    | nil => simp at r2
    | cons c rc' =>
    have hrc : rc'.length = rk'.length + 1 := by simpa using r2
    have hgs : (ks1 ++ s :: ks2)[cs1.length]? = some s := by rw [hlen, get_mid]
    simp only [hgs, List.tail_cons]
    rw [hlen, set_mid, ← hlen, set_mid, set_mid2]
    refine ⟨_, _, rfl, pair_shp hc ⟨?_, ?_, ?_⟩ ⟨?_, hrc, ?_⟩, ?_, ?_, ?_⟩
    · simp; omega
    · simp; omega
    · intro c' hc'
      rw [List.mem_append, List.mem_singleton] at hc'
      rcases hc' with hc' | rfl
      · exact l3 c' hc'
      · exact r3 c' (by simp)
    · simp at r1; omega
    · intro c hc; exact r3 c (by simp [hc])
    · rw [pair_items hlen] at hs ⊢
      have e1 : (Tree.node (lk ++ [s]) (lc ++ [c])).items = (Tree.node lk lc).items ++ .sep s :: c.items := by
        simp only [Tree.items]
        rcases List.eq_nil_or_concat lc with rfl | ⟨lc'', c'', rfl⟩
        · simp at l2
        rw [List.concat_eq_append] at *
        have hl2 : lc''.length = lk.length := by simpa using l2
        rw [List.append_assoc, itemsL_append _ _ _ _ hl2]
        conv => rhs; rw [← List.append_nil lk, itemsL_append _ _ _ _ hl2]
        simp [itemsL]
      have e2 : (Tree.node (k :: rk') (c :: rc')).items = c.items ++ .sep k :: (Tree.node rk' rc').items := by
        simp [Tree.items, itemsL]
      rw [e2] at hs
      rw [e1]
      simpa using hs
    · intro f
      have := pair_leaves (ks := ks1 ++ s :: ks2) (ks' := ks1 ++ k :: ks2) (cs1 := cs1) (cs2 := cs2) (f := f)
        (m := [Tree.node lk lc, Tree.node (k :: rk') (c :: rc')]) (m' := [Tree.node (lk ++ [s]) (lc ++ [c]), Tree.node rk' rc'])
        (by simp only [leavesL, Tree.leaves, leavesL_append, List.append_nil, List.append_assoc]; exact LeafStep.refl _ _)
      simpa using this
    · have := pair_entries (ks := ks1 ++ s :: ks2) (ks' := ks1 ++ k :: ks2) (cs1 := cs1) (cs2 := cs2)
        (m := [Tree.node lk lc, Tree.node (k :: rk') (c :: rc')]) (m' := [Tree.node (lk ++ [s]) (lc ++ [c]), Tree.node rk' rc'])
        (by simp only [leavesL, Tree.leaves, leavesL_append, List.append_nil, List.append_assoc])
      simpa using this

/-- A merge that leaves one more child than keys. -/
theorem mergeAt_ok {o h : Nat} {lo hi : Option K} {ks1 ks2 : List K} {s : K} {cs1 cs2 : List (Tree K V)} {l r : Tree K V}
    (hlen : cs1.length = ks1.length) (hlen2 : cs2.length = ks2.length)
    (hc : Shp o (h + 1) (.node (ks1 ++ s :: ks2) (cs1 ++ l :: r :: cs2)))
    (hs : Srt true (bound lo ++ (Tree.node (ks1 ++ s :: ks2) (cs1 ++ l :: r :: cs2)).items ++ bound hi))
    (hsum : l.size + r.size + 1 ≤ o - 1) :
    ∃ keys cs d, mergeAt (ks1 ++ s :: ks2) (cs1 ++ l :: r :: cs2) cs1.length = some (keys, cs, d) ∧
      (cs.length = keys.length + 1 → Reb o (h + 1) lo hi (.node (ks1 ++ s :: ks2) (cs1 ++ l :: r :: cs2)) (.node keys cs)) := by
  have hcl := hc.2.2 l (by simp)
  have hcr := hc.2.2 r (by simp)
  unfold mergeAt
  simp only [get_mid, get_mid2]
  cases h with
  | zero =>
    cases l with
    | node => exact hcl.elim
    | leaf lid les ln =>
    cases r with
    | node => exact hcr.elim
    | leaf rid res rn =>
    simp only [Tree.size] at hsum
    simp only
    rw [hlen, erase_mid, ← hlen, set_mid, erase_mid2]
    refine ⟨_, _, _, rfl, fun _ => ⟨merge_shp hc ?_, ?_, ?_, ?_⟩⟩
    · simp only [Shp, List.length_append]; omega
    · rw [pair_items hlen] at hs
      rw [node_items hlen]
      refine List.Pairwise.sublist ?_ hs
      refine List.Sublist.append (List.Sublist.append (List.Sublist.refl _) ?_) (List.Sublist.refl _)
      simp only [Tree.items, List.map_append]
      exact List.Sublist.append (List.Sublist.refl _) (List.sublist_cons_self _ _)
    · intro f
      have := pair_leaves (ks := ks1 ++ s :: ks2) (ks' := ks1 ++ ks2) (cs1 := cs1) (cs2 := cs2) (f := f)
        (m := [Tree.leaf lid les ln, Tree.leaf rid res rn]) (m' := [Tree.leaf lid (les ++ res) rn]) ?_
      · simpa using this
      · refine ⟨Nat.le_refl _, fun _ => rfl, ?_, ?_, ?_⟩
        · intro n hn
          simp only [leavesL, Tree.leaves, List.append_nil, List.singleton_append, Linked, firstId] at hn ⊢
          exact ⟨hn.2.1, trivial⟩
        · intro i hi
          left
          simp only [leavesL, Tree.leaves, ids, List.append_nil, List.singleton_append, List.map_cons, List.map_nil,
            List.mem_cons, List.not_mem_nil, or_false] at hi ⊢
          exact .inl hi
        · intro _ _; simp [leavesL, Tree.leaves, ids]
    · have := pair_entries (ks := ks1 ++ s :: ks2) (ks' := ks1 ++ ks2) (cs1 := cs1) (cs2 := cs2)
        (m := [Tree.leaf lid les ln, Tree.leaf rid res rn]) (m' := [Tree.leaf lid (les ++ res) rn])
        (by simp [leavesL, Tree.leaves, entriesOf])
      simpa using this
  | succ h =>
    cases l with
    | leaf => exact hcl.elim
    | node lk lc =>
    cases r with
    | leaf => exact hcr.elim
    | node rk rc =>
    simp only [Tree.size] at hsum
    obtain ⟨l1, l2, l3⟩ := hcl
    obtain ⟨r1, r2, r3⟩ := hcr
    have hgs : (ks1 ++ s :: ks2)[cs1.length]? = some s := by rw [hlen, get_mid]
    simp only [hgs]
    refine ⟨_, _, _, rfl, ?_⟩
    rw [hlen, erase_mid, ← hlen, set_mid, erase_mid2]
    intro hlens
    have hks2 : ks2 = [] := by
      cases ks2 with
      | nil => rfl
      | cons k ks2 =>
        rw [hlen, erase_mid] at hlens
        simp at hlens hlen2; omega
    subst hks2
    have hcs2 : cs2 = [] := by simpa using hlen2
    subst hcs2
    have hke : (ks1 ++ []).eraseIdx cs1.length = ks1 ++ [] := by
      rw [List.eraseIdx_of_length_le]; simp; omega
    rw [hke]
    refine ⟨merge_shp hc ⟨?_, ?_, ?_⟩, ?_, ?_, ?_⟩
    · simp; omega
    · simp; omega
    · intro c hc
      rw [List.mem_append] at hc
      rcases hc with hc | hc
      · exact l3 c hc
      · exact r3 c hc
    · rw [pair_items hlen] at hs
      rw [node_items hlen]
      have e1 : (Tree.node (lk ++ s :: rk) (lc ++ rc)).items = (Tree.node lk lc).items ++ .sep s :: (Tree.node rk rc).items := by
        simp only [Tree.items]
        rcases List.eq_nil_or_concat lc with rfl | ⟨lc'', c'', rfl⟩
        · simp at l2
        rw [List.concat_eq_append] at *
        have hl2 : lc''.length = lk.length := by simpa using l2
        rw [List.append_assoc, itemsL_append _ _ _ _ hl2]
        conv => rhs; rw [← List.append_nil lk, itemsL_append _ _ _ _ hl2]
        simp [itemsL]
      rw [e1]
      exact hs
    · intro f
      have := pair_leaves (ks := ks1 ++ [s]) (ks' := ks1 ++ []) (cs1 := cs1) (cs2 := []) (f := f)
        (m := [Tree.node lk lc, Tree.node rk rc]) (m' := [Tree.node (lk ++ s :: rk) (lc ++ rc)])
        (by simp only [leavesL, Tree.leaves, leavesL_append, List.append_nil]; exact LeafStep.refl _ _)
      simpa using this
    · have := pair_entries (ks := ks1 ++ [s]) (ks' := ks1 ++ []) (cs1 := cs1) (cs2 := [])
        (m := [Tree.node lk lc, Tree.node rk rc]) (m' := [Tree.node (lk ++ s :: rk) (lc ++ rc)])
        (by simp only [leavesL, Tree.leaves, leavesL_append, List.append_nil])
      simpa using this

theorem Reb.refl {o h : Nat} {lo hi : Option K} {t : Tree K V} (h1 : Shp o h t) (h2 : Srt true (bound lo ++ t.items ++ bound hi)) :
    Reb o h lo hi t t := ⟨h1, h2, fun f => LeafStep.refl f _, rfl⟩

theorem step_ok {o h : Nat} {lo hi : Option K} {keys : List K} {cs : List (Tree K V)} {i : Nat}
    (hc : Shp o (h + 1) (.node keys cs)) (hs : Srt true (bound lo ++ (Tree.node keys cs).items ++ bound hi)) (hi1 : i < cs.length) :
    ∃ r, rebalanceStep o keys cs i = some r ∧
      (r.cs.length = r.keys.length + 1 → Reb o (h + 1) lo hi (.node keys cs) (.node r.keys r.cs)) := by
  unfold rebalanceStep
  have hget : cs[i]? = some cs[i] := List.getElem?_eq_getElem hi1
  simp only [hget]
  by_cases h1 : cs[i].size ≥ (o - 1) / 2
  · rw [if_pos h1]
    exact ⟨_, rfl, fun _ => Reb.refl hc hs⟩
  rw [if_neg h1]
  by_cases h2 : 0 < i ∧ richer ((o - 1) / 2) cs[i - 1]? = true
  · rw [if_pos h2]
    obtain ⟨i', rfl⟩ : ∃ i', i = i' + 1 := ⟨i - 1, by omega⟩
    obtain ⟨ks1, s, ks2, cs1, l, r, cs2, rfl, rfl, g1, g2, g3⟩ := split_at2 hc.2.1 (i := i') hi1
    subst g1
    rw [get_mid2] at hget
    have hget := (Option.some.inj hget)
    rw [← hget] at h1
    simp only [Nat.add_sub_cancel, get_mid, richer, decide_eq_true_eq] at h2
    obtain ⟨ks', cs', b1, b2⟩ := borrowLeft_ok (lo := lo) (hi := hi) g2.symm hc hs h2.2 (by omega)
    rw [b1]
    exact ⟨_, rfl, fun _ => b2⟩
  rw [if_neg h2]
  by_cases h3 : i < cs.length - 1 ∧ richer ((o - 1) / 2) cs[i + 1]? = true
  · rw [if_pos h3]
    obtain ⟨ks1, s, ks2, cs1, l, r, cs2, rfl, rfl, g1, g2, g3⟩ := split_at2 hc.2.1 (i := i) (by omega)
    subst g1
    rw [get_mid] at hget
    have hget := (Option.some.inj hget)
    rw [← hget] at h1
    simp only [get_mid2, richer, decide_eq_true_eq] at h3
    obtain ⟨ks', cs', b1, b2⟩ := borrowRight_ok (lo := lo) (hi := hi) g2.symm hc hs h3.2 (by omega)
    rw [b1]
    exact ⟨_, rfl, fun _ => b2⟩
  rw [if_neg h3]
  by_cases h4 : 0 < i
  · rw [if_pos h4]
    obtain ⟨i', rfl⟩ : ∃ i', i = i' + 1 := ⟨i - 1, by omega⟩
    obtain ⟨ks1, s, ks2, cs1, l, r, cs2, rfl, rfl, g1, g2, g3⟩ := split_at2 hc.2.1 (i := i') hi1
    subst g1
    rw [get_mid2] at hget
    have hget := (Option.some.inj hget)
    rw [← hget] at h1
    simp only [Nat.add_sub_cancel, get_mid, richer, decide_eq_true_eq, Nat.zero_lt_succ, true_and] at h2 ⊢
    obtain ⟨ks', cs', d, b1, b2⟩ := mergeAt_ok (lo := lo) (hi := hi) g2.symm g3 hc hs (by omega)
    rw [b1]
    exact ⟨_, rfl, b2⟩
  rw [if_neg h4]
  by_cases h5 : i < cs.length - 1
  · rw [if_pos h5]
    obtain ⟨ks1, s, ks2, cs1, l, r, cs2, rfl, rfl, g1, g2, g3⟩ := split_at2 hc.2.1 (i := i) (by omega)
    subst g1
    rw [get_mid] at hget
    have hget := (Option.some.inj hget)
    rw [← hget] at h1
    have h3' : ¬ r.size > (o - 1) / 2 := by
      intro hr; exact h3 ⟨h5, by simpa only [get_mid2, richer, decide_eq_true_eq] using hr⟩
    obtain ⟨ks', cs', d, b1, b2⟩ := mergeAt_ok (lo := lo) (hi := hi) g2.symm g3 hc hs (by omega)
    rw [b1]
    exact ⟨_, rfl, b2⟩
  rw [if_neg h5]
  exact ⟨_, rfl, fun _ => Reb.refl hc hs⟩

theorem Reb.trans {o h h' : Nat} {lo hi : Option K} {a b c : Tree K V} (h1 : Reb o h' lo hi a b) (h2 : Reb o h lo hi b c) :
    Reb o h lo hi a c :=
  ⟨h2.shp, h2.srt, fun f => (h1.leaves f).trans (h2.leaves f), h2.entries.trans h1.entries⟩

/-- Rebalancing one child within its parent. -/
theorem reb_child {o h : Nat} {lo hi : Option K} {ks1 ks2 : List K} {cs1 cs2 : List (Tree K V)} {c c' : Tree K V}
    (g2 : ks1.length = cs1.length) (g3 : cs2.length = ks2.length) (hc : Shp o (h + 1) (.node (ks1 ++ ks2) (cs1 ++ c :: cs2)))
    (hs : Srt true (bound lo ++ (Tree.node (ks1 ++ ks2) (cs1 ++ c :: cs2)).items ++ bound hi))
    (hr : Reb o h (loOf lo ks1) (hiOf hi ks2) c c') :
    Reb o (h + 1) lo hi (.node (ks1 ++ ks2) (cs1 ++ c :: cs2)) (.node (ks1 ++ ks2) (cs1 ++ c' :: cs2)) := by
  obtain ⟨hc1, hc2, hc3⟩ := hc
  refine ⟨⟨hc1, by simp at hc2 ⊢; omega, ?_⟩, ?_, ?_, ?_⟩
  · intro c hc
    rw [List.mem_append, List.mem_cons] at hc
    rcases hc with hc | rfl | hc
    · exact hc3 c (by simp [hc])
    · exact hr.shp
    · exact hc3 c (by simp [hc])
  · rw [node_items g2.symm]
    exact node_replace g2.symm (post_true g3) hs hr.srt
  · intro f
    have := (hr.leaves f).frame (leavesL cs1) (leavesL cs2)
    simpa [Tree.leaves, leavesL_append, leavesL] using this
  · have := hr.entries
    simp only [Tree.entries, Tree.leaves, leavesL_append, leavesL, entriesOf_append] at this ⊢
    rw [this]

theorem rebalance_ok {o : Nat} : ∀ (p : List Nat) {h : Nat} {lo hi : Option K} {t : Tree K V}, Shp o h t →
    Srt true (bound lo ++ t.items ++ bound hi) → IsPath p t → clean o p t = true →
    ∃ t' b d, rebalance o p t = some (t', b, d) ∧ Reb o h lo hi t t' := by
  intro p
  induction p with
  | nil => intro h lo hi t hc hs _ _; exact ⟨_, _, _, rfl, Reb.refl hc hs⟩
  | cons i p ih =>
    intro h lo hi t hc hs hp hcl
    cases t with
    | leaf => exact hp.elim
    | node keys cs =>
    cases h with
    | zero => exact hc.elim
    | succ h =>
    obtain ⟨c, hi1, hp⟩ := hp
    have hlt : i < cs.length := by rw [List.getElem?_eq_some_iff] at hi1; exact hi1.1
    obtain ⟨ks1, ks2, cs1, c', cs2, rfl, rfl, g1, g2, g3⟩ := split_at hc.2.1 hlt
    subst g1
    rw [get_mid] at hi1
    cases hi1
    simp only [clean, get_mid, Bool.and_eq_true] at hcl
    obtain ⟨t', b, d, r1, r2⟩ := ih (hc.2.2 _ (List.mem_append.2 (.inr List.mem_cons_self)))
      (node_child g2.symm (post_true g3) hs) hp hcl.1
    have hch := reb_child g2 g3 hc hs r2
    simp only [rebalance, get_mid, r1, set_mid]
    cases b with
    | false => exact ⟨_, _, _, rfl, hch⟩
    | true =>
      have hcl2 := hcl.2
      rw [r1] at hcl2
      simp only [set_mid] at hcl2
      obtain ⟨r, s1, s2⟩ := step_ok hch.shp hch.srt (i := cs1.length) (by simp)
      rw [s1] at hcl2
      simp only [decide_eq_true_eq] at hcl2
      simp only [s1]
      exact ⟨_, _, _, rfl, hch.trans (s2 hcl2)⟩

/-- The whole rebalancing at the root. -/
theorem rebalanceRoot_ok {o : Nat} {p : List Nat} {h : Nat} {t : Tree K V} {f : Nat} (hc : Shp o h t)
    (hs : Srt true t.items) (hp : IsPath p t) (hcl : clean o p t = true) (hlink : Linked t.leaves none)
    (hnd : (ids t.leaves).Nodup) (hlt : ∀ i ∈ ids t.leaves, i < f) :
    ∃ t' f' d, rebalanceRoot o f p t = some (t', f', d) ∧ (∃ h, Shp o h t') ∧ Srt true t'.items ∧ t'.entries = t.entries ∧
      Linked t'.leaves none ∧ (ids t'.leaves).Nodup ∧ ∀ i ∈ ids t'.leaves, i < f' := by
  have done : ∀ {h' t'}, Reb o h' none none t t' → (∃ h, Shp o h t') ∧ Srt true t'.items ∧ t'.entries = t.entries ∧
      Linked t'.leaves none ∧ (ids t'.leaves).Nodup ∧ ∀ i ∈ ids t'.leaves, i < f := by
    intro h' t' hr
    exact ⟨⟨_, hr.shp⟩, by simpa [bound] using hr.srt, hr.entries, (hr.leaves f).link _ hlink, (hr.leaves f).nodup hlt hnd,
      (hr.leaves f).lt hlt⟩
  have hs' : Srt true (bound none ++ t.items ++ bound none) := by simpa [bound] using hs
  cases p with
  | nil => exact ⟨_, _, _, rfl, done (Reb.refl hc hs')⟩
  | cons i p =>
    cases t with
    | leaf => exact hp.elim
    | node keys cs =>
    cases h with
    | zero => exact hc.elim
    | succ h =>
    obtain ⟨c, hi1, hp⟩ := hp
    have hlt2 : i < cs.length := by rw [List.getElem?_eq_some_iff] at hi1; exact hi1.1
    obtain ⟨ks1, ks2, cs1, c', cs2, rfl, rfl, g1, g2, g3⟩ := split_at hc.2.1 hlt2
    subst g1
    rw [get_mid] at hi1
    cases hi1
    simp only [clean, get_mid, Bool.and_eq_true] at hcl
    obtain ⟨t', b, d, r1, r2⟩ := rebalance_ok p (hc.2.2 _ (List.mem_append.2 (.inr List.mem_cons_self)))
      (node_child g2.symm (post_true g3) hs') hp hcl.1
    have hch := reb_child g2 g3 hc hs' r2
    simp only [rebalanceRoot, get_mid, r1, set_mid]
    cases b with
    | false => exact ⟨_, _, _, rfl, done hch⟩
    | true =>
      have hcl2 := hcl.2
      rw [r1] at hcl2
      simp only [set_mid] at hcl2
      obtain ⟨r, s1, s2⟩ := step_ok hch.shp hch.srt (i := cs1.length) (by simp)
      rw [s1] at hcl2
      simp only [decide_eq_true_eq] at hcl2
      simp only [s1]
      have hfin := hch.trans (s2 hcl2)
      by_cases ha : r.again = true
      · simp only [ha, if_true]
        refine ⟨_, _, _, rfl, ?_⟩
        have hlen := hcl2
        obtain ⟨d1, d2, d3, d4, d5, d6⟩ := done hfin
        generalize r.keys = ks at *
        generalize r.cs = cs at *
        cases ks with
        | cons k ks => exact ⟨d1, d2, d3, d4, d5, d6⟩
        | nil =>
          match cs, hlen with
          | [.leaf id es next], _ =>
            simp only [collapse]
            have hsh := hfin.shp.2.2 _ (List.mem_singleton.2 rfl)
            refine ⟨⟨0, ?_⟩, ?_, ?_, ?_, ?_, ?_⟩
            · cases h with
              | zero => exact hsh
              | succ h => exact hsh.elim
            · simpa [Tree.items, itemsL] using d2
            · rw [← d3]; simp [Tree.entries, Tree.leaves, leavesL, entriesOf]
            · simpa [Tree.leaves, leavesL, Linked, firstId] using d4
            · simp [Tree.leaves, ids]
            · simp [Tree.leaves, ids]
          | [.node ks' cs'], _ =>
            simp only [collapse]
            have hsh := hfin.shp.2.2 _ (List.mem_singleton.2 rfl)
            refine ⟨⟨_, hsh⟩, ?_, ?_, ?_, ?_, ?_⟩
            · simpa [Tree.items, itemsL] using d2
            · rw [← d3]; simp [Tree.entries, Tree.leaves, leavesL]
            · simpa [Tree.leaves, leavesL] using d4
            · simpa [Tree.leaves, leavesL] using d5
            · simpa [Tree.leaves, leavesL] using d6
      · simp only [ha]
        exact ⟨_, _, _, rfl, done hfin⟩

/-- A delete whose rebalancing keeps the shape. -/
theorem delete_ok [DecidableEq V] {t : BTree K V} (hi : Inv true t) (key : K) (v : V)
    (hcl : t.deleteClean (KeyOps.linear K) key v = true) :
    ∃ t' r, t.delete (KeyOps.linear K) key v = some (t', r) ∧ Inv true t' ∧ t'.order = t.order ∧
      ((r = true ∧ ∃ a b, t.root.entries = a ++ (key, v) :: b ∧ t'.root.entries = a ++ b) ∨
       (r = false ∧ t' = t ∧ (key, v) ∉ t.root.entries)) := by
  obtain ⟨h, hok⟩ := hi.ok
  have hsh := shp_of_ok hok
  have hs : Srt true (bound none ++ t.root.items ++ bound none) := by simpa [bound] using hi.srt
  unfold BTree.deleteClean at hcl
  unfold BTree.delete
  rw [height_ok hok] at hcl ⊢
  rcases search_ok key v h hsh hs with ⟨p, j, h1, h2⟩ | ⟨h1, h2⟩
  · rw [h1] at hcl ⊢
    simp only at hcl ⊢
    obtain ⟨t', n, r1, r2, r3, r4, r5, a, b, r6, r7⟩ := removeAt_ok p hsh hs h2
    rw [r1] at hcl ⊢
    simp only at hcl ⊢
    have r3' : Srt true t'.items := by simpa [bound] using r3
    have hlink := (r5 t.fresh).link _ hi.link
    have hnd := (r5 t.fresh).nodup hi.lt hi.nodup
    have hlt := (r5 t.fresh).lt hi.lt
    by_cases hcond : n < (t.order - 1) / 2 ∧ p ≠ []
    · rw [if_pos hcond] at hcl ⊢
      obtain ⟨t2, f', d, q1, ⟨h', q2⟩, q3, q4, q5, q6, q7⟩ := rebalanceRoot_ok r2 r3' r4 hcl hlink hnd hlt
      rw [q1]
      refine ⟨_, _, rfl, ⟨hi.order, .inl rfl, ⟨h', ok_of_shp q2 (by simpa [bound] using q3)⟩, q3, q5, q6, q7⟩, rfl, .inl ⟨rfl, a, b, r6, ?_⟩⟩
      simp only [q4, r7]
    · rw [if_neg hcond]
      refine ⟨_, _, rfl, ⟨hi.order, .inl rfl, ⟨h, ok_of_shp r2 (by simpa [bound] using r3')⟩, r3', hlink, hnd, hlt⟩, rfl,
        .inl ⟨rfl, a, b, r6, r7⟩⟩
  · rw [h1]
    exact ⟨_, _, rfl, hi, rfl, .inr ⟨rfl, rfl, h2⟩⟩

end

end Verif.BTree

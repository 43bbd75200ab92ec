import Verif.PTree.Content

/-!
# Paged B+ tree: inserts, and removals that leave the pages alone
-/

namespace Verif.PTree

variable {V : Type} {H : Nat}

/-- An entry put into its leaf is put into the whole. -/
theorem leafPut_mid {B es A : List (Int × V)} {key : Int} (v : V) (h : Asc (keys (B ++ es ++ A))) (h1 : ∀ e ∈ B, e.1 < key) (h2 : ∀ e ∈ A, key < e.1) :
    leafPut (B ++ es ++ A) key v = B ++ leafPut es key v ++ A := by
  obtain ⟨hb, ha, hba⟩ := asc_append.mp h
  obtain ⟨_, he, _⟩ := asc_append.mp hb
  obtain ⟨xs, ys, rfl, g1, g2⟩ := cut_at he key
  have e : B ++ (xs ++ ys) ++ A = (B ++ xs) ++ (ys ++ A) := by simp
  rw [leafPut_cut he v g1 g2, e, leafPut_cut (by rw [← e]; exact h) v]
  · cases ys with
    | nil =>
      have hA : ¬ (A.head?.map (·.1)) = some key := by
        cases A with
        | nil => simp
        | cons a A => have := h2 a (by simp); simp; omega
      simp only [List.nil_append, List.head?_nil, Option.map_none, reduceCtorEq, if_false, if_neg hA]
      simp
    | cons y ys =>
      by_cases hk : y.1 = key <;> simp [hk]
  · intro x hx
    rcases List.mem_append.mp hx with hx | hx
    · exact h1 x hx
    · exact g1 x hx
  · intro y hy
    rcases List.mem_append.mp hy with hy | hy
    · exact g2 y hy
    · exact Int.le_of_lt (h2 y hy)

theorem get_mid {B es A : List (Int × V)} {key : Int} (h1 : ∀ e ∈ B, e.1 < key) (h2 : ∀ e ∈ A, key < e.1) : get (B ++ es ++ A) key = get es key := by
  rw [get_left (fun y hy => by have := h2 y hy; omega), get_right (fun x hx => by have := h1 x hx; omega)]

theorem Linked.mid : ∀ (a : List (Nat × List (Int × V) × Option Nat)) {i : Nat} {es : List (Int × V)} {nx e : Option Nat} {b : List (Nat × List (Int × V) × Option Nat)}
    (es' : List (Int × V)), Linked (a ++ (i, es, nx) :: b) e → Linked (a ++ (i, es', nx) :: b) e
  | [], _, _, _, _, _, _, h => h
  | [_], _, _, _, _, _, es', h => ⟨h.1, Linked.mid [] es' h.2⟩
  | _ :: y :: a, _, _, _, _, _, es', h => ⟨h.1, Linked.mid (y :: a) es' h.2⟩

theorem Linked.two : ∀ (a : List (Nat × List (Int × V) × Option Nat)) {i : Nat} {es : List (Int × V)} {nx e : Option Nat} {b : List (Nat × List (Int × V) × Option Nat)}
    (es1 es2 : List (Int × V)) (j : Nat), Linked (a ++ (i, es, nx) :: b) e → Linked (a ++ (i, es1, some j) :: (j, es2, nx) :: b) e
  | [], _, _, _, _, _, _, _, _, h => ⟨rfl, h⟩
  | [_], _, _, _, _, _, es1, es2, j, h => ⟨h.1, Linked.two [] es1 es2 j h.2⟩
  | _ :: y :: a, _, _, _, _, _, es1, es2, j, h => ⟨h.1, Linked.two (y :: a) es1 es2 j h.2⟩

theorem leaves_at (c : Ctx V H 0) (i : Nat) (es : List (Int × V)) (nx : Option Nat) :
    (c.plug (.lf i es nx)).leaves = c.before ++ (i, es, nx) :: c.after := by
  rw [c.leaves_plug]
  show c.before ++ [(i, es, nx)] ++ c.after = _
  simp

/-- The pairs of one leaf are replaced. -/
theorem rep_leaf {s : State V} {c : Ctx V H 0} {i : Nat} {es es' : List (Int × V)} {nx : Option Nat} (ho : 2 ≤ s.order) (hs : Held s ((c.plug (.lf i es nx)).own true))
    (hok : (c.plug (.lf i es nx)).Ok s.order none none) (hl : Linked (c.plug (.lf i es nx)).leaves none) (hr : s.root = some (c.plug (.lf i es nx)).id)
    (hh : s.height = H + 1) (h' : (Tr.lf i es' nx).Ok s.order c.lo c.hi) (n : Nat) (hn : n = (ents c.before ++ es' ++ ents c.after).length) :
    Rep { s.set i (.leaf ⟨es', nx, c.isTop⟩) with num := n } (ents c.before ++ es' ++ ents c.after) := by
  refine ⟨ho, hn, Or.inr ⟨H, c.plug (.lf i es' nx), ?_, ((c.ok_plug _ hok).2 _ h'), ?_, ?_, hh, ents_at _ _ _ _⟩⟩
  · have h1 := hs.perm (c.own_plug _)
    have h2 : Held s ((i, Page.leaf ⟨es, nx, c.isTop⟩) :: c.own i) := h1
    exact ((h2.set (.leaf ⟨es', nx, c.isTop⟩)).perm (List.Perm.trans (by rfl) (c.own_plug (.lf i es' nx)).symm)).congr rfl rfl
  · rw [leaves_at] at hl ⊢
    exact Linked.mid _ _ hl
  · show s.root = _
    rw [hr]
    congr 1
    exact c.plug_id_top _ _ rfl

/-- The two halves of an overfull leaf. -/
theorem split_halves {es : List (Int × V)} {o : Nat} {lo hi : Option Int} (ho : 2 ≤ o) (ha : Asc (keys es)) (hw : Within lo hi es) (hl : es.length = o + 1) :
    ∃ xs y ys, es = xs ++ y :: ys ∧ leafInsertAll o [] (es.drop ((o + 1) / 2)) = y :: ys ∧ times (es.length - (o + 1) / 2) (leafRemove ((o + 1) / 2)) es = xs ∧
      (∀ i nx, (Tr.lf i xs nx).Ok o lo (some y.1)) ∧ (∀ i nx, (Tr.lf i (y :: ys) nx).Ok o (some y.1) hi) := by
  have hd : es.drop ((o + 1) / 2) ≠ [] := fun c => by have := congrArg List.length c; simp at this; omega
  obtain ⟨y, ys, e⟩ := List.exists_cons_of_ne_nil hd
  have e' : es = es.take ((o + 1) / 2) ++ y :: ys := by rw [← e, List.take_append_drop]
  have hlen : (y :: ys).length = o + 1 - (o + 1) / 2 := by rw [← e, List.length_drop, hl]
  have ha' := ha
  rw [e'] at ha'
  obtain ⟨a1, a2, a3⟩ := asc_append.mp ha'
  have hm : ∀ z ∈ es.take ((o + 1) / 2), z ∈ es := fun z hz => List.mem_of_mem_take hz
  have hm2 : ∀ z ∈ y :: ys, z ∈ es := fun z hz => by rw [← e] at hz; exact List.mem_of_mem_drop hz
  have hne : es.take ((o + 1) / 2) ≠ [] := fun c => by have := congrArg List.length c; rw [List.length_take, hl, List.length_nil] at this; omega
  obtain ⟨z, zs, ez⟩ := List.exists_cons_of_ne_nil hne
  refine ⟨es.take ((o + 1) / 2), y, ys, e', ?_, ?_, fun i nx => ⟨?_, a1, fun x hx => ⟨(hw x (hm x hx)).1, ?_⟩, ?_⟩, fun i nx => ⟨?_, a2, fun x hx => ⟨?_, (hw x (hm2 x hx)).2⟩, ?_⟩⟩
  · rw [e, leafInsertAll_append _ _ _ (by simpa using a2) (by simp at hlen ⊢; omega)]
    simp
  · exact times_leafRemove _ _ _ (by omega)
  · rintro a b hlo ⟨⟩
    have h1 := (hw z (hm z (by rw [ez]; simp))).1 a hlo
    have h2 := a3 z (by rw [ez]; simp) y (by simp)
    omega
  · rintro _ ⟨⟩
    exact a3 x hx y (by simp)
  · simp only [Tr.lf, List.length_take]; omega
  · rintro a b ⟨⟩ hhi
    exact (hw y (hm2 y (by simp))).2 b hhi
  · rintro _ ⟨⟩
    rcases List.mem_cons.mp hx with rfl | hx
    · exact Int.le_refl _
    · exact Int.le_of_lt ((asc_cons.mp a2).1 x hx)
  · simp only [Tr.lf]; omega

/-- An overfull leaf is split. -/
theorem splitLeaf_rep {s : State V} {c : Ctx V H 0} {i : Nat} {es fs : List (Int × V)} {nx : Option Nat} (ho : 2 ≤ s.order)
    (hs : Held s ((i, .leaf ⟨fs, nx, c.isTop⟩) :: c.own i))
    (hok : (c.plug (.lf i es nx)).Ok s.order none none) (hl : Linked (c.plug (.lf i es nx)).leaves none) (hr : s.root = some (c.plug (.lf i es nx)).id)
    (hh : s.height = H + 1) (ha : Asc (keys fs)) (hw : Within c.lo c.hi fs) (hlen : fs.length = s.order + 1) :
    ∃ s', splitLeaf s i c.path = (s', .ok ()) ∧ s'.num = s.num ∧
      Rep { s' with num := (ents c.before ++ fs ++ ents c.after).length } (ents c.before ++ fs ++ ents c.after) := by
  obtain ⟨xs, y, ys, e, e1, e2, o1, o2⟩ := split_halves ho ha hw hlen
  have hpage := hs.leaf (i := i) (l := ⟨fs, nx, c.isTop⟩) (by simp)
  rw [splitLeaf, hpage]
  simp only
  rw [if_neg (by omega)]
  simp only [e1, e2, List.head?_cons]
  have hs1 := ((hs.alloc (.leaf ⟨y :: ys, nx, false⟩)).perm (List.Perm.swap _ _ _)).set (.leaf ⟨xs, some s.next, c.isTop⟩)
  have hlk := hl
  rw [leaves_at] at hlk
  have hlk2 := Linked.two _ xs (y :: ys) s.next hlk
  have hents : ents (c.before ++ (i, xs, some s.next) :: (s.next, y :: ys, nx) :: c.after) = ents c.before ++ fs ++ ents c.after := by
    rw [e, ents_append]
    simp [ents]
  have fin : ∀ s' : State V, Grown s s' (c.before ++ ((Tr.lf i xs (some s.next)).leaves ++ (Tr.lf s.next (y :: ys) nx).leaves) ++ c.after) →
      s'.num = s.num ∧ Rep { s' with num := (ents c.before ++ fs ++ ents c.after).length } (ents c.before ++ fs ++ ents c.after) := by
    intro s' hg
    have hlv : c.before ++ ((Tr.lf i xs (some s.next)).leaves ++ (Tr.lf s.next (y :: ys) nx).leaves) ++ c.after =
        c.before ++ (i, xs, some s.next) :: (s.next, y :: ys, nx) :: c.after := by
      show c.before ++ [(i, xs, some s.next), (s.next, y :: ys, nx)] ++ c.after = _
      simp
    rw [hlv] at hg
    obtain ⟨H', T, t1, t2, t3, t4, t5⟩ := hg.tree
    refine ⟨hg.num, ?_, rfl, Or.inr ⟨H', T, t1.congr rfl rfl, ?_, ?_, t4, t5, ?_⟩⟩
    · show 2 ≤ s'.order
      rw [hg.order]; exact ho
    · show T.Ok s'.order none none
      rw [hg.order]; exact t2
    · rw [t3]; exact hlk2
    · rw [t3]; exact hents
  cases hct : c.isTop with
  | true =>
    rw [if_pos rfl]
    refine ⟨_, rfl, ?_⟩
    cases c with
    | up => simp [Ctx.isTop] at hct
    | top =>
      refine fin _ ⟨⟨1, .node (s.next + 1) false [(0, Tr.lf i xs (some s.next)), (y.1, Tr.lf s.next (y :: ys) nx)], ?_, ?_, ?_, rfl, ?_⟩, rfl, rfl⟩
      · rw [own_root]
        simp only [Ctx.isTop, Ctx.own] at hs1
        have hs2 := ((hs1.alloc (.inner ⟨[y.1], [i, s.next], true⟩)).perm (List.Perm.swap _ _ _)).set (.leaf ⟨xs, some s.next, false⟩)
        exact (hs2.perm (List.Perm.swap _ _ _)).congr rfl rfl
      · refine ⟨⟨o1 _ _, o2 _ _, trivial⟩, by simp [Tr.node], by simp [Tr.node, keysOf], by simp [Tr.node, keysOf]; omega⟩
      · simp [Tr.leaves, Tr.node, Ctx.before, Ctx.after]
      · show s.height + 1 = 1 + 1
        omega
  | false =>
    rw [if_neg (by simp)]
    rw [hct] at hs1
    obtain ⟨s', h1, h2⟩ := raise_grown c (.lf i es nx) (.lf i xs (some s.next)) (.lf s.next (y :: ys) nx) y.1
      ((s.alloc (.leaf ⟨y :: ys, nx, false⟩)).set i (.leaf ⟨xs, some s.next, false⟩)) hct ho hs1 hok (o1 _ _) (o2 _ _)
      (by show s.root = _; rw [hr]; congr 1; exact c.plug_id_top _ _ rfl) hh
    refine ⟨s', h1, ?_⟩
    exact fin s' ⟨h2.tree, h2.num, h2.order⟩

/-- The leaf after a put. -/
theorem put_ok {o : Nat} {i : Nat} {es : List (Int × V)} {nx : Option Nat} {lo hi : Option Int} {key : Int} (v : V) (h : (Tr.lf i es nx).Ok o lo hi) (h1 : geLo lo key) (h2 : ltHi hi key) :
    Asc (keys (leafPut es key v)) ∧ Within lo hi (leafPut es key v) := by
  obtain ⟨_, h3, h4, _⟩ := h
  refine ⟨leafPut_asc h3 key v, fun e he => ?_⟩
  rcases leafPut_mem h3 he with h | h
  · rw [h]; exact ⟨h1, h2⟩
  · exact h4 e h

/-- What an insert at the leaf of the key does. -/
theorem insertAt_rep {s : State V} {c : Ctx V H 0} {i : Nat} {es : List (Int × V)} {nx : Option Nat} {key : Int} (v : V) (h : Rep s (ents (c.plug (.lf i es nx)).leaves))
    (hs : Held s ((c.plug (.lf i es nx)).own true)) (hok : (c.plug (.lf i es nx)).Ok s.order none none) (hl : Linked (c.plug (.lf i es nx)).leaves none)
    (hr : s.root = some (c.plug (.lf i es nx)).id) (hh : s.height = H + 1) (hk : c.holds key) :
    ∃ s', insertAt s i c.path key v = (s', .ok ()) ∧ Rep s' (leafPut (ents (c.plug (.lf i es nx)).leaves) key v) ∧
      (es.length < s.order → s' = { s.set i (.leaf ⟨leafPut es key v, nx, c.isTop⟩) with num := s.num + if (get es key).isSome then 0 else 1 }) := by
  obtain ⟨h1, h2⟩ := c.around _ hok hk
  obtain ⟨hlf, _⟩ := c.ok_plug _ hok
  obtain ⟨hb, h3, h4, h5⟩ := hlf
  have h3 : Asc (keys es) := h3
  have h5 : es.length ≤ s.order := h5
  obtain ⟨p1, p2⟩ := put_ok v (c.ok_plug _ hok).1 hk.1 hk.2
  have hasc := h.asc
  have hnum := h.num
  have hlen := leafPut_length hasc key v
  rw [ents_at] at hasc hnum hlen ⊢
  have hget := get_mid (es := es) h1 h2
  rw [hget] at hlen
  have hlen1 := leafPut_length h3 key v
  rw [leafPut_mid v hasc h1 h2] at hlen ⊢
  rw [insertAt, leaf_at hs]
  simp only [leafGet_get h3]
  cases hg : get es key with
  | some w =>
    rw [hg] at hlen hlen1
    simp only [Option.isSome_some, if_true] at hlen hlen1 ⊢
    refine ⟨_, rfl, ?_, fun _ => rfl⟩
    exact rep_leaf (es' := leafPut es key v) h.order hs hok hl hr hh ⟨hb, p1, p2, by simp only [Tr.lf]; omega⟩ s.num (by omega)
  | none =>
    rw [hg] at hlen hlen1
    simp only [Option.isSome_none, Bool.false_eq_true, if_false] at hlen hlen1 ⊢
    by_cases hfull : es.length < s.order
    · rw [if_pos hfull, leafInsert, if_neg (by omega)]
      refine ⟨_, rfl, ?_, fun _ => rfl⟩
      exact rep_leaf (es' := leafPut es key v) h.order hs hok hl hr hh ⟨hb, p1, p2, by simp only [Tr.lf]; omega⟩ (s.num + 1) (by omega)
    · rw [if_neg hfull]
      have hs0 : Held s ((i, Page.leaf ⟨es, nx, c.isTop⟩) :: c.own i) := hs.perm (c.own_plug _)
      obtain ⟨s', e1, e2, e3⟩ := splitLeaf_rep (s := s.set i (.leaf ⟨leafPut es key v, nx, c.isTop⟩)) h.order (hs0.set _) hok hl hr hh p1 p2
        (by rw [hlen1]; show es.length + 1 = s.order + 1; omega)
      rw [e1]
      refine ⟨_, rfl, ?_, fun h => absurd h hfull⟩
      have : s'.num + 1 = (ents c.before ++ leafPut es key v ++ ents c.after).length := by
        rw [e2]
        show s.num + 1 = _
        omega
      rw [this]
      exact e3

theorem insertEmpty_rep {s : State V} (h : Rep s []) (key : Int) (v : V) : Rep (insertEmpty s key v) [(key, v)] := by
  have ho := h.order
  have e : leafInsert s.order [] key v = [(key, v)] := by
    rw [leafInsert, if_neg (by simp only [List.length_nil]; omega)]
    rfl
  unfold insertEmpty
  rw [e]
  refine ⟨ho, rfl, Or.inr ⟨0, Tr.lf s.next [(key, v)] none, ?_, ⟨?_, ?_, ?_, ?_⟩, ⟨rfl, trivial⟩, rfl, rfl, rfl⟩⟩
  · refine ⟨fun x hx => ?_, by simp [Tr.own], fun x hx => ?_⟩
    · obtain rfl := List.mem_singleton.mp hx
      simp [State.alloc, State.set, Tr.lf]
    · obtain rfl := List.mem_singleton.mp hx
      simp [State.alloc, State.set, Tr.lf]
  · intro a b h; simp at h
  · simp [Asc, keys, Tr.lf]
  · intro e _; exact ⟨fun a h => by simp at h, fun a h => by simp at h⟩
  · simp only [Tr.lf, List.length_singleton]; show 1 ≤ s.order; omega

/-- What an insert does. -/
theorem insert_rep {s : State V} {E : List (Int × V)} (h : Rep s E) (key : Int) (v : V) : ∃ s', insert s key v = (s', .ok ()) ∧ Rep s' (leafPut E key v) := by
  rcases h.tree with ⟨hr, rfl⟩ | ⟨H, t, hs, hok, hl, hr, hh, rfl⟩
  · refine ⟨insertEmpty s key v, ?_, ?_⟩
    · simp [insert, locate, hr]
    · exact insertEmpty_rep h key v
  · obtain ⟨c, i, es, nx, rfl, hk, hloc⟩ := locate_spec hs hok hr hh key
    obtain ⟨s', h1, h2, _⟩ := insertAt_rep v h hs hok hl hr hh hk
    refine ⟨s', ?_, h2⟩
    rw [insert, hloc]
    exact h1

/-- The insert that tries without the path first does the same. -/
theorem insertC_eq {s : State V} {E : List (Int × V)} (h : Rep s E) (key : Int) (v : V) : insertC s key v = insert s key v := by
  rcases h.tree with ⟨hr, rfl⟩ | ⟨H, t, hs, hok, hl, hr, hh, rfl⟩
  · simp [insert, insertC, locate, hr]
  · obtain ⟨c, i, es, nx, rfl, hk, hloc⟩ := locate_spec hs hok hr hh key
    rw [insertC, hloc]
    simp only [leaf_at hs]
    by_cases hsafe : safeInsert s.order (⟨es, nx, c.isTop⟩ : Leaf V) = true
    · rw [if_neg (by simp [hsafe])]
      have hlt : es.length < s.order := by simp [safeInsert] at hsafe; omega
      obtain ⟨s', h1, _, h2⟩ := insertAt_rep v h hs hok hl hr hh hk
      obtain ⟨⟨_, h3, _⟩, _⟩ := c.ok_plug _ hok
      have h3 : Asc (keys es) := h3
      rw [insert, hloc]
      simp only [leafGet_get h3]
      rw [h1, h2 hlt]
      cases get es key with
      | some w => rfl
      | none =>
        rw [leafInsert, if_neg (by omega)]
        rfl
    · rw [if_pos (by simpa using hsafe)]

theorem erase_get {es : List (Int × V)} (h : Asc (keys es)) {key : Int} (hg : (get es key).isSome) :
    leafRemove (leafIdx es key) es = es.filter (fun e => decide (e.1 ≠ key)) := by
  obtain ⟨xs, ys, rfl, h1, h2⟩ := cut_at h key
  rw [get_right (fun x hx => by have := h1 x hx; omega)] at hg
  obtain ⟨_, hy, _⟩ := asc_append.mp h
  rw [leafIdx_cut h h1 h2, leafRemove]
  cases ys with
  | nil => simp [get] at hg
  | cons y ys =>
    have hy' := (asc_cons.mp hy)
    have hk : y.1 = key := by
      have h0 := h2 y (by simp)
      rcases Int.lt_or_eq_of_le h0 with c | c
      · rw [get_none (fun e he => by
          rcases List.mem_cons.mp he with rfl | he
          · omega
          · have := hy'.1 e he; omega)] at hg
        simp at hg
      · exact c.symm
    rw [eraseIdx_mid, List.filter_append, List.filter_cons, if_neg (by simp [hk]),
      List.filter_eq_self.mpr (fun x hx => by have := h1 x hx; simp; omega), List.filter_eq_self.mpr (fun x hx => by have := hy'.1 x hx; simp; omega)]

theorem filter_mid {B es A : List (Int × V)} {key : Int} (h1 : ∀ e ∈ B, e.1 < key) (h2 : ∀ e ∈ A, key < e.1) :
    (B ++ es ++ A).filter (fun e => decide (e.1 ≠ key)) = B ++ es.filter (fun e => decide (e.1 ≠ key)) ++ A := by
  have e1 : B.filter (fun e => decide (e.1 ≠ key)) = B := List.filter_eq_self.mpr (fun x hx => by have := h1 x hx; simp; omega)
  have e2 : A.filter (fun e => decide (e.1 ≠ key)) = A := List.filter_eq_self.mpr (fun x hx => by have := h2 x hx; simp; omega)
  rw [List.filter_append, List.filter_append, e1, e2]

theorem filter_absent {es : List (Int × V)} {key : Int} (h : get es key = none) : es.filter (fun e => decide (e.1 ≠ key)) = es := by
  refine List.filter_eq_self.mpr fun x hx => ?_
  unfold get at h
  rw [Option.map_eq_none_iff, List.find?_eq_none] at h
  have := h x hx
  simpa using this

theorem filter_length {es : List (Int × V)} (h : Asc (keys es)) {key : Int} (hg : (get es key).isSome) :
    (es.filter (fun e => decide (e.1 ≠ key))).length + 1 = es.length := by
  obtain ⟨v, hv⟩ := Option.isSome_iff_exists.mp hg
  have hlt : leafIdx es key < es.length := by
    have := leafGet_get h key
    rw [hv, leafGet] at this
    rcases Nat.lt_or_ge (leafIdx es key) es.length with c | c
    · exact c
    · rw [List.getElem?_eq_none c] at this; simp at this
  rw [← erase_get h hg, leafRemove, List.length_eraseIdx_of_lt hlt]
  omega

/-- The removal of this key leaves its page full enough: it is the only page, or more than half full, or the key is not there. -/
def Calm (s : State V) (key : Int) : Prop :=
  ∀ id path l, locate s key = .ok (some (id, path)) → s.leaf id = .ok l → l.isRoot = true ∨ s.order / 2 < l.es.length ∨ leafGet l.es key = none

/-- What a removal does. -/
theorem remove_rep {s : State V} {E : List (Int × V)} (h : Rep s E) {key : Int} (hc : Calm s key) :
    ∃ s', remove s key = (s', .ok (get E key).isSome) ∧ Rep s' (E.filter (fun e => decide (e.1 ≠ key))) := by
  rcases h.tree with ⟨hr, rfl⟩ | ⟨H, t, hs, hok, hl, hr, hh, rfl⟩
  · exact ⟨s, by simp [remove, locate, hr, get], h⟩
  · obtain ⟨c, i, es, nx, rfl, hk, hloc⟩ := locate_spec hs hok hr hh key
    obtain ⟨h1, h2⟩ := c.around _ hok hk
    obtain ⟨⟨hb, h3, h4, h5⟩, _⟩ := c.ok_plug _ hok
    have h3 : Asc (keys es) := h3
    have h4 : ∀ e ∈ es, geLo c.lo e.1 ∧ ltHi c.hi e.1 := h4
    have h5 : es.length ≤ s.order := h5
    have hcalm := hc i c.path _ hloc (leaf_at hs)
    simp only at hcalm
    rw [remove, hloc]
    simp only [leaf_at hs, leafGet_get h3]
    have hget := get_mid (es := es) h1 h2
    cases hg : get es key with
    | none =>
      refine ⟨s, ?_, ?_⟩
      · rw [ents_at, hget, hg]; rfl
      · rw [filter_absent (by rw [ents_at, hget, hg])]; exact h
    | some w =>
      have hsome : (get es key).isSome := by rw [hg]; rfl
      have hfl := filter_length h3 hsome
      rw [erase_get h3 hsome]
      have hrep : Rep { s.set i (.leaf ⟨es.filter (fun e => decide (e.1 ≠ key)), nx, c.isTop⟩) with num := s.num - 1 }
          (ents c.before ++ es.filter (fun e => decide (e.1 ≠ key)) ++ ents c.after) := by
        refine rep_leaf h.order hs hok hl hr hh ⟨hb, ?_, fun e he => h4 e (List.mem_filter.mp he).1, ?_⟩ _ ?_
        · exact List.Pairwise.sublist (List.Sublist.map _ List.filter_sublist) h3
        · simp only [Tr.lf]; omega
        · rw [h.num, ents_at]
          simp only [List.length_append]
          omega
      rw [ents_at, filter_mid h1 h2, hget, hg]
      simp only [Option.isSome_some]
      by_cases hz : c.isTop = true ∧ (es.filter (fun e => decide (e.1 ≠ key))).length = 0
      · rw [if_pos hz]
        refine ⟨_, rfl, h.order, ?_, Or.inl ⟨rfl, ?_⟩⟩
        all_goals
          have e0 := List.eq_nil_of_length_eq_zero hz.2
          cases c with
          | up => simp [Ctx.isTop] at hz
          | top => simp only [e0, Ctx.before, Ctx.after, ents, List.flatMap_nil, List.append_nil]; try rfl
      · rw [if_neg hz, if_neg (by
          rintro ⟨g1, g2⟩
          rcases hcalm with g | g | g
          · simp [g] at g1
          rotate_left
          · rw [leafGet_get h3, hg] at g; simp at g
          · have g2 : (es.filter (fun e => decide (e.1 ≠ key))).length < s.order / 2 := g2
            omega)]
        exact ⟨_, rfl, hrep⟩

/-- What a removal that tries without the path first does. -/
theorem removeC_rep {s : State V} {E : List (Int × V)} (h : Rep s E) {key : Int} (hc : Calm s key) :
    ∃ s', removeC s key = (s', .ok (get E key).isSome) ∧ Rep s' (E.filter (fun e => decide (e.1 ≠ key))) := by
  rcases h.tree with ⟨hr, rfl⟩ | ⟨H, t, hs, hok, hl, hr, hh, rfl⟩
  · exact ⟨s, by simp [removeC, locate, hr, get], h⟩
  · obtain ⟨c, i, es, nx, rfl, hk, hloc⟩ := locate_spec hs hok hr hh key
    obtain ⟨h1, h2⟩ := c.around _ hok hk
    obtain ⟨⟨hb, h3, h4, h5⟩, _⟩ := c.ok_plug _ hok
    have h3 : Asc (keys es) := h3
    have h4 : ∀ e ∈ es, geLo c.lo e.1 ∧ ltHi c.hi e.1 := h4
    have h5 : es.length ≤ s.order := h5
    rw [removeC, hloc]
    simp only [leaf_at hs, leafGet_get h3]
    by_cases hsafe : safeRemove s.order (⟨es, nx, c.isTop⟩ : Leaf V) = true
    · rw [if_neg (by simp [hsafe])]
      have hget := get_mid (es := es) h1 h2
      cases hg : get es key with
      | none =>
        refine ⟨s, ?_, ?_⟩
        · rw [ents_at, hget, hg]; rfl
        · rw [filter_absent (by rw [ents_at, hget, hg])]; exact h
      | some w =>
        have hsome : (get es key).isSome := by rw [hg]; rfl
        have hfl := filter_length h3 hsome
        rw [erase_get h3 hsome, ents_at, filter_mid h1 h2, hget, hg]
        refine ⟨_, rfl, ?_⟩
        refine rep_leaf h.order hs hok hl hr hh ⟨hb, ?_, fun e he => h4 e (List.mem_filter.mp he).1, ?_⟩ _ ?_
        · exact List.Pairwise.sublist (List.Sublist.map _ List.filter_sublist) h3
        · simp only [Tr.lf]; omega
        · rw [h.num, ents_at]
          simp only [List.length_append]
          omega
    · rw [if_pos (by simpa using hsafe)]
      exact remove_rep h hc

theorem rep_new {o : Nat} (ho : 2 ≤ o) : Rep (State.new o : State V) [] := ⟨ho, rfl, Or.inl ⟨rfl, rfl⟩⟩

end Verif.PTree

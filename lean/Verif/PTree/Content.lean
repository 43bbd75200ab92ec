import Verif.PTree.Grow

/-!
# Paged B+ tree: what the tree holds, searches and range scans
-/

namespace Verif.PTree

variable {V : Type} {H : Nat}

theorem ents_append (a b : List (Nat × List (Int × V) × Option Nat)) : ents (a ++ b) = ents a ++ ents b := by simp [ents]

/-- Entries in `[lo, hi)`. -/
def Within (lo hi : Option Int) (E : List (Int × V)) : Prop := ∀ e ∈ E, geLo lo e.1 ∧ ltHi hi e.1

theorem tail_ents {o h : Nat} (ih : ∀ (t : Tr V h) (lo hi : Option Int), t.Ok o lo hi → Asc (keys (ents t.leaves)) ∧ Within lo hi (ents t.leaves)) :
    ∀ (cs : Kids V h) (hi : Option Int), OkTail (fun c lo hi => c.Ok o lo hi) cs hi →
      Asc (keys (ents (cs.flatMap fun c => c.2.leaves))) ∧ Within (bound cs none) hi (ents (cs.flatMap fun c => c.2.leaves))
  | [], hi, _ => ⟨by simp [Asc, keys, ents], by simp [Within, ents]⟩
  | c :: cs, hi, hk => by
    obtain ⟨a1, a2⟩ := ih _ _ _ hk.1
    obtain ⟨b1, b2⟩ := tail_ents ih cs hi hk.2
    have hb := (OkTail.keys (P := fun (c : Tr V h) lo hi => c.Ok o lo hi) (fun t lo hi => Tr.Ok.lt t lo hi) _ _ hk)
    simp only [List.flatMap_cons, ents_append]
    refine ⟨asc_append.mpr ⟨a1, b1, fun x hx y hy => ?_⟩, fun e he => ?_⟩
    · cases cs with
      | nil => simp [ents] at hy
      | cons d cs =>
        have h1 := (a2 x hx).2 d.1 rfl
        have h2 := (b2 y hy).1 d.1 rfl
        omega
    · rcases List.mem_append.mp he with he | he
      · have hw := a2 e he
        refine ⟨hw.1, ?_⟩
        cases cs with
        | nil => exact hw.2
        | cons d cs =>
          intro z hz
          have h1 := hw.2 d.1 rfl
          have h2 := hb.2 d (by simp) z hz
          omega
      · refine ⟨?_, (b2 e he).2⟩
        cases cs with
        | nil => simp [ents] at he
        | cons d cs =>
          rintro z ⟨⟩
          have h1 := (asc_cons.mp hb.1).1 d (by simp)
          have h2 := (b2 e he).1 d.1 rfl
          omega

theorem kids_ents {o h : Nat} (ih : ∀ (t : Tr V h) (lo hi : Option Int), t.Ok o lo hi → Asc (keys (ents t.leaves)) ∧ Within lo hi (ents t.leaves))
    {cs : Kids V h} {lo hi : Option Int} (hk : OkKids (fun c lo hi => c.Ok o lo hi) lo cs hi) :
    Asc (keys (ents (cs.flatMap fun c => c.2.leaves))) ∧ Within lo hi (ents (cs.flatMap fun c => c.2.leaves)) := by
  cases cs with
  | nil => exact hk.elim
  | cons c cs =>
    obtain ⟨a1, a2⟩ := ih _ _ _ hk.1
    obtain ⟨b1, b2⟩ := tail_ents ih cs hi hk.2
    have hb := Tr.Ok.keys hk
    simp only [List.flatMap_cons, ents_append]
    refine ⟨asc_append.mpr ⟨a1, b1, fun x hx y hy => ?_⟩, fun e he => ?_⟩
    · cases cs with
      | nil => simp [ents] at hy
      | cons d cs =>
        have h1 := (a2 x hx).2 d.1 rfl
        have h2 := (b2 y hy).1 d.1 rfl
        omega
    · rcases List.mem_append.mp he with he | he
      · have hw := a2 e he
        refine ⟨hw.1, ?_⟩
        cases cs with
        | nil => exact hw.2
        | cons d cs =>
          intro z hz
          have h1 := hw.2 d.1 rfl
          have h2 := hb.2.2 d (by simp) z hz
          omega
      · refine ⟨?_, (b2 e he).2⟩
        cases cs with
        | nil => simp [ents] at he
        | cons d cs =>
          intro z hz
          have h1 := hb.2.1 d (by simp) z d.1 hz rfl
          have h2 := (b2 e he).1 d.1 rfl
          omega

/-- The entries of a search tree are in order and within its bounds. -/
theorem Tr.Ok.ents {o : Nat} : ∀ {h : Nat} (t : Tr V h) (lo hi : Option Int), t.Ok o lo hi → Asc (PTree.keys (PTree.ents t.leaves)) ∧ Within lo hi (PTree.ents t.leaves)
  | 0, t, lo, hi, ⟨_, h2, h3, _⟩ => by
    have e : PTree.ents (Tr.leaves t) = t.2.1 := by
      show t.2.1 ++ [] = t.2.1
      exact List.append_nil _
    rw [e]
    exact ⟨h2, h3⟩
  | h + 1, t, lo, hi, hk => kids_ents (fun t lo hi => Tr.Ok.ents t lo hi) hk.1

/-- Around the place of a key are smaller entries in front and greater ones behind. -/
theorem Ctx.around {o : Nat} {key : Int} : ∀ {h : Nat} (c : Ctx V H h) (t : Tr V h), (c.plug t).Ok o none none → c.holds key →
    (∀ e ∈ ents c.before, e.1 < key) ∧ (∀ e ∈ ents c.after, key < e.1)
  | _, .top, _, _, _ => by simp [before, after, ents]
  | _, .up c pid dup l k r, t, hok, hk => by
    obtain ⟨ht, _⟩ := c.ok_plug _ hok
    obtain ⟨hk1, _⟩ := ht
    simp only [Tr.node] at hk1
    obtain ⟨q1, q2, q3⟩ := (OkKids.mid _ _ _ _ _ _).mp hk1
    have h12 : ltB c.lo c.hi := Tr.Ok.lt _ _ _ (c.ok_plug _ hok).1
    have hr := OkTail.keys (P := fun (c : Tr V _) lo hi => c.Ok o lo hi) (fun t lo hi => Tr.Ok.lt t lo hi) _ _ q3
    have hc : c.holds key := by
      refine ⟨?_, ?_⟩
      · rcases q1 with rfl | q1
        · exact hk.1
        · have hne : l.isEmpty = false := by cases l with
            | nil => exact q1.elim
            | cons => rfl
          have h1 := hk.1
          simp only [Ctx.lo, hne] at h1
          intro a ha
          have h2 := h1 k rfl
          have h3 : ltB c.lo (some k) := by
            cases l with
            | nil => exact q1.elim
            | cons x l => exact (OkKids.lt (P := fun (c : Tr V _) lo hi => c.Ok o lo hi) (fun t lo hi => Tr.Ok.lt t lo hi) q1).2
          have := h3 a k ha rfl
          omega
      · have h1 := hk.2
        simp only [Ctx.hi] at h1
        cases r with
        | nil => exact h1
        | cons d r =>
          intro a ha
          have h2 := h1 d.1 rfl
          have h3 := hr.2 d (by simp) a ha
          omega
    obtain ⟨i1, i2⟩ := c.around _ hok hc
    refine ⟨fun e he => ?_, fun e he => ?_⟩
    · rw [before, ents_append] at he
      rcases List.mem_append.mp he with he | he
      · exact i1 e he
      · rcases q1 with rfl | q1
        · simp [ents] at he
        · have hne : l.isEmpty = false := by cases l with
            | nil => exact q1.elim
            | cons => rfl
          have h1 := hk.1
          simp only [Ctx.lo, hne] at h1
          have h2 := h1 k rfl
          have h3 := ((kids_ents (fun t lo hi => Tr.Ok.ents t lo hi) q1).2 e he).2 k rfl
          omega
    · rw [after, ents_append] at he
      rcases List.mem_append.mp he with he | he
      · have h1 := hk.2
        simp only [Ctx.hi] at h1
        cases r with
        | nil => simp [ents] at he
        | cons d r =>
          have h2 := h1 d.1 rfl
          have h3 := ((tail_ents (fun t lo hi => Tr.Ok.ents t lo hi) _ _ q3).2 e he).1 d.1 rfl
          omega
      · exact i2 e he

/-- The state is a tree that holds these entries, in order. -/
structure Rep (s : State V) (E : List (Int × V)) : Prop where
  order : 2 ≤ s.order
  num : s.num = E.length
  tree : (s.root = none ∧ E = []) ∨ ∃ (H : Nat) (t : Tr V H), Held s (t.own true) ∧ t.Ok s.order none none ∧ Linked t.leaves none ∧
    s.root = some t.id ∧ s.height = H + 1 ∧ ents t.leaves = E

theorem Rep.asc {s : State V} {E : List (Int × V)} (h : Rep s E) : Asc (keys E) := by
  rcases h.tree with ⟨_, rfl⟩ | ⟨H, t, _, hok, _, _, _, rfl⟩
  · simp [Asc, keys]
  · exact (Tr.Ok.ents t _ _ hok).1

/-- Where a key is found. -/
theorem locate_spec {s : State V} {t : Tr V H} (hs : Held s (t.own true)) (hok : t.Ok s.order none none) (hr : s.root = some t.id)
    (hh : s.height = H + 1) (key : Int) : ∃ (c : Ctx V H 0) (i : Nat) (es : List (Int × V)) (nx : Option Nat), c.plug (.lf i es nx) = t ∧ c.holds key ∧
      locate s key = .ok (some (i, c.path)) := by
  obtain ⟨c, i, es, nx, h1, h2, h3⟩ := descend_spec (s := s) (o := s.order) (key := key) (Ctx.top : Ctx V H H) t hs hok
    ⟨fun a ha => by simp [Ctx.lo] at ha, fun a ha => by simp [Ctx.hi] at ha⟩
  refine ⟨c, i, es, nx, h1, h2, ?_⟩
  simp only [Ctx.path] at h3
  rw [locate, hr, hh, Nat.add_sub_cancel]
  simp only [h3]

/-- The leaf at a place. -/
theorem leaf_at {s : State V} {c : Ctx V H 0} {i : Nat} {es : List (Int × V)} {nx : Option Nat} (hs : Held s ((c.plug (.lf i es nx)).own true)) :
    s.leaf i = .ok ⟨es, nx, c.isTop⟩ :=
  (hs.perm (c.own_plug _)).leaf (by simp [Tr.own, Tr.lf])

theorem ents_at (c : Ctx V H 0) (i : Nat) (es : List (Int × V)) (nx : Option Nat) :
    ents (c.plug (.lf i es nx)).leaves = ents c.before ++ es ++ ents c.after := by
  rw [c.leaves_plug, ents_append, ents_append]
  simp [Tr.leaves, Tr.lf, ents]

/-- A search finds the entry. -/
theorem search_rep {s : State V} {E : List (Int × V)} (h : Rep s E) (key : Int) : search s key = .ok (get E key) := by
  rcases h.tree with ⟨hr, rfl⟩ | ⟨H, t, hs, hok, _, hr, hh, rfl⟩
  · simp [search, locate, hr, get]
  · obtain ⟨c, i, es, nx, rfl, hk, hl⟩ := locate_spec hs hok hr hh key
    obtain ⟨h1, h2⟩ := c.around _ hok hk
    obtain ⟨⟨_, h3, _⟩, _⟩ := c.ok_plug _ hok
    rw [search, hl]
    simp only [leaf_at hs]
    have h3 : Asc (keys es) := h3
    rw [leafGet_get h3, ents_at, get_left (fun y hy => by have := h2 y hy; omega), get_right (fun x hx => by have := h1 x hx; omega)]

theorem nodup_lt_length : ∀ (n : Nat) (l : List Nat), l.Nodup → (∀ x ∈ l, x < n) → l.length ≤ n
  | 0, l, _, h => by
    cases l with
    | nil => simp
    | cons x l => have := h x (by simp); omega
  | n + 1, l, hn, h => by
    have ih := nodup_lt_length n (l.erase n) (hn.erase n) (fun x hx => by
      have h1 := h x (List.mem_of_mem_erase hx)
      have h2 : x ≠ n := (hn.mem_erase_iff.mp hx).1
      omega)
    have := List.length_erase (a := n) (l := l)
    split at this <;> omega

theorem Tr.leaves_own : ∀ {h : Nat} (r : Bool) (t : Tr V h), ∀ l ∈ t.leaves, ∃ b, (l.1, Page.leaf ⟨l.2.1, l.2.2, b⟩) ∈ t.own r
  | 0, r, t, l, hl => by
    obtain rfl : l = t := List.mem_singleton.mp hl
    exact ⟨r, by simp [Tr.own]⟩
  | h + 1, r, t, l, hl => by
    obtain ⟨c, hc, hl⟩ := List.mem_flatMap.mp hl
    obtain ⟨b, hb⟩ := Tr.leaves_own false c.2 l hl
    exact ⟨b, List.mem_cons_of_mem _ (List.mem_flatMap.mpr ⟨c, hc, hb⟩)⟩

theorem Tr.leaves_length : ∀ {h : Nat} (r : Bool) (t : Tr V h), t.leaves.length ≤ (t.own r).length
  | 0, r, t => Nat.le_refl 1
  | h + 1, r, t => by
    have key : ∀ cs : Kids V h, (cs.flatMap fun c => c.2.leaves).length ≤ (cs.flatMap fun c => c.2.own false).length := by
      intro cs
      induction cs with
      | nil => simp
      | cons c cs ih =>
        have := Tr.leaves_length false c.2
        simp only [List.flatMap_cons, List.length_append]
        omega
    have := key t.2.2
    simp only [Tr.leaves, Tr.own, List.length_cons]
    omega

theorem takeTo_asc (hi : Int) : ∀ (es : List (Int × V)), Asc (keys es) →
    takeTo hi es = (es.filter (fun e => decide (e.1 ≤ hi)), es.any (fun e => decide (hi < e.1)))
  | [], _ => rfl
  | e :: es, h => by
    have h' := asc_cons.mp h
    unfold takeTo
    by_cases c : hi < e.1
    · rw [if_pos c]
      have : es.filter (fun e => decide (e.1 ≤ hi)) = [] := List.filter_eq_nil_iff.mpr fun z hz => by
        have := h'.1 z hz
        simp; omega
      simp [this, c, show ¬ e.1 ≤ hi by omega]
    · rw [if_neg c, takeTo_asc hi es h'.2]
      simp [c, show e.1 ≤ hi by omega]

/-- The part of a leaf from its first key not below `lo`. -/
theorem drop_lo {es : List (Int × V)} (h : Asc (keys es)) (lo : Int) : es.drop (leafIdx es lo) = es.filter (fun e => decide (lo ≤ e.1)) := by
  obtain ⟨xs, ys, rfl, h1, h2⟩ := cut_at h lo
  rw [leafIdx_cut h h1 h2, List.drop_left, List.filter_append, List.filter_eq_nil_iff.mpr (fun x hx => by have := h1 x hx; simp; omega), List.nil_append,
    List.filter_eq_self.mpr (fun y hy => by simpa using h2 y hy)]

/-- A scan along the leaves. -/
theorem scan_spec {s : State V} {lo hi : Int} : ∀ (ls : List (Nat × List (Int × V) × Option Nat)) (l : Nat × List (Int × V) × Option Nat) (n : Nat),
    (∀ x ∈ l :: ls, ∃ b, s.leaf x.1 = .ok ⟨x.2.1, x.2.2, b⟩) → Linked (l :: ls) none → Asc (keys (ents (l :: ls))) → ls.length < n →
    scanFrom s lo hi n l.1 = .ok ((ents (l :: ls)).filter (fun e => decide (lo ≤ e.1 ∧ e.1 ≤ hi)))
  | ls, l, 0, _, _, _, h => by omega
  | ls, l, n + 1, hp, hl, ha, hn => by
    obtain ⟨b, hb⟩ := hp l (by simp)
    have e0 : ents (l :: ls) = l.2.1 ++ ents ls := by simp [ents]
    rw [e0] at ha ⊢
    obtain ⟨a1, a2, a3⟩ := asc_append.mp ha
    have hd : Asc (keys (l.2.1.filter (fun e => decide (lo ≤ e.1)))) := by
      exact List.Pairwise.sublist (List.Sublist.map _ List.filter_sublist) a1
    rw [scanFrom, hb]
    simp only [drop_lo a1, takeTo_asc _ _ hd]
    have e1 : (l.2.1.filter (fun e => decide (lo ≤ e.1))).filter (fun e => decide (e.1 ≤ hi)) = l.2.1.filter (fun e => decide (lo ≤ e.1 ∧ e.1 ≤ hi)) := by
      rw [List.filter_filter]
      refine List.filter_congr fun x _ => ?_
      simp [Bool.and_comm]
    rw [e1, List.filter_append]
    by_cases c : ((l.2.1.filter (fun e => decide (lo ≤ e.1))).any (fun e => decide (hi < e.1))) = true
    · rw [if_pos c]
      obtain ⟨x, hx, hc⟩ := List.any_eq_true.mp c
      have hx' := (List.mem_filter.mp hx).1
      have hc' : hi < x.1 := by simpa using hc
      have e2 : (ents ls).filter (fun e => decide (lo ≤ e.1 ∧ e.1 ≤ hi)) = [] := List.filter_eq_nil_iff.mpr (fun y hy => by
        have := a3 x hx' y hy
        simp only [decide_eq_true_eq]
        omega)
      rw [e2, List.append_nil]
    · rw [if_neg c, hl.1]
      cases ls with
      | nil => simp [ents]
      | cons l' ls =>
        simp only
        rw [scan_spec ls l' n (fun x hx => hp x (by simp [hx])) hl.2 a2 (by simp at hn; omega)]

theorem Linked.drop : ∀ (a : List (Nat × List (Int × V) × Option Nat)) {b : List (Nat × List (Int × V) × Option Nat)} {e : Option Nat}, Linked (a ++ b) e → Linked b e
  | [], _, _, h => h
  | _ :: a, _, _, h => Linked.drop a h.2

/-- A range scan gives the entries in the range, in order. -/
theorem rangeScan_rep {s : State V} {E : List (Int × V)} (h : Rep s E) (lo hi : Int) :
    rangeScan s lo hi = .ok (E.filter (fun e => decide (lo ≤ e.1 ∧ e.1 ≤ hi))) := by
  unfold rangeScan
  by_cases hlt : hi < lo
  · rw [if_pos hlt, List.filter_eq_nil_iff.mpr (fun e _ => by simp; omega)]
  rw [if_neg hlt]
  rcases h.tree with ⟨hr, rfl⟩ | ⟨H, t, hs, hok, hlk, hr, hh, rfl⟩
  · simp [locate, hr]
  · obtain ⟨c, i, es, nx, rfl, hk, hl⟩ := locate_spec hs hok hr hh lo
    obtain ⟨h1, h2⟩ := c.around _ hok hk
    rw [hl]
    simp only
    have hlen : (c.plug (.lf i es nx)).leaves.length ≤ s.next := by
      have h3 := Tr.leaves_length true (c.plug (.lf i es nx))
      have h4 := nodup_lt_length s.next _ hs.nodup (fun x hx => by
        obtain ⟨y, hy, rfl⟩ := List.mem_map.mp hx
        exact hs.lt y hy)
      rw [List.length_map] at h4
      omega
    have hasc := (Tr.Ok.ents _ _ _ hok).1
    have e0 : (c.plug (.lf i es nx)).leaves = c.before ++ (i, es, nx) :: c.after := by
      rw [c.leaves_plug]
      simp [Tr.leaves, Tr.lf]
    have hpages : ∀ x ∈ (c.plug (.lf i es nx)).leaves, ∃ b, s.leaf x.1 = .ok ⟨x.2.1, x.2.2, b⟩ := fun x hx => by
      obtain ⟨b, hb⟩ := Tr.leaves_own true _ x hx
      exact ⟨b, hs.leaf hb⟩
    rw [e0] at hlk hasc hlen hpages ⊢
    rw [ents_append] at hasc ⊢
    have := scan_spec (s := s) (lo := lo) (hi := hi) c.after (i, es, nx) (s.next + 1) (fun x hx => hpages x (by
      simp only [List.mem_append]; exact Or.inr hx)) (Linked.drop _ hlk) (asc_append.mp hasc).2.1 (by simp at hlen; omega)
    have e2 : (ents c.before).filter (fun e => decide (lo ≤ e.1 ∧ e.1 ≤ hi)) = [] := List.filter_eq_nil_iff.mpr (fun e he => by
      have := h1 e he
      simp only [decide_eq_true_eq]
      omega)
    rw [this, List.filter_append, e2, List.nil_append]

end Verif.PTree

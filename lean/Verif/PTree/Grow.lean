import Verif.PTree.Find

/-!
# Paged B+ tree: a page goes to its parent, and full pages are split
-/

namespace Verif.PTree

variable {V : Type} {H : Nat}

/-- Lists with the same elements, in any order. -/
macro "perm_ac" : tactic => `(tactic|
  (classical
   refine List.perm_iff_count.mpr fun a => ?_
   simp only [List.count_append, List.count_cons, List.count_nil, List.flatMap_append, List.flatMap_cons, List.flatMap_nil, List.append_nil, List.nil_append, List.cons_append, Nat.zero_add]
   ac_rfl))

theorem Inner.insert_cut {max : Nat} {xs ys : List Int} {us ws : List Nat} {b : Bool} {key : Int} {c : Nat} (hl : (xs ++ ys).length < max)
    (hne : xs ++ ys ≠ []) (ha : Asc (xs ++ ys)) (h1 : ∀ x ∈ xs, x < key) (h2 : ∀ y ∈ ys, key < y) (hu : us.length = xs.length + 1) :
    Inner.insert max ⟨xs ++ ys, us ++ ws, b⟩ key c = ⟨xs ++ key :: ys, us ++ c :: ws, b⟩ := by
  unfold Inner.insert
  simp only
  rw [if_neg (by omega), if_neg hne]
  have hp : innerIdx (xs ++ ys) key = xs.length :=
    (innerIdx_pos ha key).unique (Pos.append h1 fun y hy => Int.le_of_lt (h2 y hy))
  rw [hp, List.getElem?_append_right (by omega), Nat.sub_self]
  rw [if_neg (by
    intro e
    cases ys with
    | nil => simp at e
    | cons y ys => simp at e; have := h2 y (by simp); omega)]
  rw [if_pos (by simp [hu]), insertIdx_mid, ← hu, insertIdx_mid]

/-- Pairs inserted behind the keys of a page. -/
theorem Inner.insertAll_append (max : Nat) (b : Bool) : ∀ (ps : List (Int × Nat)) (ks : List Int) (vs : List Nat), ks ≠ [] → Asc (ks ++ ps.map (·.1)) →
    ks.length + ps.length ≤ max → vs.length = ks.length + 1 →
    Inner.insertAll max ⟨ks, vs, b⟩ ps = ⟨ks ++ ps.map (·.1), vs ++ ps.map (·.2), b⟩
  | [], ks, vs, _, _, _, _ => by simp [insertAll]
  | p :: ps, ks, vs, hne, ha, hl, hv => by
    have ha' := List.pairwise_append.mp ha
    have e := Inner.insert_cut (max := max) (xs := ks) (ys := []) (us := vs) (ws := []) (b := b) (key := p.1) (c := p.2)
      (by simp at hl ⊢; omega) (by simpa using hne) (by simpa [Asc] using ha'.1) (fun x hx => ha'.2.2 x hx p.1 (by simp)) (by simp) hv
    simp only [List.append_nil] at e
    have ih := Inner.insertAll_append max b ps (ks ++ [p.1]) (vs ++ [p.2]) (by simp) (by simpa [Asc] using ha) (by simp at hl ⊢; omega) (by simp; omega)
    simp only [insertAll, List.foldl_cons, e] at ih ⊢
    rw [ih]
    simp

theorem eraseIdx_take {α : Type} (l : List α) (n : Nat) : (l.eraseIdx n).take n = l.take n := by
  rcases Nat.lt_or_ge n l.length with h | h
  · conv => lhs; rw [← List.take_append_drop n l]
    have hd : l.drop n ≠ [] := fun c => by have := congrArg List.length c; simp at this; omega
    obtain ⟨y, ys, e⟩ := List.exists_cons_of_ne_nil hd
    have hlen : (l.take n).length = n := by rw [List.length_take]; omega
    rw [e]
    have := eraseIdx_mid (l.take n) ys y
    rw [hlen] at this
    rw [this, List.take_append_of_le_length (by omega), List.take_take, Nat.min_self]
  · rw [List.eraseIdx_of_length_le h]

theorem times_removeAt {sp : Nat} (hsp : 0 < sp) (b : Bool) : ∀ (n : Nat) (ks : List Int) (vs : List Nat), ks.length = sp + n → vs.length = ks.length + 1 →
    times n (Inner.removeAt sp) ⟨ks, vs, b⟩ = ⟨ks.take sp, vs.take (sp + 1), b⟩
  | 0, ks, vs, h, hv => by rw [times, List.take_of_length_le (by omega), List.take_of_length_le (by omega)]
  | n + 1, ks, vs, h, hv => by
    have e : Inner.removeAt sp ⟨ks, vs, b⟩ = ⟨ks.eraseIdx sp, vs.eraseIdx (sp + 1), b⟩ := by
      unfold Inner.removeAt
      simp only
      rw [if_neg (by omega), if_neg (by omega), if_pos (by omega)]
    rw [times, e, times_removeAt hsp b n _ _ (by rw [List.length_eraseIdx_of_lt (by omega)]; omega)
      (by rw [List.length_eraseIdx_of_lt (by omega), List.length_eraseIdx_of_lt (by omega)]; omega), eraseIdx_take, eraseIdx_take]

theorem keysOf_append {α : Type} (dup : Bool) (l : List (Int × α)) (hl : l ≠ []) (r : List (Int × α)) :
    keysOf dup (l ++ r) = keysOf dup l ++ r.map (·.1) := by
  cases l with
  | nil => exact absurd rfl hl
  | cons c l => cases dup <;> simp [keysOf]

theorem valsOf_append {h : Nat} (dup : Bool) (l : Kids V h) (hl : l ≠ []) (r : Kids V h) :
    valsOf dup (l ++ r) = valsOf dup l ++ r.map (·.2.id) := by
  cases l with
  | nil => exact absurd rfl hl
  | cons c l => cases dup <;> simp [valsOf]

/-- The keys of a page are in order, and within bounds. -/
theorem keysOf_asc {o h : Nat} {dup : Bool} {cs : Kids V h} {lo hi : Option Int} (hk : OkKids (fun c lo hi => c.Ok o lo hi) lo cs hi)
    (hd : dup = true → lo = cs.head?.map (·.1)) : Asc (keysOf dup cs) ∧ (∀ x ∈ keysOf dup cs, geLo lo x) ∧ (∀ x ∈ keysOf dup cs, ltHi hi x) := by
  cases cs with
  | nil => exact hk.elim
  | cons c cs =>
    obtain ⟨a, b, d⟩ := Tr.Ok.keys hk
    have hlt : ltB lo hi := (OkKids.lt (P := fun c lo hi => Tr.Ok o c lo hi) (fun t lo hi => Tr.Ok.lt t lo hi) hk).2
    cases dup with
    | false =>
      refine ⟨by simpa [keysOf] using a, fun x hx => ?_, fun x hx => ?_⟩
      · simp only [keysOf, Bool.false_eq_true, if_false, List.map_cons, List.tail_cons] at hx
        obtain ⟨z, hz, rfl⟩ := List.mem_map.mp hx
        exact fun a ha => Int.le_of_lt (b z hz a _ ha rfl)
      · simp only [keysOf, Bool.false_eq_true, if_false, List.map_cons, List.tail_cons] at hx
        obtain ⟨z, hz, rfl⟩ := List.mem_map.mp hx
        exact d z hz
    | true =>
      have hlo : lo = some c.1 := hd rfl
      subst hlo
      refine ⟨?_, fun x hx => ?_, fun x hx => ?_⟩
      · exact asc_cons.mpr ⟨fun z hz => b z hz _ _ rfl rfl, a⟩
      · simp only [keysOf, if_true, List.map_cons] at hx
        rcases List.mem_cons.mp hx with rfl | hx
        · intro a ha; cases ha; exact Int.le_refl _
        · obtain ⟨z, hz, rfl⟩ := List.mem_map.mp hx
          exact fun a ha => Int.le_of_lt (b z hz a _ ha rfl)
      · simp only [keysOf, if_true, List.map_cons] at hx
        rcases List.mem_cons.mp hx with rfl | hx
        · exact fun a ha => hlt _ _ rfl ha
        · obtain ⟨z, hz, rfl⟩ := List.mem_map.mp hx
          exact d z hz

/-- A child that has been split in two. -/
theorem OkKids.split {o h : Nat} {lo hi : Option Int} {l r : Kids V h} {k m : Int} {t A B : Tr V h}
    (hk : OkKids (fun c lo hi => c.Ok o lo hi) lo (l ++ (k, t) :: r) hi) (hA : A.Ok o (if l.isEmpty then lo else some k) (some m))
    (hB : B.Ok o (some m) (bound r hi)) : OkKids (fun c lo hi => c.Ok o lo hi) lo (l ++ (k, A) :: (m, B) :: r) hi := by
  obtain ⟨h1, _, h3⟩ := (OkKids.mid _ _ _ _ _ _).mp hk
  exact (OkKids.mid _ _ _ _ _ _).mpr ⟨h1, hA, hB, h3⟩

/-- The page of a parent after it got the key and the new page. -/
theorem insert_kid {o h : Nat} {lo hi : Option Int} {l r : Kids V h} {k m : Int} {t A B : Tr V h} {dup b : Bool}
    (hk : OkKids (fun c lo hi => c.Ok o lo hi) lo (l ++ (k, t) :: r) hi) (hd : dup = true → lo = (l ++ (k, t) :: r).head?.map (·.1))
    (hp : 0 < (keysOf dup (l ++ (k, t) :: r)).length) (hn : (keysOf dup (l ++ (k, t) :: r)).length < o)
    (hA : A.Ok o (if l.isEmpty then lo else some k) (some m)) (hB : B.Ok o (some m) (bound r hi)) :
    Inner.insert o ⟨keysOf dup (l ++ (k, A) :: r), valsOf dup (l ++ (k, A) :: r), b⟩ m B.id =
      ⟨keysOf dup (l ++ (k, A) :: (m, B) :: r), valsOf dup (l ++ (k, A) :: (m, B) :: r), b⟩ := by
  have e0 : keysOf dup (l ++ (k, A) :: r) = keysOf dup (l ++ (k, t) :: r) := by simp [keysOf]
  rw [← e0] at hp hn
  have e1 : l ++ (k, A) :: r = (l ++ [(k, A)]) ++ r := by simp
  have e2 : l ++ (k, A) :: (m, B) :: r = (l ++ [(k, A)]) ++ (m, B) :: r := by simp
  have hk2 := OkKids.split hk hA hB
  have hd2 : dup = true → lo = (l ++ (k, A) :: (m, B) :: r).head?.map (·.1) := fun h => by rw [hd h]; cases l <;> rfl
  obtain ⟨a, _, _⟩ := keysOf_asc hk2 hd2
  rw [e2, keysOf_append _ _ (by simp)] at a
  simp only [List.map_cons] at a
  have a' := List.pairwise_append.mp a
  rw [e1, keysOf_append _ (l ++ [(k, A)]) (by simp) r, valsOf_append _ (l ++ [(k, A)]) (by simp) r, e2, keysOf_append _ (l ++ [(k, A)]) (by simp) ((m, B) :: r),
    valsOf_append _ (l ++ [(k, A)]) (by simp) ((m, B) :: r)]
  rw [e1, keysOf_append _ _ (by simp)] at hp hn
  refine Inner.insert_cut hn (fun c => by rw [c] at hp; simp at hp) ?_ (fun x hx => a'.2.2 x hx m (by simp)) (fun y hy => ?_) (valsOf_length _ _ (by simp))
  · exact List.pairwise_append.mpr ⟨a'.1, (List.pairwise_cons.mp a'.2.1).2, fun x hx y hy => a'.2.2 x hx y (by simp [hy])⟩
  · exact (List.pairwise_cons.mp a'.2.1).1 y hy

/-- The two halves of a full page. -/
theorem halve_pages {o h : Nat} {lo hi : Option Int} {cs : Kids V h} {dup b : Bool} (ho : 2 ≤ o)
    (hk : OkKids (fun c lo hi => c.Ok o lo hi) lo cs hi) (hd : dup = true → lo = cs.head?.map (·.1)) (hn : (keysOf dup cs).length = o) :
    ∃ L m t R, cs = L ++ (m, t) :: R ∧ L ≠ [] ∧ (keysOf dup cs)[o / 2]? = some m ∧ (valsOf dup cs)[o / 2 + 1]? = some t.id ∧
      (((⟨[], [], false⟩ : Inner).insert o m t.id).insertAll o (((keysOf dup cs).drop (o / 2 + 1)).zip ((valsOf dup cs).drop (o / 2 + 2))) =
        ⟨keysOf true ((m, t) :: R), valsOf true ((m, t) :: R), false⟩) ∧
      times ((keysOf dup cs).length - o / 2) (Inner.removeAt (o / 2)) ⟨keysOf dup cs, valsOf dup cs, b⟩ = ⟨keysOf dup L, valsOf dup L, b⟩ ∧
      (keysOf dup L).length = o / 2 ∧ (keysOf true ((m, t) :: R)).length = o - o / 2 := by
  have hcs : cs ≠ [] := fun c => by rw [c] at hk; exact hk
  -- the number of children kept on the left
  have hj : (if dup then o / 2 else o / 2 + 1) < cs.length := by
    cases cs with
    | nil => exact absurd rfl hcs
    | cons c cs => cases dup <;> simp [keysOf] at hn ⊢ <;> omega
  obtain ⟨L, R', e, hL⟩ : ∃ L R', cs = L ++ R' ∧ L.length = (if dup then o / 2 else o / 2 + 1) :=
    ⟨cs.take (if dup then o / 2 else o / 2 + 1), cs.drop (if dup then o / 2 else o / 2 + 1), (List.take_append_drop _ _).symm, by rw [List.length_take]; omega⟩
  have hR : R' ≠ [] := fun c => by rw [e, c] at hj; simp at hj; omega
  obtain ⟨⟨m, t⟩, R, rfl⟩ := List.exists_cons_of_ne_nil hR
  have hLne : L ≠ [] := fun c => by rw [c] at hL; simp at hL; cases dup <;> simp at hL <;> omega
  have hkL : (keysOf dup L).length = o / 2 := by
    cases dup <;> simp [keysOf] at hL ⊢ <;> omega
  have hvL := valsOf_length dup L hLne
  subst e
  obtain ⟨a, _, _⟩ := keysOf_asc hk hd
  rw [keysOf_append _ _ hLne] at a hn ⊢
  rw [valsOf_append _ _ hLne]
  have hvv : (valsOf dup L ++ ((m, t) :: R).map (·.2.id)).length = (keysOf dup L ++ ((m, t) :: R).map (·.1)).length + 1 := by
    simp only [List.length_append, List.length_map]; omega
  refine ⟨L, m, t, R, rfl, hLne, ?_, ?_, ?_, ?_, hkL, ?_⟩
  · rw [List.getElem?_append_right (by omega), hkL, Nat.sub_self]; rfl
  · rw [List.getElem?_append_right (by omega), hvL, hkL, Nat.sub_self]; rfl
  · have d1 : (keysOf dup L ++ ((m, t) :: R).map (·.1)).drop (o / 2 + 1) = R.map (·.1) := by
      rw [List.drop_append, List.drop_of_length_le (by omega)]
      have : o / 2 + 1 - (keysOf dup L).length = 1 := by omega
      rw [this]; rfl
    have d2 : (valsOf dup L ++ ((m, t) :: R).map (·.2.id)).drop (o / 2 + 2) = R.map (·.2.id) := by
      rw [List.drop_append, List.drop_of_length_le (by omega)]
      have : o / 2 + 2 - (valsOf dup L).length = 1 := by omega
      rw [this]; rfl
    rw [d1, d2]
    have e1 : (⟨[], [], false⟩ : Inner).insert o m t.id = ⟨[m], [t.id, t.id], false⟩ := by
      unfold Inner.insert
      simp only [List.length_nil]
      rw [if_neg (by omega)]
      rfl
    rw [e1]
    have hz : (R.map (·.1)).zip (R.map (·.2.id)) = R.map (fun c => (c.1, c.2.id)) := by
      rw [List.zip_map']
    rw [hz]
    have a' := (List.pairwise_append.mp a).2.1
    rw [Inner.insertAll_append _ _ _ _ _ (by simp) (by simpa [Asc, Function.comp_def] using a') (by simp at hn ⊢; omega) (by simp)]
    simp [keysOf, valsOf, Function.comp_def]
  · rw [times_removeAt (by omega) b _ _ _ (by rw [hn]; omega) hvv]
    congr 1
    · rw [List.take_append_of_le_length (by omega), List.take_of_length_le (by omega)]
    · rw [List.take_append_of_le_length (by omega), List.take_of_length_le (by omega)]
  · simp [keysOf] at hn hkL ⊢
    cases dup <;> simp at hn hkL <;> omega

/-- The page of the new root. -/
theorem own_root {h : Nat} (i : Nat) (k m : Int) (A B : Tr V h) : (Tr.node i false [(k, A), (m, B)]).own true =
    (i, .inner ⟨[m], [A.id, B.id], true⟩) :: (A.own false ++ B.own false) := by
  simp [Tr.own, Tr.node, keysOf, valsOf]

/-- What a split leaves: the state holds a tree with these leaves. -/
structure Grown (s s' : State V) (ls : List (Nat × List (Int × V) × Option Nat)) : Prop where
  tree : ∃ (H' : Nat) (T : Tr V H'), Held s' (T.own true) ∧ T.Ok s.order none none ∧ T.leaves = ls ∧ s'.root = some T.id ∧ s'.height = H' + 1
  num : s'.num = s.num
  order : s'.order = s.order

/-- A new root over two halves. -/
theorem createRoot_grown {s : State V} {A B : Tr V H} {m : Int} (ho : 2 ≤ s.order) (hs : Held s (A.own false ++ B.own false)) (hA : A.Ok s.order none (some m))
    (hB : B.Ok s.order (some m) none) (hh : s.height = H + 1) : Grown s (createRoot s A.id m B.id) (A.leaves ++ B.leaves) := by
  refine ⟨⟨H + 1, .node s.next false [(0, A), (m, B)], ?_, ?_, ?_, rfl, ?_⟩, rfl, rfl⟩
  · rw [own_root]
    exact (hs.alloc _).congr rfl rfl
  · refine ⟨⟨hA, hB, trivial⟩, by simp [Tr.node], by simp [Tr.node, keysOf], by simp [Tr.node, keysOf]; omega⟩
  · simp [Tr.leaves, Tr.node]
  · show s.height + 1 = H + 1 + 1
    omega

/-- The parents of a split page. -/
theorem raise_grown : ∀ {h : Nat} (c : Ctx V H h) (t A B : Tr V h) (m : Int) (s : State V), c.isTop = false → 2 ≤ s.order →
    Held s (A.own false ++ B.own false ++ c.own A.id) → (c.plug t).Ok s.order none none → A.Ok s.order c.lo (some m) → B.Ok s.order (some m) c.hi →
    s.root = some (c.plug A).id → s.height = H + 1 →
    ∃ s', raise s m B.id c.path = (s', .ok ()) ∧ Grown s s' (c.before ++ (A.leaves ++ B.leaves) ++ c.after)
  | _, .top, _, _, _, _, _, h, _, _, _, _, _, _, _ => by simp [Ctx.isTop] at h
  | h, .up c pid dup l k r, t, A, B, m, s, _, ho, hs, hok, hA, hB, hr, hh => by
    obtain ⟨ht, hrep⟩ := c.ok_plug _ hok
    obtain ⟨hk, hd, hp, hn⟩ := ht
    simp only [Tr.node] at hk hd hp hn
    have hk2 := OkKids.split hk hA hB
    have hd2 : dup = true → c.lo = (l ++ (k, A) :: (m, B) :: r).head?.map (·.1) := fun h => by rw [hd h]; cases l <;> rfl
    have hins := insert_kid (b := c.isTop) hk hd hp hn hA hB
    have hlen : (keysOf dup (l ++ (k, A) :: (m, B) :: r)).length = (keysOf dup (l ++ (k, t) :: r)).length + 1 := by
      have e1 : l ++ (k, t) :: r = (l ++ [(k, t)]) ++ r := by simp
      have e2 : l ++ (k, A) :: (m, B) :: r = (l ++ [(k, A)]) ++ (m, B) :: r := by simp
      rw [e1, e2, keysOf_append _ (l ++ [(k, t)]) (by simp) r, keysOf_append _ (l ++ [(k, A)]) (by simp) ((m, B) :: r)]
      simp only [List.length_append, keysOf, List.map_append, List.map_cons, List.map_nil, List.length_cons]
      omega
    -- the parent's page
    have e1 : keysOf dup (l ++ (k, A) :: r) = (if dup then l.map (·.1) ++ k :: r.map (·.1) else (l.map (·.1) ++ k :: r.map (·.1)).tail) := by simp [keysOf]
    have e2 : valsOf dup (l ++ (k, A) :: r) = valsAt dup l A.id r := by unfold valsOf valsAt; cases l <;> simp
    rw [Ctx.own, ← e1, ← e2] at hs
    have hpage := hs.inner (i := pid) (n := ⟨keysOf dup (l ++ (k, A) :: r), valsOf dup (l ++ (k, A) :: r), c.isTop⟩) (by simp)
    have hs1 := (hs.perm (M := (pid, Page.inner ⟨keysOf dup (l ++ (k, A) :: r), valsOf dup (l ++ (k, A) :: r), c.isTop⟩) ::
      ((l ++ (k, A) :: (m, B) :: r).flatMap (fun c => c.2.own false) ++ c.own pid)) (by perm_ac)).set
      (.inner ⟨keysOf dup (l ++ (k, A) :: (m, B) :: r), valsOf dup (l ++ (k, A) :: (m, B) :: r), c.isTop⟩)
    have hleaves : ∀ (x : Kids V h), x = l ++ (k, A) :: (m, B) :: r → c.before ++ x.flatMap (fun c => c.2.leaves) ++ c.after =
        (Ctx.up c pid dup l k r).before ++ (A.leaves ++ B.leaves) ++ (Ctx.up c pid dup l k r).after := by
      rintro _ rfl; simp [Ctx.before, Ctx.after]
    rw [← hleaves _ rfl]
    rw [Ctx.path, raise, hpage]
    simp only [hins]
    generalize hcs : l ++ (k, A) :: (m, B) :: r = cs at hk2 hd2 hlen hs1 ⊢
    by_cases hfull : (keysOf dup cs).length ≥ s.order
    · rw [if_pos (by simpa [State.set] using hfull)]
      have hn2 : (keysOf dup cs).length = s.order := by omega
      obtain ⟨L, mid, x, R, e, hLne, g1, g2, g3, g4, g5, g6⟩ := halve_pages (b := c.isTop) ho hk2 hd2 hn2
      have hpage2 := hs1.inner (i := pid) (n := ⟨keysOf dup cs, valsOf dup cs, c.isTop⟩) (by simp)
      have hA' : (Tr.node pid dup L).Ok s.order c.lo (some mid) := by
        rw [e] at hk2 hd2
        obtain ⟨q1, _, _⟩ := (OkKids.mid _ _ _ _ _ _).mp hk2
        refine ⟨q1.resolve_left hLne, fun h => ?_, ?_, ?_⟩
        · rw [hd2 h]; cases L with
          | nil => exact absurd rfl hLne
          | cons y L => rfl
        · simp only [Tr.node]; omega
        · simp only [Tr.node]; omega
      have hB' : (Tr.node (s.set pid (.inner ⟨keysOf dup cs, valsOf dup cs, c.isTop⟩)).next true ((mid, x) :: R)).Ok s.order (some mid) c.hi := by
        rw [e] at hk2
        obtain ⟨_, q2, q3⟩ := (OkKids.mid _ _ _ _ _ _).mp hk2
        refine ⟨⟨?_, q3⟩, fun _ => rfl, ?_, ?_⟩
        · have : L.isEmpty = false := by cases L with
            | nil => exact absurd rfl hLne
            | cons y L => rfl
          rw [this] at q2
          exact q2
        · simp only [Tr.node]; omega
        · simp only [Tr.node]; omega
      have ho' : (s.set pid (Page.inner ⟨keysOf dup cs, valsOf dup cs, c.isTop⟩)).order = s.order := rfl
      have hh' : (s.set pid (Page.inner ⟨keysOf dup cs, valsOf dup cs, c.isTop⟩)).height = s.height := rfl
      have hr' : (s.set pid (Page.inner ⟨keysOf dup cs, valsOf dup cs, c.isTop⟩)).root = s.root := rfl
      have hm' : (s.set pid (Page.inner ⟨keysOf dup cs, valsOf dup cs, c.isTop⟩)).num = s.num := rfl
      -- after the halving
      have hs2 := ((hs1.alloc (.inner ⟨keysOf true ((mid, x) :: R), valsOf true ((mid, x) :: R), false⟩)).perm
        (M := (pid, Page.inner ⟨keysOf dup cs, valsOf dup cs, c.isTop⟩) ::
          ((s.set pid (.inner ⟨keysOf dup cs, valsOf dup cs, c.isTop⟩)).next, .inner ⟨keysOf true ((mid, x) :: R), valsOf true ((mid, x) :: R), false⟩) ::
          (cs.flatMap (fun c => c.2.own false) ++ c.own pid)) (by perm_ac)).set (.inner ⟨keysOf dup L, valsOf dup L, c.isTop⟩)
      generalize hS : s.set pid (Page.inner ⟨keysOf dup cs, valsOf dup cs, c.isTop⟩) = S at *
      generalize hB0 : Tr.node S.next true ((mid, x) :: R) = B' at *
      have hB'id : B'.id = S.next := by rw [← hB0]; rfl
      have hB'own : B'.own false = (S.next, .inner ⟨keysOf true ((mid, x) :: R), valsOf true ((mid, x) :: R), false⟩) :: ((mid, x) :: R).flatMap (fun c => c.2.own false) := by
        rw [← hB0]; rfl
      have hB'lv : B'.leaves = ((mid, x) :: R).flatMap (fun c => c.2.leaves) := by rw [← hB0]; rfl
      have hhalf : halveInner S pid = if c.isTop then
          (createRoot (((S.alloc (.inner ⟨keysOf true ((mid, x) :: R), valsOf true ((mid, x) :: R), false⟩)).set pid (.inner ⟨keysOf dup L, valsOf dup L, c.isTop⟩)).set pid
            (.inner ⟨keysOf dup L, valsOf dup L, false⟩)) pid mid S.next, .ok none)
          else ((S.alloc (.inner ⟨keysOf true ((mid, x) :: R), valsOf true ((mid, x) :: R), false⟩)).set pid (.inner ⟨keysOf dup L, valsOf dup L, c.isTop⟩), .ok (some (mid, S.next))) := by
        rw [halveInner, hpage2]
        simp only [ho']
        rw [if_neg (by omega)]
        simp only [g1, g2, g3, g4]
      rw [hhalf]
      cases hct : c.isTop with
      | true =>
        rw [if_pos rfl]
        rw [hct] at hs2
        refine ⟨_, rfl, ?_⟩
        cases c with
        | up => simp [Ctx.isTop] at hct
        | top =>
          have hs3 := hs2.set (.inner ⟨keysOf dup L, valsOf dup L, false⟩)
          generalize hX : ((S.alloc (.inner ⟨keysOf true ((mid, x) :: R), valsOf true ((mid, x) :: R), false⟩)).set pid (.inner ⟨keysOf dup L, valsOf dup L, true⟩)).set pid
            (.inner ⟨keysOf dup L, valsOf dup L, false⟩) = X at hs3
          have hXo : X.order = s.order := by rw [← hX]; exact ho'
          have hXh : X.height = s.height := by rw [← hX]; exact hh'
          have hXm : X.num = s.num := by rw [← hX]; exact hm'
          have hg := createRoot_grown (s := X) (A := Tr.node pid dup L) (B := B') (m := mid) (by rw [hXo]; exact ho) (hs3.perm (by
            rw [hB'own, e]
            show List.Perm _ (((pid, _) :: L.flatMap (fun c => c.2.own false)) ++ _)
            simp only [Ctx.own]
            perm_ac)) (by rw [hXo]; exact hA') (by rw [hXo]; exact hB') (by rw [hXh]; exact hh)
          rw [hB'id] at hg
          refine ⟨?_, by rw [← hXm]; exact hg.num, by rw [← hXo]; exact hg.order⟩
          have hgt := hg.tree
          rw [hXo] at hgt
          have hlv : (Tr.node pid dup L).leaves ++ B'.leaves =
              (Ctx.top : Ctx V (h + 1) (h + 1)).before ++ cs.flatMap (fun c => c.2.leaves) ++ (Ctx.top : Ctx V (h + 1) (h + 1)).after := by
            rw [hB'lv, e]
            simp [Tr.leaves, Tr.node, Ctx.before, Ctx.after]
          rw [hlv] at hgt
          exact hgt
      | false =>
        rw [if_neg (by simp)]
        simp only
        rw [hct] at hs2
        generalize hX : (S.alloc (.inner ⟨keysOf true ((mid, x) :: R), valsOf true ((mid, x) :: R), false⟩)).set pid (.inner ⟨keysOf dup L, valsOf dup L, false⟩) = X at hs2
        have hXo : X.order = s.order := by rw [← hX]; exact ho'
        have hXh : X.height = s.height := by rw [← hX]; exact hh'
        have hXm : X.num = s.num := by rw [← hX]; exact hm'
        have hXr : X.root = s.root := by rw [← hX]; exact hr'
        obtain ⟨s', h1, h2⟩ := raise_grown c (Tr.node pid dup (l ++ (k, t) :: r)) (Tr.node pid dup L) B' mid X hct (by rw [hXo]; exact ho)
          (hs2.perm (by
            rw [hB'own, e]
            show List.Perm _ (((pid, _) :: L.flatMap (fun c => c.2.own false)) ++ _ ++ c.own pid)
            perm_ac)) (by rw [hXo]; exact hok) (by rw [hXo]; exact hA') (by rw [hXo]; exact hB')
          (by rw [hXr, hr, Ctx.plug]; congr 1; exact c.plug_id_top _ _ rfl) (by rw [hXh]; exact hh)
        rw [hB'id] at h1
        refine ⟨s', h1, ?_, by rw [h2.num, hXm], by rw [h2.order, hXo]⟩
        have h3 := h2.tree
        rw [hXo] at h3
        have hlv : (Tr.node pid dup L).leaves ++ B'.leaves = cs.flatMap (fun c => c.2.leaves) := by
          rw [hB'lv, e]
          simp [Tr.leaves, Tr.node]
        rw [hlv] at h3
        exact h3
    · rw [if_neg (by simpa [State.set] using hfull)]
      have hT : (Tr.node pid dup cs).Ok s.order c.lo c.hi := ⟨hk2, hd2, by simp only [Tr.node]; omega, by simp only [Tr.node]; omega⟩
      refine ⟨_, rfl, ⟨H, c.plug (Tr.node pid dup cs), ?_, hrep _ hT, ?_, ?_, hh⟩, rfl, rfl⟩
      · exact hs1.perm (List.Perm.trans (by rfl) (c.own_plug _).symm)
      · rw [c.leaves_plug]; rfl
      · show s.root = _
        rw [hr, Ctx.plug]
        congr 1
        exact c.plug_id_top _ _ rfl

end Verif.PTree

import Verif.PTree.Concurrent
import Verif.PTree.Props

/-!
# Paged B+ tree: calls of several threads, properties
-/

namespace Verif.PTree

variable {V : Type}

theorem leaf_pages {s : State V} {j : Nat} {l : Leaf V} (h : s.leaf j = .ok l) : s.pages j = some (.leaf l) := by
  unfold State.leaf at h
  split at h <;> simp_all

/-- A change of one leaf sends no call another way. -/
theorem locate_set {s : State V} {j : Nat} {l : Leaf V} (hl : s.leaf j = .ok l) (l' : Leaf V) (n : Nat) {key : Int} {r : Option (Nat × List Nat)}
    (h : locate s key = .ok r) : locate ({ s.set j (.leaf l') with num := n } : State V) key = .ok r := by
  have hj := leaf_pages hl
  have hi : ∀ x, ({ s.set j (.leaf l') with num := n } : State V).inner x = s.inner x := by
    intro x
    by_cases e : x = j
    · subst e; simp [State.inner, State.set, hj]
    · simp [State.inner, State.set, e]
  have hl : ∀ x l, s.leaf x = .ok l → ∃ l'', ({ s.set j (.leaf l') with num := n } : State V).leaf x = .ok l'' := by
    intro x l hx
    by_cases e : x = j
    · subst e; exact ⟨l', by simp [State.leaf, State.set]⟩
    · exact ⟨l, by simpa [State.leaf, State.set, e] using hx⟩
  cases r with
  | some r => exact locate_leaves hi hl rfl rfl h
  | none =>
    rw [locate] at h ⊢
    cases hr : s.root with
    | none =>
      have : ({ s.set j (.leaf l') with num := n } : State V).root = none := hr
      rw [this]
    | some t =>
      rw [hr] at h
      simp only at h
      split at h <;> simp at h

/-- The removal of a key from its leaf. -/
theorem rmLeaf_rep {s : State V} {E : List (Int × V)} (h : Rep s E) {key : Int} {id : Nat} {path : List Nat} {l : Leaf V} (hloc : locate s key = .ok (some (id, path)))
    (hl : s.leaf id = .ok l) :
    get E key = leafGet l.es key ∧ ((leafGet l.es key).isSome → Rep { s.set id (.leaf { l with es := leafRemove (leafIdx l.es key) l.es }) with num := s.num - 1 } (E.filter (fun e => decide (e.1 ≠ key)))) := by
  rcases h.tree with ⟨hr, rfl⟩ | ⟨H, t, hs, hok, hlk, hr, hh, rfl⟩
  · simp [locate, hr] at hloc
  · obtain ⟨c, i, es, nx, rfl, hk, hloc'⟩ := locate_spec hs hok hr hh key
    rw [hloc] at hloc'
    obtain ⟨rfl, rfl⟩ : id = i ∧ path = c.path := by simpa using hloc'
    rw [leaf_at hs] at hl
    obtain rfl : _ = l := by simpa using hl
    obtain ⟨h1, h2⟩ := c.around _ hok hk
    obtain ⟨⟨hb, h3, h4, h5⟩, _⟩ := c.ok_plug _ hok
    have h3 : Asc (keys es) := h3
    have h4 : ∀ e ∈ es, geLo c.lo e.1 ∧ ltHi c.hi e.1 := h4
    have h5 : es.length ≤ s.order := h5
    have hget := get_mid (es := es) h1 h2
    simp only [leafGet_get h3]
    refine ⟨by rw [ents_at, hget], fun hsome => ?_⟩
    have hfl := filter_length h3 hsome
    rw [erase_get h3 hsome, ents_at, filter_mid h1 h2]
    refine rep_leaf h.order hs hok hlk hr hh ⟨hb, ?_, fun e he => h4 e (List.mem_filter.mp he).1, ?_⟩ _ ?_
    · exact List.Pairwise.sublist (List.Sublist.map _ List.filter_sublist) h3
    · simp only [Tr.lf]; omega
    · rw [h.num, ents_at]
      simp only [List.length_append]
      omega

/-- The other threads would find their leaves again. -/
def Stays (s s' : State V) : Prop := ∀ key r, locate s key = .ok r → locate s' key = .ok r

theorem Stays.refl (s : State V) : Stays s s := fun _ _ h => h

theorem removeAt_eq {s : State V} {id : Nat} {path : List Nat} {key : Int} (h : locate s key = .ok (some (id, path))) :
    removeAt s id path s.header key = remove s key := by
  rw [remove, h]
  rfl

theorem removeAt_leaf {s : State V} {id : Nat} {path : List Nat} {key : Int} {l : Leaf V} (hl : s.leaf id = .ok l)
    (h1 : leafGet l.es key = none ∨ l.isRoot = false ∨ 1 < l.es.length) (h2 : l.isRoot = true ∨ s.order / 2 < l.es.length ∨ leafGet l.es key = none) :
    Stays s (removeAt s id path s.header key).1 := by
  rw [removeAt]
  simp only [hl]
  cases hg : leafGet l.es key with
  | none => exact Stays.refl s
  | some w =>
    have hlt : leafIdx l.es key < l.es.length := by
      rw [leafGet] at hg
      rcases Nat.lt_or_ge (leafIdx l.es key) l.es.length with c | c
      · exact c
      · rw [List.getElem?_eq_none c] at hg; simp at hg
    have hlen : (leafRemove (leafIdx l.es key) l.es).length = l.es.length - 1 := by rw [leafRemove, List.length_eraseIdx_of_lt hlt]
    simp only [hg, reduceCtorEq, false_or, or_false] at h1 h2
    rw [if_neg, if_neg]
    · exact fun key r h => locate_set hl _ _ h
    · rintro ⟨g1, g2⟩
      have g2 : (leafRemove (leafIdx l.es key) l.es).length < s.order / 2 := g2
      have g1 : l.isRoot = false := by simpa using g1
      simp only [g1, Bool.false_eq_true, false_or] at h2
      omega
    · rintro ⟨g1, g2⟩
      have g1 : l.isRoot = true := g1
      have g2 : (leafRemove (leafIdx l.es key) l.es).length = 0 := g2
      simp only [g1, Bool.true_eq_false, false_or] at h1
      omega

/-- What holds between events: the pages are a tree with some entries, and the threads hold on to the right leaves. -/
structure Sys.Good (x : Sys V) (E : List (Int × V)) : Prop where
  rep : Rep x.tree E
  found : ∀ t c f, x.threads t = .found c f → locate x.tree c.key = .ok f.loc

/-- The event changes more than one leaf only when no other call holds on to a leaf; a removal that goes the long way leaves its page at
least half full, and no call has changed the header since it read it. -/
def Sys.Quiet (x : Sys V) : Ev V → Prop
  | .call _ _ => True
  | .go t => ∀ c f, x.threads t = .found c f → (x.Alone t ∨ OneLeaf x.tree c f.loc) ∧ ∀ k, c = .remove k → Calm x.tree k ∧ f.header = x.tree.header

/-- Every event of the schedule is quiet. -/
def Sys.QuietRun (x : Sys V) : List (Ev V) → Prop
  | [] => True
  | e :: es => x.Quiet e ∧ (x.step e).1.QuietRun es

/-- What the last step of a call does. -/
theorem act_rep {s : State V} {E : List (Int × V)} (h : Rep s E) {c : Call V} {f : Found} (hf : locate s c.key = .ok f.loc)
    (hr : ∀ k, c = .remove k → Calm s k ∧ f.header = s.header) :
    ∃ s', (OneLeaf s c f.loc → Stays s s') ∧
      ((∃ E', act s c f = (s', .ends (.ok (c.answer (get E)))) ∧ Rep s' E' ∧ get E' = c.effect (get E)) ∨
       (s' = s ∧ ∃ c', act s c f = (s', .again c'))) := by
  have hput : ∀ k v, get (leafPut E k v) = fun j => if j = k then some v else get E j := fun k v => funext fun j => leafPut_get h.asc k v j
  cases c with
  | insert k v =>
    obtain ⟨s', h1, h2⟩ := insert_rep h k v
    have hf : locate s k = .ok f.loc := hf
    rw [insert, hf] at h1
    refine ⟨s', fun ho => ?_, Or.inl ⟨_, ?_, h2, hput k v⟩⟩
    · cases hl : f.loc with
      | none => rw [hl] at ho; exact ho.elim
      | some p =>
        obtain ⟨id, path⟩ := p
        rw [hl] at ho h1 hf
        simp only [insertAt] at h1
        cases hx : s.leaf id with
        | ok l =>
          have ho := ho l hx
          simp only [hx] at h1
          split at h1
          · have h1 := (Prod.mk.inj h1).1
            subst h1
            exact fun key r hk => locate_set hx _ s.num hk
          · rename_i hg
            rw [if_pos (ho.resolve_left (by simp [hg]))] at h1
            have h1 := (Prod.mk.inj h1).1
            subst h1
            exact fun key r hk => locate_set hx _ _ hk
        | err => simp [hx] at h1
        | panic => simp [hx] at h1
        | hang => simp [hx] at h1
    · cases hl : f.loc with
      | none =>
        rw [hl] at h1
        have h1 := (Prod.mk.inj h1).1
        simp only [act, hl]
        rw [h1]
        rfl
      | some p =>
        obtain ⟨id, path⟩ := p
        rw [hl] at h1
        simp only at h1
        simp only [act, hl]
        rw [h1]
        rfl
  | insertLatched k v =>
    have hf : locate s k = .ok f.loc := hf
    obtain ⟨s', h1, h2⟩ := insert_rep h k v
    rw [← insertC_eq h, insertC, hf] at h1
    cases hl : f.loc with
    | none =>
      rw [hl] at h1
      have h1 := (Prod.mk.inj h1).1
      refine ⟨s', fun ho => ho.elim, Or.inl ⟨_, ?_, h2, hput k v⟩⟩
      simp only [act, hl]
      rw [h1]
      rfl
    | some p =>
      obtain ⟨id, path⟩ := p
      rw [hl] at h1
      simp only at h1
      simp only [act, hl]
      cases hsf : f.safe with
      | false => exact ⟨s, fun _ => Stays.refl s, Or.inr ⟨rfl, _, rfl⟩⟩
      | true =>
        cases hx : s.leaf id with
        | ok l =>
          simp only [hx] at h1
          simp only [Bool.not_true, Bool.false_eq_true, if_false]
          cases hsl : safeInsert s.order l with
          | false => exact ⟨s, fun _ => Stays.refl s, Or.inr ⟨rfl, _, rfl⟩⟩
          | true =>
            simp only [hsl, Bool.not_true, Bool.false_eq_true, if_false] at h1 ⊢
            refine ⟨s', fun _ => ?_, Or.inl ⟨_, ?_, h2, hput k v⟩⟩
            · split at h1 <;> (have h1 := (Prod.mk.inj h1).1; subst h1)
              · exact fun key r hk => locate_set hx _ s.num hk
              · exact fun key r hk => locate_set hx _ _ hk
            · cases hg : leafGet l.es k with
              | some w => simp only [hg] at h1 ⊢; rw [(Prod.mk.inj h1).1]; rfl
              | none => simp only [hg] at h1 ⊢; rw [(Prod.mk.inj h1).1]; rfl
        | err => simp [hx] at h1
        | panic => simp [hx] at h1
        | hang => simp [hx] at h1
  | remove k =>
    have hf : locate s k = .ok f.loc := hf
    obtain ⟨hc, hh⟩ := hr k rfl
    obtain ⟨s', h1, h2⟩ := remove_rep h hc
    have hE : get (E.filter (fun e => decide (e.1 ≠ k))) = fun j => if j = k then none else get E j := funext fun j => get_filter k j
    cases hl : f.loc with
    | none =>
      rw [hl] at hf
      simp only [remove, hf] at h1
      have h1 := Prod.mk.inj h1
      obtain rfl := h1.1
      refine ⟨s, fun _ => Stays.refl s, Or.inl ⟨_, ?_, h2, hE⟩⟩
      simp only [act, hl, Call.answer]
      rw [← Res.ok.inj h1.2]
    | some p =>
      obtain ⟨id, path⟩ := p
      rw [hl] at hf
      rw [← removeAt_eq hf] at h1
      refine ⟨s', fun ho => ?_, Or.inl ⟨_, ?_, h2, hE⟩⟩
      · cases hx : s.leaf id with
        | ok l =>
          have := removeAt_leaf (path := path) hx (ho l hx) (hc _ _ _ hf hx)
          rwa [h1] at this
        | err => simp [removeAt, hx] at h1
        | panic => simp [removeAt, hx] at h1
        | hang => simp [removeAt, hx] at h1
      · simp only [act, hl, hh, h1]
        rfl
  | removeLatched k =>
    have hf : locate s k = .ok f.loc := hf
    have hE : get (E.filter (fun e => decide (e.1 ≠ k))) = fun j => if j = k then none else get E j := funext fun j => get_filter k j
    cases hl : f.loc with
    | none =>
      rw [hl] at hf
      have hrep := search_rep h k
      simp only [search, hf] at hrep
      have hn : get E k = none := (Res.ok.inj hrep).symm
      refine ⟨s, fun _ => Stays.refl s, Or.inl ⟨E, ?_, h, ?_⟩⟩
      · simp only [act, hl, Call.answer, hn]; rfl
      · funext j
        simp only [Call.effect]
        by_cases e : j = k
        · rw [if_pos e, e, hn]
        · rw [if_neg e]
    | some p =>
      obtain ⟨id, path⟩ := p
      rw [hl] at hf
      have hrep := search_rep h k
      simp only [search, hf] at hrep
      simp only [act, hl]
      cases hsf : f.safe with
      | false => exact ⟨s, fun _ => Stays.refl s, Or.inr ⟨rfl, _, rfl⟩⟩
      | true =>
        simp only [Bool.not_true, Bool.false_eq_true, if_false]
        cases hx : s.leaf id with
        | ok l =>
          obtain ⟨g1, g2⟩ := rmLeaf_rep h hf hx
          cases hg : leafGet l.es k with
          | none =>
            refine ⟨s, fun _ => Stays.refl s, Or.inl ⟨E, ?_, h, ?_⟩⟩
            · simp only [hg, Call.answer, g1]; rfl
            · funext j
              simp only [Call.effect]
              by_cases e : j = k
              · rw [if_pos e, e, g1, hg]
              · rw [if_neg e]
          | some w =>
            refine ⟨_, fun _ => ?_, Or.inl ⟨_, ?_, g2 (by simp [hg]), hE⟩⟩
            · exact fun key r hk => locate_set hx _ _ hk
            · simp only [hg, Call.answer, g1]; rfl
        | err => simp [hx] at hrep
        | panic => simp [hx] at hrep
        | hang => simp [hx] at hrep
  | search k =>
    have hf : locate s k = .ok f.loc := hf
    have hrep := search_rep h k
    refine ⟨s, fun _ => Stays.refl s, Or.inl ⟨E, ?_, h, rfl⟩⟩
    rw [search, hf] at hrep
    cases hl : f.loc with
    | none =>
      rw [hl] at hrep
      simp only [act, hl, Call.answer]
      rw [← Res.ok.inj hrep]
    | some p =>
      obtain ⟨id, path⟩ := p
      rw [hl] at hrep
      simp only at hrep
      simp only [act, hl, Call.answer]
      cases hx : s.leaf id with
      | ok l => simp only [hx] at hrep ⊢; rw [Res.ok.inj hrep]
      | err => simp [hx] at hrep
      | panic => simp [hx] at hrep
      | hang => simp [hx] at hrep

theorem locate_rep {s : State V} {E : List (Int × V)} (h : Rep s E) (key : Int) : ∃ r, locate s key = .ok r := by
  have := search_rep h key
  rw [search] at this
  split at this <;> first | exact ⟨_, by assumption⟩ | simp at this

/-- One event: nothing ends, or one call ends with the answer it should give. -/
theorem step_good {x : Sys V} {E : List (Int × V)} (h : x.Good E) {e : Ev V} (hq : x.Quiet e) :
    ∃ E', (x.step e).1.Good E' ∧ (((x.step e).2 = none ∧ get E' = get E) ∨
      ∃ c, (x.step e).2 = some (c, .ok (c.answer (get E))) ∧ get E' = c.effect (get E)) := by
  cases e with
  | call t c =>
    rw [Sys.step]
    split
    · refine ⟨E, ⟨h.rep, fun u c' f hu => ?_⟩, Or.inl ⟨rfl, rfl⟩⟩
      by_cases e : u = t
      · simp [Sys.put, e] at hu
      · simp only [Sys.put, e, if_false] at hu
        exact h.found u c' f hu
    · exact ⟨E, h, Or.inl ⟨rfl, rfl⟩⟩
  | go t =>
    rw [Sys.step]
    cases ht : x.threads t with
    | idle => exact ⟨E, h, Or.inl ⟨rfl, rfl⟩⟩
    | called c =>
      obtain ⟨r, hr⟩ := locate_rep h.rep c.key
      simp only [hr]
      refine ⟨E, ⟨h.rep, fun u c' f hu => ?_⟩, Or.inl ⟨trivial, rfl⟩⟩
      by_cases e : u = t
      · simp only [Sys.put, e, if_true, Thread.found.injEq] at hu
        obtain ⟨rfl, rfl⟩ := hu
        exact hr
      · simp only [Sys.put, e, if_false] at hu
        exact h.found u c' f hu
    | found c f =>
      obtain ⟨q1, q2⟩ := hq c f ht
      obtain ⟨s', hs, hcase⟩ := act_rep h.rep (h.found t c f ht) q2
      have hothers : ∀ th, (∀ c f, th ≠ Thread.found c f) → ∀ u c' f', (x.put s' t th).threads u = .found c' f' → locate (x.put s' t th).tree c'.key = .ok f'.loc := by
        intro th hth u c' f' hu
        by_cases e : u = t
        · simp only [Sys.put, e, if_true] at hu
          exact (hth _ _ hu).elim
        · simp only [Sys.put, e, if_false] at hu
          rcases q1 with q | q
          · exact (q u c' f' e hu).elim
          · exact hs q _ _ (h.found u c' f' hu)
      rcases hcase with ⟨E', h1, h2, h3⟩ | ⟨rfl, c', h1⟩
      · simp only [h1]
        exact ⟨E', ⟨h2, hothers _ (by simp)⟩, Or.inr ⟨c, rfl, h3⟩⟩
      · simp only [h1]
        exact ⟨E, ⟨h.rep, hothers _ (by simp)⟩, Or.inl ⟨trivial, rfl⟩⟩

theorem sysRun_good : ∀ (es : List (Ev V)) (x : Sys V) (E : List (Int × V)), x.Good E → x.QuietRun es →
    ∃ E', (x.run es).1.Good E' ∧ (x.run es).2.map (·.2) = (expectCalls (get E) ((x.run es).2.map (·.1))).2.map .ok ∧
      get E' = (expectCalls (get E) ((x.run es).2.map (·.1))).1
  | [], x, E, h, _ => ⟨E, h, rfl, rfl⟩
  | e :: es, x, E, h, hq => by
    obtain ⟨E1, g1, hc⟩ := step_good h hq.1
    obtain ⟨E2, k1, k2, k3⟩ := sysRun_good es _ E1 g1 hq.2
    refine ⟨E2, k1, ?_⟩
    rcases hc with ⟨hn, he⟩ | ⟨c, hn, he⟩
    · simp only [Sys.run, hn, Option.toList_none, List.nil_append]
      rw [← he]
      exact ⟨k2, k3⟩
    · simp only [Sys.run, hn, Option.toList_some, List.singleton_append, List.map_cons, expectCalls]
      rw [← he]
      exact ⟨by rw [k2], k3⟩

theorem sysNew_good {o : Nat} (ho : 2 ≤ o) : (Sys.new o : Sys V).Good [] := ⟨rep_new ho, fun t c f h => by simp [Sys.new] at h⟩

/-! ## C98: calls of several threads -/

/-- C98. Any number of threads insert, remove and search, with their steps in any order. Every call gives the answer it would have given, had
the calls been made one after another in the order in which they ended, and the index holds what it would then hold. Missing:
schedules in which a page is made, split or emptied while another call is between its steps, and removals that go the long way
after another call has changed the header; both lose keys. -/
theorem C98_interleavings_partial {o : Nat} (ho : 2 ≤ o) (es : List (Ev V)) (hq : (Sys.new o).QuietRun es) :
    let r := (Sys.new o).run es
    let one := expectCalls Map.empty (r.2.map (·.1))
    r.2.map (·.2) = one.2.map .ok ∧ (∀ k, search r.1.tree k = .ok (one.1 k)) ∧
      ∀ a b, ∃ l, rangeScan r.1.tree a b = .ok l ∧ Lists one.1 (fun k => a ≤ k ∧ k ≤ b) l := by
  obtain ⟨E, h1, h2, h3⟩ := sysRun_good es _ _ (sysNew_good ho) hq
  rw [get_nil] at h2 h3
  refine ⟨h2, fun k => by rw [search_rep h1.rep, h3], fun a b => ⟨_, rangeScan_rep h1.rep a b, h3 ▸ rep_lists h1.rep a b⟩⟩

/-- `OneLeaf`, computed. -/
def oneLeafB (s : State V) : Call V → Option (Nat × List Nat) → Bool
  | .insert _ _, none => false
  | .insertLatched _ _, none => false
  | .insert k _, some (id, _) => match s.leaf id with
    | .ok l => (leafGet l.es k).isSome || decide (l.es.length < s.order)
    | _ => true
  | .remove k, some (id, _) => match s.leaf id with
    | .ok l => (leafGet l.es k).isNone || !l.isRoot || decide (1 < l.es.length)
    | _ => true
  | _, _ => true

theorem oneLeafB_ok {s : State V} {c : Call V} {loc : Option (Nat × List Nat)} (h : oneLeafB s c loc = true) : OneLeaf s c loc := by
  cases c <;> cases loc <;> simp only [OneLeaf, oneLeafB, Bool.false_eq_true] at h ⊢
  all_goals
    intro l hl
    rw [hl] at h
    cases hg : leafGet l.es _ <;> simp_all

/-- The thread has found its leaf. -/
def Thread.isFound : Thread V → Bool
  | .found _ _ => true
  | _ => false

/-- `Quiet`, computed, when only the first `n` threads are in the index. -/
def quietB (n : Nat) (x : Sys V) : Ev V → Bool
  | .call t _ => decide (t < n)
  | .go t => decide (t < n) && match x.threads t with
    | .found c f => ((List.range n).all (fun u => u == t || !(x.threads u).isFound) || oneLeafB x.tree c f.loc) &&
      match c with
      | .remove k => calmB x.tree k && decide (f.header = x.tree.header)
      | _ => true
    | _ => true

/-- `QuietRun`, computed. -/
def quietRunB (n : Nat) (x : Sys V) : List (Ev V) → Bool
  | [] => true
  | e :: es => quietB n x e && quietRunB n (x.step e).1 es

theorem step_few {n : Nat} {x : Sys V} {e : Ev V} (hf : ∀ u, n ≤ u → x.threads u = .idle) (h : quietB n x e = true) :
    ∀ u, n ≤ u → (x.step e).1.threads u = .idle := by
  have hput : ∀ t, t < n → ∀ s th u, n ≤ u → (x.put s t th).threads u = .idle := by
    intro t ht s th u hu
    simp only [Sys.put]
    rw [if_neg (by omega)]
    exact hf u hu
  intro u hu
  cases e with
  | call t c =>
    have ht : t < n := by simpa [quietB] using h
    rw [Sys.step]
    split
    · exact hput t ht _ _ u hu
    · exact hf u hu
  | go t =>
    have ht : t < n := by simp only [quietB, Bool.and_eq_true, decide_eq_true_eq] at h; exact h.1
    rw [Sys.step]
    split
    · exact hf u hu
    · split <;> exact hput t ht _ _ u hu
    · split <;> exact hput t ht _ _ u hu

theorem quietB_ok {n : Nat} {x : Sys V} {e : Ev V} (hf : ∀ u, n ≤ u → x.threads u = .idle) (h : quietB n x e = true) : x.Quiet e := by
  cases e with
  | call t c => trivial
  | go t =>
    intro c f ht
    simp only [quietB, ht, Bool.and_eq_true, decide_eq_true_eq, Bool.or_eq_true] at h
    obtain ⟨_, h1, h2⟩ := h
    refine ⟨h1.imp (fun g u c' f' hu hx => ?_) oneLeafB_ok, fun k hk => ?_⟩
    · rcases Nat.lt_or_ge u n with l | l
      · have := List.all_eq_true.mp g u (List.mem_range.mpr l)
        simp [hu, hx, Thread.isFound] at this
      · rw [hf u l] at hx; simp at hx
    · subst hk
      simp only [Bool.and_eq_true, decide_eq_true_eq] at h2
      exact ⟨calmB_calm h2.1, h2.2⟩

theorem quietRunB_ok {n : Nat} : ∀ (es : List (Ev V)) (x : Sys V), (∀ u, n ≤ u → x.threads u = .idle) → quietRunB n x es = true → x.QuietRun es
  | [], _, _, _ => trivial
  | e :: es, x, hf, h => by
    obtain ⟨h1, h2⟩ := Bool.and_eq_true_iff.mp h
    exact ⟨quietB_ok hf h1, quietRunB_ok es _ (step_few hf h1) h2⟩

/-- A call made by a thread alone. -/
def alone (t : Nat) (c : Call V) : List (Ev V) := [.call t c, .go t, .go t]

/-- One thread fills the index; then four threads insert, remove and search at the same time. -/
def busy : List (Ev Nat) :=
  (List.range 9).flatMap (fun i => alone 0 (.insert (Int.ofNat i + 1) (i + 1))) ++
  [.call 0 (.insert 20 200), .call 1 (.insertLatched 0 100), .call 2 (.search 20), .call 3 (.removeLatched 8),
   .go 0, .go 2, .go 1, .go 3, .go 0, .go 3, .go 2, .go 1, .go 3, .go 1, .go 3, .go 1,
   .call 2 (.search 8), .call 3 (.insert 8 80), .go 2, .go 3, .go 3, .go 2]

example : (Sys.new 4).QuietRun busy ∧ ((Sys.new 4).run busy).2.drop 9 =
    [(.insert 20 200, .ok .done), (.removeLatched 8, .ok (.removed true)), (.search 20, .ok (.value (some 200))), (.insertLatched 0 100, .ok .done),
     (.insert 8 80, .ok .done), (.search 8, .ok (.value (some 80)))] :=
  ⟨quietRunB_ok (n := 4) busy _ (fun _ _ => rfl) (by decide +kernel), by decide +kernel⟩

/-- A removal reads the header, then another thread's insert splits the root, then the removal goes on. -/
def rootLost : List (Ev Nat) :=
  (List.range 4).flatMap (fun i => alone 0 (.insert (Int.ofNat i + 1) (i + 1))) ++ [.call 1 (.remove 1), .go 1] ++ alone 0 (.insert 5 5) ++ [.go 1] ++ alone 0 (.search 5)

/-- C98. The removal writes back the root it had read: the insert that made a new root in between reported success, and its key is
not found. -/
theorem C98_root_overwritten_fails : ((Sys.new 4).run rootLost).2.drop 4 =
    [(.insert 5 5, .ok .done), (.remove 1, .ok (.removed true)), (.search 5, .ok (.value none))] := by decide +kernel

/-- C98. Two removals at the same time, are counted as one. -/
theorem C98_count_fails : ∃ es : List (Ev Nat), es = (List.range 6).flatMap (fun i => alone 0 (.insert (Int.ofNat i + 1) (i + 1))) ++
      [.call 1 (.remove 6), .call 2 (.remove 5), .go 1, .go 2, .go 1, .go 2] ∧
    ((Sys.new 4).run es).2.drop 6 = [(.remove 6, .ok (.removed true)), (.remove 5, .ok (.removed true))] ∧
    rangeScan ((Sys.new 4).run es).1.tree 0 10 = .ok [(1, 1), (2, 2), (3, 3), (4, 4)] ∧ ((Sys.new 4).run es).1.tree.num = 5 :=
  ⟨_, rfl, by decide +kernel⟩

end Verif.PTree

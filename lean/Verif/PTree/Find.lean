import Verif.PTree.Tree

/-!
# Paged B+ tree: finding the leaf of a key
-/

namespace Verif.PTree

variable {V : Type} {H : Nat}

theorem OkTail.keys {α : Type} {P : α → Option Int → Option Int → Prop} (hP : ∀ t lo hi, P t lo hi → ltB lo hi) :
    ∀ (cs : List (Int × α)) (hi : Option Int), OkTail P cs hi → Asc (cs.map (·.1)) ∧ ∀ x ∈ cs, ltHi hi x.1
  | [], _, _ => ⟨by simp [Asc], by simp⟩
  | c :: cs, hi, h => by
    obtain ⟨h1, h2⟩ := h
    obtain ⟨i1, i2⟩ := OkTail.keys hP cs hi h2
    have hb := hP _ _ _ h1
    have hlt : ∀ x ∈ cs, c.1 < x.1 := by
      cases cs with
      | nil => simp
      | cons d cs =>
        have h0 : c.1 < d.1 := hb _ _ rfl rfl
        intro x hx
        rcases List.mem_cons.mp hx with rfl | hx
        · exact h0
        · have := (asc_cons.mp i1).1 x hx; omega
    refine ⟨asc_cons.mpr ⟨hlt, i1⟩, fun x hx => ?_⟩
    rcases List.mem_cons.mp hx with rfl | hx
    · intro a ha
      cases cs with
      | nil => exact hb _ _ rfl ha
      | cons d cs =>
        have := i2 d (by simp) a ha
        have := hlt d (by simp)
        omega
    · exact i2 x hx

theorem OkKids.lt {α : Type} {P : α → Option Int → Option Int → Prop} (hP : ∀ t lo hi, P t lo hi → ltB lo hi) {lo hi : Option Int} {c : Int × α}
    {cs : List (Int × α)} (h : OkKids P lo (c :: cs) hi) : (∀ x ∈ cs, ltB lo (some x.1)) ∧ ltB lo hi := by
  obtain ⟨h1, h2⟩ := h
  obtain ⟨i1, i2⟩ := OkTail.keys hP cs hi h2
  have hb := hP _ _ _ h1
  cases cs with
  | nil => exact ⟨by simp, hb⟩
  | cons d cs =>
    have h0 : ltB lo (some d.1) := hb
    have h3 : ∀ x ∈ d :: cs, ltB lo (some x.1) := by
      intro x hx
      rcases List.mem_cons.mp hx with rfl | hx
      · exact h0
      · intro a b ha hb
        cases hb
        have := h0 a _ ha rfl
        have := (asc_cons.mp i1).1 x hx
        omega
    refine ⟨h3, fun a b ha hb => ?_⟩
    have := h0 a _ ha rfl
    have := i2 d (by simp) b hb
    omega

theorem Tr.Ok.lt {o : Nat} : ∀ {h : Nat} (t : Tr V h) (lo hi : Option Int), t.Ok o lo hi → ltB lo hi
  | 0, _, _, _, h => h.1
  | h + 1, (_, _, cs), lo, hi, hk => by
    obtain ⟨h1, _⟩ := hk
    cases cs with
    | nil => exact h1.elim
    | cons c cs => exact (OkKids.lt (P := fun c lo hi => Tr.Ok o c lo hi) (fun t lo hi ht => Tr.Ok.lt t lo hi ht) h1).2

/-- The keys of the children behind the first one are in order, above the lower and below the upper bound. -/
theorem Tr.Ok.keys {o h : Nat} {c : Int × Tr V h} {cs : Kids V h} {lo hi : Option Int} (hk : OkKids (fun c lo hi => c.Ok o lo hi) lo (c :: cs) hi) :
    Asc (cs.map (·.1)) ∧ (∀ x ∈ cs, ltB lo (some x.1)) ∧ (∀ x ∈ cs, ltHi hi x.1) := by
  have hP : ∀ (t : Tr V h) (lo hi : Option Int), t.Ok o lo hi → ltB lo hi := fun t lo hi => Tr.Ok.lt t lo hi
  have h1 := OkTail.keys hP cs hi hk.2
  exact ⟨h1.1, (OkKids.lt hP hk).1, h1.2⟩

theorem between_cut (key : Int) : ∀ (xs ys : List Int), xs ≠ [] → (∀ x ∈ xs, x ≤ key) → (∀ y ∈ ys, key < y) →
    between key (xs ++ ys) = if ys = [] then none else some (xs.length - 1)
  | [], _, h, _, _ => absurd rfl h
  | [x], [], _, _, _ => by simp [between]
  | [x], y :: ys, _, h1, h2 => by
    have := h1 x (by simp); have := h2 y (by simp)
    simp only [List.cons_append, List.nil_append, between]
    rw [if_pos ⟨by omega, by omega⟩]
    simp
  | x :: x' :: xs, ys, _, h1, h2 => by
    have ih := between_cut key (x' :: xs) ys (by simp) (fun y hy => h1 y (by simp [hy])) h2
    have := h1 x' (by simp)
    simp only [List.cons_append, between]
    rw [if_neg (by omega)]
    rw [List.cons_append] at ih
    rw [ih]
    split <;> simp

theorem findChild_cut {keys : List Int} {vals : List Nat} {b : Bool} {key : Int} {xs ys : List Int} (hk : keys = xs ++ ys) (hne : keys ≠ [])
    (hv : vals.length = keys.length + 1) (h1 : ∀ x ∈ xs, x ≤ key) (h2 : ∀ y ∈ ys, key < y) :
    Inner.findChild ⟨keys, vals, b⟩ key = vals[xs.length]? := by
  subst hk
  unfold Inner.findChild
  simp only
  cases xs with
  | nil =>
    cases ys with
    | nil => exact absurd rfl hne
    | cons y ys =>
      have := h2 y (by simp)
      simp [this]
  | cons x xs =>
    have := h1 x (by simp)
    simp only [List.cons_append]
    rw [if_neg (by omega)]
    split
    · rename_i e
      simp only [List.append_eq_nil_iff] at e
      obtain ⟨rfl, rfl⟩ := e
      simp at hv
      rw [if_pos (by omega)]
      rfl
    · have hb := between_cut key (x :: xs) ys (by simp) h1 h2
      rw [List.cons_append] at hb
      rw [hb]
      simp only [List.cons_append, List.length_cons, List.length_append] at hv
      cases ys with
      | nil =>
        simp only [if_true, List.getLast?_eq_getElem?, hv]
        simp
      | cons y ys =>
        simp only [reduceCtorEq, if_false, List.length_cons, Nat.add_sub_cancel]
        rw [if_pos (by simp at hv; omega)]

theorem valsOf_length {h : Nat} (dup : Bool) (cs : Kids V h) (hc : cs ≠ []) : (valsOf dup cs).length = (keysOf dup cs).length + 1 := by
  cases cs with
  | nil => exact absurd rfl hc
  | cons c cs => cases dup <;> simp [valsOf, keysOf]

theorem cut_le {α : Type} (key : Int) : ∀ (cs : List (Int × α)), Asc (cs.map (·.1)) →
    ∃ A B, cs = A ++ B ∧ (∀ x ∈ A, x.1 ≤ key) ∧ (∀ y ∈ B, key < y.1)
  | [], _ => ⟨[], [], rfl, by simp, by simp⟩
  | c :: cs, h => by
    have h' := asc_cons.mp h
    rcases Int.lt_or_le key c.1 with hl | hl
    · refine ⟨[], c :: cs, rfl, by simp, fun y hy => ?_⟩
      rcases List.mem_cons.mp hy with rfl | hy
      · exact hl
      · have := h'.1 y hy; omega
    · obtain ⟨A, B, rfl, h1, h2⟩ := cut_le key cs h'.2
      refine ⟨c :: A, B, rfl, fun x hx => ?_, h2⟩
      rcases List.mem_cons.mp hx with rfl | hx
      · exact hl
      · exact h1 x hx

/-- The child an internal page gives for a key is the one whose bounds the key lies in. -/
theorem findChild_route {o h : Nat} {dup : Bool} {cs : Kids V h} {lo hi : Option Int} {key : Int} {b : Bool}
    (hk : OkKids (fun c lo hi => c.Ok o lo hi) lo cs hi) (hd : dup = true → lo = cs.head?.map (·.1)) (hp : 0 < (keysOf dup cs).length)
    (h1 : geLo lo key) (h2 : ltHi hi key) :
    ∃ l k t r, cs = l ++ (k, t) :: r ∧ Inner.findChild ⟨keysOf dup cs, valsOf dup cs, b⟩ key = some t.id ∧
      geLo (if l.isEmpty then lo else some k) key ∧ ltHi (bound r hi) key := by
  cases cs with
  | nil => exact hk.elim
  | cons c rest =>
    obtain ⟨k0, t0⟩ := c
    obtain ⟨a1, _, _⟩ := Tr.Ok.keys hk
    obtain ⟨A, B, rfl, hA, hB⟩ := cut_le key rest a1
    have hf : Inner.findChild ⟨keysOf dup ((k0, t0) :: (A ++ B)), valsOf dup ((k0, t0) :: (A ++ B)), b⟩ key =
        ((t0.id :: (A ++ B).map (·.2.id))[A.length]?) := by
      have hne : keysOf dup ((k0, t0) :: (A ++ B)) ≠ [] := fun e => by rw [e] at hp; simp at hp
      have hB' : ∀ y ∈ B.map (·.1), key < y := fun y hy => by obtain ⟨z, hz, rfl⟩ := List.mem_map.mp hy; exact hB z hz
      have hA' : ∀ y ∈ A.map (·.1), y ≤ key := fun y hy => by obtain ⟨z, hz, rfl⟩ := List.mem_map.mp hy; exact hA z hz
      cases dup with
      | false =>
        rw [findChild_cut (xs := A.map (·.1)) (ys := B.map (·.1)) (by simp [keysOf]) hne (valsOf_length _ _ (by simp)) hA' hB']
        simp [valsOf]
      | true =>
        have hk0 : k0 ≤ key := h1 k0 (hd rfl)
        rw [findChild_cut (xs := k0 :: A.map (·.1)) (ys := B.map (·.1)) (by simp [keysOf]) hne (valsOf_length _ _ (by simp))
          (by intro x hx; rcases List.mem_cons.mp hx with rfl | hx; exact hk0; exact hA' x hx) hB']
        simp [valsOf]
    have hbB : ltHi (bound B hi) key := by
      cases B with
      | nil => exact h2
      | cons y B => intro a ha; cases ha; exact hB y (by simp)
    rcases List.eq_nil_or_concat A with rfl | ⟨A', x, rfl⟩
    · exact ⟨[], k0, t0, B, rfl, by rw [hf]; simp, by simpa using h1, hbB⟩
    · obtain ⟨k, t⟩ := x
      refine ⟨(k0, t0) :: A', k, t, B, by simp, by rw [hf]; simp, ?_, hbB⟩
      intro a ha
      simp at ha
      subst ha
      exact hA (k, t) (by simp)

/-- The key lies between the bounds of a place. -/
def Ctx.holds {h : Nat} (c : Ctx V H h) (key : Int) : Prop := geLo c.lo key ∧ ltHi c.hi key

/-- Going down from a place leads to the leaf of the key. -/
theorem descend_spec {s : State V} {o : Nat} {key : Int} : ∀ {h : Nat} (c : Ctx V H h) (t : Tr V h), Held s ((c.plug t).own true) →
    (c.plug t).Ok o none none → c.holds key →
    ∃ (c' : Ctx V H 0) (i : Nat) (es : List (Int × V)) (nx : Option Nat), c'.plug (.lf i es nx) = c.plug t ∧ c'.holds key ∧
      descend s key h t.id c.path = .ok (i, c'.path)
  | 0, c, t, hs, _, hk => by
    obtain ⟨i, es, nx⟩ := t
    refine ⟨c, i, es, nx, rfl, hk, ?_⟩
    have hm : (i, Page.leaf ⟨es, nx, c.isTop⟩) ∈ (c.plug (Tr.lf i es nx)).own true :=
      (c.own_plug _).mem_iff.mpr (by simp [Tr.own, Tr.lf])
    simp [descend, Tr.id, hs.leaf hm]
  | h + 1, c, t, hs, hok, hk => by
    obtain ⟨i, dup, cs⟩ := t
    obtain ⟨ht, _⟩ := c.ok_plug _ hok
    obtain ⟨h1, h2, h3, _⟩ := ht
    obtain ⟨l, k, t, r, e, hf, hlo, hhi⟩ := findChild_route (b := c.isTop) h1 h2 h3 hk.1 hk.2
    have hm : (i, Page.inner ⟨keysOf dup cs, valsOf dup cs, c.isTop⟩) ∈ (c.plug (Tr.node i dup cs)).own true :=
      (c.own_plug _).mem_iff.mpr (by simp [Tr.own, Tr.node])
    have ih := descend_spec (s := s) (o := o) (key := key) (.up c i dup l k r) t
    have ep : (Ctx.up c i dup l k r).plug t = c.plug (Tr.node i dup cs) := by rw [Ctx.plug, ← e]
    rw [ep] at ih
    obtain ⟨c', i', es, nx, g1, g2, g3⟩ := ih hs hok ⟨hlo, hhi⟩
    refine ⟨c', i', es, nx, g1, g2, ?_⟩
    rw [← g3]
    simp only at hf
    simp only [descend, Tr.id, hs.inner hm, hf]
    rfl

end Verif.PTree

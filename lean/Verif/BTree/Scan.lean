import Verif.BTree.Lemmas
import Verif.BTree.Spec

/-!
# B+ tree: scans of an ordered tree, and whole insert histories
-/

namespace Verif.BTree

variable {K V : Type}

section
variable [LT K] [LE K] [DecidableEq K] [DecidableLT K] [DecidableLE K] [Std.IsLinearOrder K] [Std.LawfulOrderLT K]
set_option linter.unusedSectionVars false

/-! ### The leaf chain -/

/-- The work on a list of leaves, one after the other. -/
def collect (f : List (K × V) → List (K × V) × Bool) : List (Leaf K V) → List (K × V)
  | [] => []
  | l :: ls => if (f l.es).2 then (f l.es).1 else (f l.es).1 ++ collect f ls

theorem deref_mid {pre post orphans : List (Leaf K V)} {l : Leaf K V} (hn : (ids (pre ++ l :: post)).Nodup) :
    deref ((pre ++ l :: post) ++ orphans) l.id = some l := by
  unfold deref
  have h1 : pre.find? (fun x => decide (x.id = l.id)) = none := by
    rw [List.find?_eq_none]
    intro x hx
    simp only [ids, List.map_append, List.map_cons] at hn
    rw [List.nodup_append] at hn
    have := hn.2.2 x.id (List.mem_map.2 ⟨x, hx, rfl⟩) l.id (by simp)
    simpa using this
  rw [List.append_assoc, List.find?_append, h1]
  simp

theorem walk_ok {f : List (K × V) → List (K × V) × Bool} {orphans : List (Leaf K V)} :
    ∀ (n : Nat) {pre post : List (Leaf K V)} {l : Leaf K V}, (l :: post).length ≤ n → Linked (pre ++ l :: post) none →
    (ids (pre ++ l :: post)).Nodup → walk f ((pre ++ l :: post) ++ orphans) n l = some (collect f (l :: post)) := by
  intro n
  induction n with
  | zero => intro pre post l h; simp at h
  | succ n ih =>
    intro pre post l hn hl hd
    have hl2 := (linked_append.1 hl).2
    simp only [Linked] at hl2
    simp only [walk, collect]
    by_cases hs : (f l.es).2 = true
    · simp [hs]
    · simp only [Bool.not_eq_true] at hs
      simp only [hs, Bool.false_eq_true, if_false]
      cases post with
      | nil =>
        have : l.next = none := hl2.1
        simp [this, collect]
      | cons l' post =>
        have : l.next = some l'.id := hl2.1
        have hsh : pre ++ l :: l' :: post = (pre ++ [l]) ++ l' :: post := by simp
        rw [hsh] at hl hd ⊢
        simp only [this]
        rw [deref_mid hd]
        simp only
        rw [ih (by simp at hn ⊢; omega) hl hd]
        simp

/-! ### One leaf -/

theorem takeRange_append (s e : K) (incl : Bool) (a b : List (K × V)) :
    takeRange (KeyOps.linear K) s e incl (a ++ b) =
      if (takeRange (KeyOps.linear K) s e incl a).2 then takeRange (KeyOps.linear K) s e incl a
      else ((takeRange (KeyOps.linear K) s e incl a).1 ++ (takeRange (KeyOps.linear K) s e incl b).1,
        (takeRange (KeyOps.linear K) s e incl b).2) := by
  induction a with
  | nil => simp [takeRange]
  | cons x a ih =>
    obtain ⟨k, v⟩ := x
    simp only [List.cons_append, takeRange]
    by_cases h1 : (KeyOps.linear K).lt k s = true
    · rw [if_pos h1, if_pos h1]; exact ih
    · rw [if_neg h1, if_neg h1]
      by_cases h2 : ((KeyOps.linear K).gt k e || !incl && (KeyOps.linear K).eq k e) = true
      · rw [if_pos h2, if_pos h2]; simp
      · rw [if_neg h2, if_neg h2, ih]
        simp only
        split <;> simp

theorem collect_takeRange (s e : K) (incl : Bool) (ls : List (Leaf K V)) :
    collect (takeRange (KeyOps.linear K) s e incl) ls = (takeRange (KeyOps.linear K) s e incl (entriesOf ls)).1 := by
  induction ls with
  | nil => simp [collect, entriesOf, takeRange]
  | cons l ls ih =>
    have : entriesOf (l :: ls) = l.es ++ entriesOf ls := by simp [entriesOf]
    rw [this, takeRange_append, collect, ih]
    split <;> rfl

theorem collect_all (ls : List (Leaf K V)) : collect (fun es => (es, false)) ls = entriesOf ls := by
  induction ls with
  | nil => simp [collect, entriesOf]
  | cons l ls ih => simp [collect, ih, entriesOf]

/-- On ordered entries the loop returns exactly those in range. -/
theorem takeRange_sorted (s e : K) (incl : Bool) (es : List (K × V)) (h : es.Pairwise (fun a b => a.1 ≤ b.1)) :
    (takeRange (KeyOps.linear K) s e incl es).1 = es.filter fun x => inRange s e incl x.1 := by
  induction es with
  | nil => simp [takeRange]
  | cons x es ih =>
    obtain ⟨k, v⟩ := x
    rw [List.pairwise_cons] at h
    have ih := ih h.2
    simp only [takeRange]
    by_cases h1 : (KeyOps.linear K).lt k s = true
    · rw [if_pos h1, ih, List.filter_cons_of_neg]
      simp only [KeyOps.linear, decide_eq_true_eq] at h1
      simp only [inRange]
      grind
    · rw [if_neg h1]
      by_cases h2 : ((KeyOps.linear K).gt k e || !incl && (KeyOps.linear K).eq k e) = true
      · rw [if_pos h2]
        symm
        rw [List.filter_eq_nil_iff]
        intro y hy
        simp only [KeyOps.linear, Bool.or_eq_true, Bool.and_eq_true, decide_eq_true_eq, Bool.not_eq_true'] at h1 h2
        rw [List.mem_cons] at hy
        have hk : k ≤ y.1 := by
          rcases hy with rfl | hy
          · exact Std.le_refl k
          · exact h.1 y hy
        simp only [inRange, Bool.and_eq_true, Bool.or_eq_true, decide_eq_true_eq]
        rintro ⟨_, h4 | ⟨h4, h5⟩⟩
        · grind
        · rcases h2 with h2 | h2
          · grind
          · rw [h4] at h2; exact absurd h2.1 (by simp)
      · rw [if_neg h2]
        rw [List.filter_cons_of_pos]
        · simp [ih]
        · simp only [KeyOps.linear, Bool.or_eq_true, Bool.and_eq_true, decide_eq_true_eq, Bool.not_eq_true'] at h1 h2
          simp only [inRange, Bool.and_eq_true, Bool.or_eq_true, decide_eq_true_eq]
          refine ⟨by grind, ?_⟩
          by_cases hke : k = e
          · right
            refine ⟨?_, hke⟩
            cases incl with
            | true => rfl
            | false => exact absurd (.inr ⟨rfl, hke⟩) h2
          · left; grind

/-! ### Shape -/

theorem height_ok {o q : Nat} : ∀ {h : Nat} {hi : Option K} {t : Tree K V}, Ok o q h hi t → t.height = h
  | 0, hi, .leaf _ _ _, _ => by simp [Tree.height]
  | 0, hi, .node _ _, h => by simp [Ok] at h
  | h + 1, hi, .leaf _ _ _, hh => by simp [Ok] at hh
  | h + 1, hi, .node ks cs, hh => by
    obtain ⟨_, _, h3⟩ := hh
    cases cs with
    | nil => have := OkL_length h3; simp at this
    | cons c cs =>
      rw [OkL_cons] at h3
      simp [Tree.height, height_ok h3.1]

theorem size_ok {o q h : Nat} {hi : Option K} {t : Tree K V} (hh : Ok o q h hi t) : t.size ≤ o - 1 := by
  cases h <;> cases t <;> first | exact hh.1 | exact hh.elim

/-- The tree is well formed. -/
structure Inv (d : Bool) (t : BTree K V) : Prop where
  order : 3 ≤ t.order
  par : d = true ∨ (t.order - 1) / 2 < (t.order - 1) - (t.order - 1) / 2
  ok : ∃ h, Ok t.order ((t.order - 1) - (t.order - 1) / 2) h none t.root
  srt : Srt d t.root.items
  link : Linked t.root.leaves none
  nodup : (ids t.root.leaves).Nodup
  lt : ∀ i ∈ ids t.root.leaves, i < t.fresh

theorem Srt.ents {d : Bool} {t : Tree K V} (h : Srt d t.items) :
    t.entries.Pairwise (fun a b => if d then a.1 < b.1 else a.1 ≤ b.1) := by
  have h1 : (entKeys t.items).Pairwise (fun a b => if d then a < b else a ≤ b) := by
    unfold entKeys
    rw [List.pairwise_filterMap]
    refine List.Pairwise.imp ?_ h
    intro a b hab x hx y hy
    cases a <;> cases b <;> simp at hx hy
    subst hx; subst hy
    cases d <;> simpa [Rel, Item.key] using hab
  rw [entKeys_items, List.pairwise_map] at h1
  exact h1

theorem Srt.ents_le {d : Bool} {t : Tree K V} (h : Srt d t.items) : t.entries.Pairwise (fun a b => a.1 ≤ b.1) := by
  refine List.Pairwise.imp ?_ h.ents
  intro a b hab
  cases d <;> simp at hab <;> grind

theorem descend_ok {o q : Nat} {d : Bool} (s : K) : ∀ (h : Nat) {lo hi : Option K} {t : Tree K V}, Ok o q h hi t →
    Srt d (bound lo ++ t.items ++ bound hi) →
    ∃ l pre post, descend (KeyOps.linear K) s h t = some l ∧ t.leaves = pre ++ l :: post ∧ ∀ e ∈ entriesOf pre, e.1 < s := by
  intro h
  induction h with
  | zero =>
    intro lo hi t hc _
    cases t with
    | node ks cs => exact hc.elim
    | leaf id es next => exact ⟨⟨id, es, next⟩, [], [], rfl, rfl, by simp [entriesOf]⟩
  | succ h ih =>
    intro lo hi t hc hs
    cases t with
    | leaf id es next => exact hc.elim
    | node keys cs =>
      obtain ⟨hc1, hc2, hc3⟩ := hc
      have hcl := OkL_length hc3
      obtain ⟨i, hi1, hi2, hi3⟩ : ∃ i, (keys.findIdx? (fun k => (KeyOps.linear K).ge k s)).getD 0 = i ∧
          i ≤ keys.length ∧ ∀ k ∈ keys.take i, k < s := by
        refine ⟨_, rfl, ?_, ?_⟩
        · cases hf : keys.findIdx? (fun k => (KeyOps.linear K).ge k s) with
          | none => simp
          | some i => rw [List.findIdx?_eq_some_iff_getElem] at hf; obtain ⟨h1, _⟩ := hf; simp only [Option.getD_some]; omega
        · cases hf : keys.findIdx? (fun k => (KeyOps.linear K).ge k s) with
          | none => simp
          | some i =>
            rw [List.findIdx?_eq_some_iff_getElem] at hf
            obtain ⟨h1, _, h2⟩ := hf
            intro k hk
            rw [List.mem_take_iff_getElem] at hk
            obtain ⟨j, hj, rfl⟩ := hk
            have := h2 j (by simp only [Option.getD_some] at hj; omega)
            simp only [KeyOps.linear, decide_eq_true_eq] at this
            grind
      simp only [descend, hi1]
      obtain ⟨ks1, ks2, rfl, hl1⟩ : ∃ ks1 ks2, keys = ks1 ++ ks2 ∧ ks1.length = i :=
        ⟨keys.take i, keys.drop i, (List.take_append_drop _ _).symm, by rw [List.length_take]; omega⟩
      subst hl1
      rw [List.take_left] at hi3
      obtain ⟨cs1, c, cs2, rfl, hlen⟩ : ∃ cs1 c cs2, cs = cs1 ++ c :: cs2 ∧ cs1.length = ks1.length := by
        have hlt : ks1.length < cs.length := by omega
        refine ⟨cs.take ks1.length, cs[ks1.length], cs.drop (ks1.length + 1), ?_, by rw [List.length_take]; omega⟩
        rw [← List.drop_eq_getElem_cons hlt, List.take_append_drop]
      rw [OkL_append _ _ hlen, OkL_cons] at hc3
      obtain ⟨hpre, hcc, hpost⟩ := hc3
      rw [← hlen, get_mid]
      simp only
      obtain ⟨l, pre, post, h1, h2, h3⟩ := ih hcc (node_child hlen hpost hs)
      refine ⟨l, leavesL cs1 ++ pre, post ++ leavesL cs2, h1, ?_, ?_⟩
      · simp [Tree.leaves, leavesL_append, leavesL, h2]
      · intro e he
        rw [entriesOf_append, List.mem_append] at he
        rcases he with he | he
        · obtain ⟨k, hk, hle⟩ := node_before hlen hs (ent_mem_itemsL ks1 he)
          have := hi3 k (List.mem_of_getLast? hk)
          simp only [Item.key] at hle
          grind
        · exact h3 e he

theorem leftmost_ok {o q : Nat} : ∀ (h : Nat) {hi : Option K} {t : Tree K V}, Ok o q h hi t →
    ∃ l post, leftmost h t = some l ∧ t.leaves = l :: post := by
  intro h
  induction h with
  | zero =>
    intro hi t hc
    cases t with
    | node ks cs => exact hc.elim
    | leaf id es next => exact ⟨⟨id, es, next⟩, [], rfl, rfl⟩
  | succ h ih =>
    intro hi t hc
    cases t with
    | leaf id es next => exact hc.elim
    | node keys cs =>
      obtain ⟨_, _, hc3⟩ := hc
      cases cs with
      | nil => have := OkL_length hc3; simp at this
      | cons c cs =>
        rw [OkL_cons] at hc3
        obtain ⟨l, post, h1, h2⟩ := ih hc3.1
        refine ⟨l, post ++ leavesL cs, ?_, ?_⟩
        · simpa [leftmost] using h1
        · simp [Tree.leaves, leavesL, h2]

/-- A range scan returns the entries in range. -/
theorem scanRange_ok {d : Bool} {t : BTree K V} (hi : Inv d t) (s e : K) (incl : Bool) :
    t.scanRange (KeyOps.linear K) s e incl = some (t.root.entries.filter fun x => inRange s e incl x.1) := by
  obtain ⟨h, hok⟩ := hi.ok
  obtain ⟨l, pre, post, h1, h2, h3⟩ := descend_ok (d := d) (lo := none) s h hok (by simpa [bound] using hi.srt)
  unfold BTree.scanRange
  rw [height_ok hok, h1]
  simp only [BTree.alive]
  have hlink := hi.link
  have hnd := hi.nodup
  rw [h2] at hlink hnd ⊢
  rw [walk_ok _ (by simp; omega) hlink hnd, collect_takeRange]
  have hent : t.root.entries = entriesOf pre ++ entriesOf (l :: post) := by
    rw [Tree.entries, h2, entriesOf_append]
  have hsrt := hi.srt.ents_le
  rw [hent] at hsrt ⊢
  rw [takeRange_sorted _ _ _ _ (List.pairwise_append.1 hsrt).2.1, List.filter_append]
  have : (entriesOf pre).filter (fun x => inRange s e incl x.1) = [] := by
    rw [List.filter_eq_nil_iff]
    intro x hx
    have := h3 x hx
    simp only [inRange]
    grind
  rw [this]; rfl

/-- A full scan returns all entries. -/
theorem scanFull_ok {d : Bool} {t : BTree K V} (hi : Inv d t) : t.scanFull = some t.root.entries := by
  obtain ⟨h, hok⟩ := hi.ok
  obtain ⟨l, post, h1, h2⟩ := leftmost_ok h hok
  unfold BTree.scanFull
  rw [height_ok hok, h1]
  simp only [BTree.alive]
  have hlink := hi.link
  have hnd := hi.nodup
  rw [Tree.entries, h2] at *
  have := walk_ok (f := fun es => (es, false)) (orphans := t.orphans) (pre := []) (l := l) (post := post) ((l :: post ++ t.orphans).length)
    (by simp) hlink hnd
  simp only [List.nil_append] at this
  rw [this, collect_all]

/-! ### Insert -/

theorem insert_ok [DecidableEq V] {d : Bool} {t : BTree K V} (hi : Inv d t) (key : K) (v : V)
    (hnew : d = true → ∀ e ∈ t.root.entries, e.1 ≠ key) :
    ∃ t' r, t.insert (KeyOps.linear K) key v = some (t', r) ∧ Inv d t' ∧ t'.order = t.order ∧ t'.orphans = t.orphans ∧
      Ins key v r t.root.entries t'.root.entries := by
  obtain ⟨h, hok⟩ := hi.ok
  have ho := hi.order
  unfold BTree.insert
  by_cases hfull : t.root.size = t.order - 1
  · rw [if_pos hfull]
    obtain ⟨L, R, s, hsplit, hL, hR, hLs, hRs, hsrt, hstep, hent, hslt, hsge⟩ :=
      split_ok (f := t.fresh) (d := d) (lo := none) (hi := none) (ks1 := []) (ks2 := []) (cs1 := []) (cs2 := []) ho rfl hi.par hok hfull
        (by simpa [bound] using hi.srt) rfl (by simp) (by simp)
    simp only [List.nil_append, List.length_nil] at hsplit
    rw [hsplit]
    simp only
    have hroot : Ok t.order ((t.order - 1) - (t.order - 1) / 2) (h + 1) none (.node [s] [L, R]) := by
      refine ⟨by simp; omega, ?_, ?_⟩
      · intro b hb; cases hb
      · exact ⟨hL, hR⟩
    have hleaves : (Tree.node [s] [L, R]).leaves = L.leaves ++ R.leaves := by simp [Tree.leaves, leavesL]
    have hentr : (Tree.node [s] [L, R]).entries = t.root.entries := by
      rw [Tree.entries, hleaves, hent]
    obtain ⟨t', r, f', hrec, hI⟩ := ins_ok (d := d) ho rfl hi.par (key := key) (v := v) (h + 1) (lo := none) (f := t.fresh + 1) hroot
      (Nat.le_refl _) (by simp [Tree.size]; omega) (by simpa [bound, Tree.items, itemsL] using hsrt) (by simp) (by simp)
      (by rw [hentr]; exact hnew)
    rw [height_ok hok, hrec]
    have hst := hstep.trans (hleaves ▸ hI.leaves)
    refine ⟨_, _, rfl, ⟨ho, hi.par, ⟨_, hI.ok⟩, by simpa [bound] using hI.srt, hst.link _ hi.link, hst.nodup hi.lt hi.nodup,
      hst.lt hi.lt⟩, rfl, rfl, ?_⟩
    have := hI.ins
    rw [hentr] at this
    exact this
  · rw [if_neg hfull]
    have hroom : t.root.size < t.order - 1 := by have := size_ok hok; omega
    obtain ⟨t', r, f', hrec, hI⟩ := ins_ok (d := d) ho rfl hi.par (key := key) (v := v) h (lo := none) (f := t.fresh) hok
      (Nat.le_refl _) hroom (by simpa [bound] using hi.srt) (by simp) (by simp) hnew
    rw [height_ok hok, hrec]
    have hst := hI.leaves
    exact ⟨_, _, rfl, ⟨ho, hi.par, ⟨_, hI.ok⟩, by simpa [bound] using hI.srt, hst.link _ hi.link, hst.nodup hi.lt hi.nodup,
      hst.lt hi.lt⟩, rfl, rfl, hI.ins⟩

theorem inv_new {d : Bool} {order : Nat} (ho : 3 ≤ order)
    (hp : d = true ∨ (order - 1) / 2 < (order - 1) - (order - 1) / 2) : Inv d (BTree.new order : BTree K V) := by
  refine ⟨ho, hp, ⟨0, ?_⟩, ?_, ?_, ?_, ?_⟩
  · refine ⟨by simp, ?_⟩
    intro b hb; cases hb
  · simp [BTree.new, Tree.items, Srt]
  · simp [BTree.new, Tree.leaves, Linked, firstId]
  · simp [BTree.new, Tree.leaves, ids]
  · simp [BTree.new, Tree.leaves, ids]

end

end Verif.BTree

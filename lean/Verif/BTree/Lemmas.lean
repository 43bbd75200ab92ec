import Verif.BTree.Model

/-!
# B+ tree: the invariant and its preservation by inserts
-/

namespace Verif.BTree

variable {K V : Type}

/-! ## In-order sequence of entries and separators -/

/-- An entry of a leaf or a separator of an internal node. -/
inductive Item (K : Type) where
  | ent (k : K)
  | sep (k : K)

/-- Its key. -/
def Item.key : Item K → K
  | .ent k => k
  | .sep k => k

mutual
/-- Entries and separators from left to right. -/
def Tree.items : Tree K V → List (Item K)
  | .leaf _ es _ => es.map fun e => .ent e.1
  | .node ks cs => itemsL cs ks
/-- Children with the separators between them. -/
def itemsL : List (Tree K V) → List K → List (Item K)
  | [], _ => []
  | c :: cs, [] => c.items ++ itemsL cs []
  | c :: cs, k :: ks => c.items ++ .sep k :: itemsL cs ks
end

theorem itemsL_append : ∀ (cs1 : List (Tree K V)) (ks1 : List K) (cs2 : List (Tree K V)) (ks2 : List K),
    cs1.length = ks1.length → itemsL (cs1 ++ cs2) (ks1 ++ ks2) = itemsL cs1 ks1 ++ itemsL cs2 ks2
  | [], [], cs2, ks2, _ => by simp [itemsL]
  | c :: cs1, k :: ks1, cs2, ks2, h => by
    simp only [List.length_cons, Nat.add_right_cancel_iff] at h
    simp [itemsL, itemsL_append cs1 ks1 cs2 ks2 h]
  | [], _ :: _, _, _, h => by simp at h
  | _ :: _, [], _, _, h => by simp at h

theorem leavesL_append (cs1 cs2 : List (Tree K V)) : leavesL (cs1 ++ cs2) = leavesL cs1 ++ leavesL cs2 := by
  induction cs1 with
  | nil => simp [leavesL]
  | cons c cs ih => simp [leavesL, ih]

/-- What follows the first child. -/
def afterHead : List K → List (Tree K V) → List (Item K)
  | [], cs => itemsL cs []
  | k :: ks, cs => .sep k :: itemsL cs ks

theorem itemsL_cons (c : Tree K V) (cs : List (Tree K V)) (ks : List K) :
    itemsL (c :: cs) ks = c.items ++ afterHead ks cs := by
  cases ks <;> simp [itemsL, afterHead]

/-! ## Structural invariant -/

/-- Each child satisfies `P` with its upper separator; the last one with `hi`. -/
def OkL (P : Option K → Tree K V → Prop) (hi : Option K) : List K → List (Tree K V) → Prop
  | [], [c] => P hi c
  | k :: ks, c :: cs => P (some k) c ∧ OkL P hi ks cs
  | _, _ => False

/-- The same for children that all have a separator after them. -/
def PreL (P : Option K → Tree K V → Prop) : List K → List (Tree K V) → Prop
  | [], [] => True
  | k :: ks, c :: cs => P (some k) c ∧ PreL P ks cs
  | _, _ => False

/-- The rest after the first child. -/
def PostL (P : Option K → Tree K V → Prop) (hi : Option K) : List K → List (Tree K V) → Prop
  | [], cs => cs = []
  | _ :: ks, cs => OkL P hi ks cs

theorem OkL_append {P : Option K → Tree K V → Prop} {hi : Option K} : ∀ (ks1 : List K) (cs1 : List (Tree K V)) {ks2 cs2},
    cs1.length = ks1.length → (OkL P hi (ks1 ++ ks2) (cs1 ++ cs2) ↔ PreL P ks1 cs1 ∧ OkL P hi ks2 cs2)
  | [], [], _, _, _ => by simp [PreL]
  | k :: ks1, c :: cs1, ks2, cs2, h => by
    simp only [List.length_cons, Nat.add_right_cancel_iff] at h
    simp [OkL, PreL, OkL_append ks1 cs1 h, and_assoc]
  | [], _ :: _, _, _, h => by simp at h
  | _ :: _, [], _, _, h => by simp at h

theorem OkL_cons {P : Option K → Tree K V → Prop} {hi : Option K} (ks : List K) (c : Tree K V) (cs : List (Tree K V)) :
    OkL P hi ks (c :: cs) ↔ P (ks.head?.or hi) c ∧ PostL P hi ks cs := by
  cases ks with
  | nil => cases cs <;> simp [OkL, PostL]
  | cons k ks => simp [OkL, PostL]

theorem OkL_length {P : Option K → Tree K V → Prop} {hi : Option K} : ∀ {ks : List K} {cs : List (Tree K V)},
    OkL P hi ks cs → cs.length = ks.length + 1
  | [], [_], _ => rfl
  | _ :: ks, _ :: cs, h => by simp [OkL_length h.2]
  | [], [], h => by simp [OkL] at h
  | [], _ :: _ :: _, h => by simp [OkL] at h
  | _ :: _, [], h => by simp [OkL] at h

/-- The key `q` places before the end is not `hi`: a full node never splits at a key equal to its upper separator. -/
def NR (q : Nat) (ks : List K) (hi : Option K) : Prop :=
  ∀ h, hi = some h → q ≤ ks.length → ks[ks.length - q]? ≠ some h

/-- A subtree of height `h` below the upper separator `hi`, in a tree of order `o`. -/
def Ok (o q : Nat) : Nat → Option K → Tree K V → Prop
  | 0, hi, .leaf _ es _ => es.length ≤ o - 1 ∧ NR q (es.map (·.1)) hi
  | h + 1, hi, .node ks cs => ks.length ≤ o - 1 ∧ NR q ks hi ∧ OkL (fun hi c => Ok o q h hi c) hi ks cs
  | _, _, _ => False

/-! ## Leaf chain -/

/-- Identity of the first leaf, or what comes after. -/
def firstId (ls : List (Leaf K V)) (n : Option Nat) : Option Nat :=
  match ls with
  | [] => n
  | l :: _ => some l.id

/-- Each leaf points to the one after it, the last one to `n`. -/
def Linked : List (Leaf K V) → Option Nat → Prop
  | [], _ => True
  | l :: ls, n => l.next = firstId ls n ∧ Linked ls n

theorem firstId_append (a b : List (Leaf K V)) (n : Option Nat) : firstId (a ++ b) n = firstId a (firstId b n) := by
  cases a <;> rfl

theorem linked_append {a b : List (Leaf K V)} {n : Option Nat} : Linked (a ++ b) n ↔ Linked a (firstId b n) ∧ Linked b n := by
  induction a with
  | nil => simp [Linked]
  | cons l a ih => simp [Linked, ih, firstId_append, and_assoc]

/-- The identities. -/
def ids (ls : List (Leaf K V)) : List Nat := ls.map (·.id)

/-- A change of the leaves that keeps the chain intact; new leaves take identities from `f` up to `f'`. -/
structure LeafStep (f f' : Nat) (ls ls' : List (Leaf K V)) : Prop where
  le : f ≤ f'
  first : ∀ n, firstId ls' n = firstId ls n
  link : ∀ n, Linked ls n → Linked ls' n
  ids : ∀ i ∈ ids ls', i ∈ ids ls ∨ (f ≤ i ∧ i < f')
  nodup : (∀ i ∈ BTree.ids ls, i < f) → (BTree.ids ls).Nodup → (BTree.ids ls').Nodup

theorem LeafStep.refl (f : Nat) (ls : List (Leaf K V)) : LeafStep f f ls ls :=
  ⟨Nat.le_refl _, fun _ => rfl, fun _ h => h, fun _ h => .inl h, fun _ h => h⟩

theorem LeafStep.trans {f f1 f2 : Nat} {a b c : List (Leaf K V)} (h1 : LeafStep f f1 a b) (h2 : LeafStep f1 f2 b c) :
    LeafStep f f2 a c := by
  refine ⟨Nat.le_trans h1.le h2.le, fun n => (h2.first n).trans (h1.first n), fun n h => h2.link n (h1.link n h), ?_, ?_⟩
  · intro i hi
    rcases h2.ids i hi with h | h
    · rcases h1.ids i h with h | h
      · exact .inl h
      · exact .inr ⟨h.1, Nat.lt_of_lt_of_le h.2 h2.le⟩
    · exact .inr ⟨Nat.le_trans h1.le h.1, h.2⟩
  · intro hl hn
    refine h2.nodup ?_ (h1.nodup hl hn)
    intro i hi
    rcases h1.ids i hi with h | h
    · exact Nat.lt_of_lt_of_le (hl i h) h1.le
    · exact h.2

theorem LeafStep.lt {f f' : Nat} {a b : List (Leaf K V)} (h : LeafStep f f' a b) (hl : ∀ i ∈ BTree.ids a, i < f) :
    ∀ i ∈ BTree.ids b, i < f' := by
  intro i hi
  rcases h.ids i hi with h1 | h1
  · exact Nat.lt_of_lt_of_le (hl i h1) h.le
  · exact h1.2

theorem LeafStep.frame {f f' : Nat} {a b : List (Leaf K V)} (h : LeafStep f f' a b) (x y : List (Leaf K V)) :
    LeafStep f f' (x ++ a ++ y) (x ++ b ++ y) := by
  refine ⟨h.le, ?_, ?_, ?_, ?_⟩
  · intro n; simp only [firstId_append, h.first]
  · intro n hh
    simp only [linked_append] at hh ⊢
    obtain ⟨⟨h1, h2⟩, h3⟩ := hh
    exact ⟨⟨by rw [h.first]; exact h1, h.link _ h2⟩, h3⟩
  · intro i hi
    simp only [BTree.ids, List.map_append, List.mem_append] at hi ⊢
    rcases hi with (hi | hi) | hi
    · exact .inl (.inl (.inl hi))
    · rcases h.ids i hi with h1 | h1
      · exact .inl (.inl (.inr h1))
      · exact .inr h1
    · exact .inl (.inr hi)
  · intro hl hn
    simp only [BTree.ids, List.map_append, List.mem_append] at hl hn ⊢
    rw [List.nodup_append, List.nodup_append] at hn ⊢
    obtain ⟨⟨h1, h2, h3⟩, h4, h5⟩ := hn
    have hb := h.nodup (fun i hi => hl i (.inl (.inr hi))) h2
    refine ⟨⟨h1, hb, ?_⟩, h4, ?_⟩
    · intro i hi j hj e
      subst e
      rcases h.ids i hj with h6 | h6
      · exact h3 i hi i h6 rfl
      · have := hl i (.inl (.inl hi)); omega
    · intro i hi j hj e
      subst e
      simp only [List.mem_append] at hi h5
      rcases hi with hi | hi
      · exact h5 i (.inl hi) i hj rfl
      · rcases h.ids i hi with h6 | h6
        · exact h5 i (.inr h6) i hj rfl
        · have := hl i (.inr hj); omega

/-- The entries of a list of leaves. -/
def entriesOf (ls : List (Leaf K V)) : List (K × V) := ls.flatMap (·.es)

/-- The entries of a tree, from left to right. -/
def Tree.entries (t : Tree K V) : List (K × V) := entriesOf t.leaves

theorem entriesOf_append (a b : List (Leaf K V)) : entriesOf (a ++ b) = entriesOf a ++ entriesOf b := by
  simp [entriesOf]

/-! ## Order -/

section
variable [LT K] [LE K] [DecidableEq K] [DecidableLT K] [DecidableLE K] [Std.IsLinearOrder K] [Std.LawfulOrderLT K]
set_option linter.unusedSectionVars false

/-- Allowed orders of two items; with `d` all keys are distinct. -/
def Rel (d : Bool) : Item K → Item K → Prop
  | .sep a, .ent b => a ≤ b
  | x, y => if d then x.key < y.key else x.key ≤ y.key

theorem Rel.trans {d : Bool} {x y z : Item K} (h1 : Rel d x y) (h2 : Rel d y z) : Rel d x z := by
  cases d <;> cases x <;> cases y <;> cases z <;> simp only [Rel, Item.key] at * <;> grind

theorem Rel.le {d : Bool} {x y : Item K} (h : Rel d x y) : x.key ≤ y.key := by
  cases d <;> cases x <;> cases y <;> simp only [Rel, Item.key] at * <;> grind

/-- The sequence is ordered. -/
def Srt (d : Bool) (l : List (Item K)) : Prop := l.Pairwise (Rel d)

/-- A separator that may be missing. -/
def bound (k : Option K) : List (Item K) := (k.map Item.sep).toList

/-- Replacing the middle of an ordered sequence by something that is ordered together with its two neighbours. -/
theorem srt_replace {d : Bool} {a m m' b : List (Item K)} (h : Srt d (a ++ m ++ b))
    (h' : Srt d (a.getLast?.toList ++ m' ++ b.head?.toList)) : Srt d (a ++ m' ++ b) := by
  unfold Srt at *
  rw [List.pairwise_append, List.pairwise_append] at h h' ⊢
  obtain ⟨⟨h1, h2, h3⟩, h4, h5⟩ := h
  obtain ⟨⟨g1, g2, g3⟩, g4, g5⟩ := h'
  have left : ∀ x ∈ a, ∀ y ∈ m', Rel d x y := by
    intro x hx y hy
    have hne : a ≠ [] := List.ne_nil_of_mem hx
    have hlast := g3 (a.getLast hne) (by rw [List.getLast?_eq_some_getLast hne]; simp) y hy
    rw [← List.dropLast_concat_getLast hne] at hx h1
    rw [List.mem_append] at hx
    rcases hx with hx | hx
    · rw [List.pairwise_append] at h1
      exact (h1.2.2 x hx _ (by simp)).trans hlast
    · rw [List.mem_singleton] at hx; rw [hx]; exact hlast
  refine ⟨⟨h1, g2, left⟩, h4, ?_⟩
  intro x hx y hy
  cases b with
  | nil => cases hy
  | cons z b =>
    have hz : ∀ x, x ∈ a ∨ x ∈ m' → Rel d x z := by
      intro x hx
      rcases hx with hx | hx
      · exact h5 x (by simp [hx]) z (by simp)
      · exact g5 x (by simp [hx]) z (by simp)
    rw [List.mem_append] at hx
    have := hz x hx
    rw [List.mem_cons] at hy
    rcases hy with rfl | hy
    · exact this
    · rw [List.pairwise_cons] at h4
      exact this.trans (h4.1 y hy)

/-! ### Position of a key -/

theorem findPos_le (keys : List K) (key : K) : findPos (KeyOps.linear K) keys key ≤ keys.length := by
  unfold findPos; exact List.findIdx_le_length

theorem findPos_spec (keys : List K) (key : K) :
    (∀ k ∈ keys.take (findPos (KeyOps.linear K) keys key), k ≤ key) ∧
    (∀ k, (keys.drop (findPos (KeyOps.linear K) keys key)).head? = some k → key < k) := by
  constructor
  · intro k hk
    rw [List.mem_take_iff_getElem] at hk
    obtain ⟨i, hi, rfl⟩ := hk
    have h := List.not_of_lt_findIdx (xs := keys) (p := fun k => if (KeyOps.linear K).eq k key then false else (KeyOps.linear K).gt k key)
      (i := i) (by unfold findPos at hi; omega)
    simp only [KeyOps.linear] at h
    grind
  · intro k hk
    rw [List.head?_drop] at hk
    have hlt : findPos (KeyOps.linear K) keys key < keys.length := by
      rw [List.getElem?_eq_some_iff] at hk; exact hk.1
    have h := List.findIdx_getElem (xs := keys) (p := fun k => if (KeyOps.linear K).eq k key then false else (KeyOps.linear K).gt k key)
      (w := by unfold findPos at hlt; exact hlt)
    rw [List.getElem?_eq_some_iff] at hk
    obtain ⟨_, hk⟩ := hk
    unfold findPos at hk
    rw [hk] at h
    simp only [KeyOps.linear] at h
    grind

theorem findPos_eq {ks1 ks2 : List K} {key : K} (h1 : ∀ k ∈ ks1, k ≤ key) (h2 : ∀ k, ks2.head? = some k → key < k) :
    findPos (KeyOps.linear K) (ks1 ++ ks2) key = ks1.length := by
  unfold findPos
  induction ks1 with
  | nil =>
    cases ks2 with
    | nil => rfl
    | cons k ks =>
      have := h2 k rfl
      simp only [List.nil_append, List.findIdx_cons, KeyOps.linear]
      have h3 : ¬ k = key := by grind
      simp [h3, this]
  | cons k ks ih =>
    have := h1 k (by simp)
    have ih := ih (fun k hk => h1 k (by simp [hk]))
    simp only [List.cons_append, List.findIdx_cons, List.length_cons]
    rw [ih]
    have : (if (KeyOps.linear K).eq k key = true then false else (KeyOps.linear K).gt k key) = false := by
      simp only [KeyOps.linear]; grind
    rw [this]; rfl

/-! ### NR -/

/-- Inserting a key smaller than the bound. -/
theorem NR_insert {q : Nat} {ks1 ks2 : List K} {hi : Option K} {key : K} (h : NR q (ks1 ++ ks2) hi)
    (h1 : ∀ k ∈ ks1, k ≤ key) (hk : ∀ h, hi = some h → key < h) : NR q (ks1 ++ key :: ks2) hi := by
  intro b hb hlen
  have hkb := hk b hb
  have h := h b hb
  simp only [List.length_append, List.length_cons] at hlen h ⊢
  intro he
  rw [List.getElem?_append] at he
  split at he
  · next hlt =>
    rw [List.getElem?_eq_some_iff] at he
    obtain ⟨_, he⟩ := he
    have := h1 b (he ▸ List.getElem_mem _)
    grind
  · next hge =>
    have hi2 : ∃ i, ks1.length + (ks2.length + 1) - q - ks1.length = i := ⟨_, rfl⟩
    obtain ⟨i, hi2⟩ := hi2
    rw [hi2] at he
    cases i with
    | zero => simp at he; grind
    | succ i =>
      simp only [List.getElem?_cons_succ] at he
      apply h (by omega)
      rw [List.getElem?_append, if_neg (by omega)]
      rw [← he]; congr 1; omega

/-! ### Lists with a marked position -/

theorem get_mid {A : Type} (a : List A) (x : A) (b : List A) : (a ++ x :: b)[a.length]? = some x := by simp

theorem set_mid {A : Type} (a : List A) (x y : A) (b : List A) : (a ++ x :: b).set a.length y = a ++ y :: b := by
  induction a with
  | nil => rfl
  | cons z a ih => simp [ih]

theorem insert_mid {A : Type} (a b : List A) (y : A) : (a ++ b).insertIdx a.length y = a ++ y :: b := by
  induction a with
  | nil => simp
  | cons z a ih => simp [ih]

theorem insert_mid' {A : Type} (a : List A) (x : A) (b : List A) (y : A) :
    (a ++ x :: b).insertIdx (a.length + 1) y = a ++ x :: y :: b := by
  have := insert_mid (a ++ [x]) b y
  simpa using this

theorem itemsL_snoc : ∀ (cs : List (Tree K V)) (ks : List K) (k : K), cs.length = ks.length + 1 →
    itemsL cs (ks ++ [k]) = itemsL cs ks ++ [.sep k]
  | [c], [], k, _ => by simp [itemsL]
  | c :: cs, k' :: ks, k, h => by
    simp only [List.length_cons, Nat.add_right_cancel_iff] at h
    simp [itemsL, itemsL_snoc cs ks k h]
  | [], _, _, h => by simp at h
  | _ :: _ :: _, [], _, h => by simp at h

theorem PreL_snoc {P : Option K → Tree K V → Prop} : ∀ {ks : List K} {cs : List (Tree K V)} {k : K},
    PreL P (ks ++ [k]) cs ↔ OkL P (some k) ks cs
  | [], [], k => by simp [PreL, OkL]
  | [], [c], k => by simp [PreL, OkL]
  | [], _ :: _ :: _, k => by simp [PreL, OkL]
  | k' :: ks, [], k => by simp [PreL, OkL]
  | k' :: ks, c :: cs, k => by simp [PreL, OkL, PreL_snoc]

theorem PreL_length {P : Option K → Tree K V → Prop} : ∀ {ks : List K} {cs : List (Tree K V)},
    PreL P ks cs → cs.length = ks.length
  | [], [], _ => rfl
  | _ :: ks, _ :: cs, h => by simp [PreL_length h.2]
  | [], _ :: _, h => by simp [PreL] at h
  | _ :: _, [], h => by simp [PreL] at h

/-! ### Splitting a child -/

/-- Order of the entries of a tree, from the order of its items. -/
theorem mem_items_leaf {es : List (K × V)} {e : K × V} (h : e ∈ es) : Item.ent e.1 ∈ es.map (fun e => Item.ent e.1) :=
  List.mem_map.2 ⟨e, h, rfl⟩

theorem bound_mem {hi : Option K} {h : K} (e : hi = some h) : Item.sep h ∈ bound hi := by
  subst e; simp [bound]

theorem sep_mem_itemsL : ∀ {cs : List (Tree K V)} {ka kb : List K} {k : K}, cs.length = (ka ++ k :: kb).length + 1 →
    Item.sep k ∈ itemsL cs (ka ++ k :: kb)
  | c :: cs, [], kb, k, _ => by simp [itemsL]
  | c :: cs, a :: ka, kb, k, h => by
    simp only [List.cons_append, List.length_cons, Nat.add_right_cancel_iff] at h
    have := sep_mem_itemsL (cs := cs) (ka := ka) (kb := kb) (k := k) h
    simp [itemsL, this]
  | [], _, _, _, h => by simp at h

/-- A separator equal to the entry after it can be put in, if there is an entry before. -/
theorem srt_insert_sep {d : Bool} {x y : List (Item K)} {l s : K} (h : Srt d (x ++ [.ent l] ++ .ent s :: y)) :
    Srt d (x ++ [.ent l] ++ .sep s :: .ent s :: y) := by
  unfold Srt at *
  rw [List.pairwise_append] at h ⊢
  obtain ⟨h1, h2, h3⟩ := h
  have hl : Rel d (.ent l) (.sep s) := h3 (.ent l) (by simp) (.ent s) (by simp)
  refine ⟨h1, ?_, ?_⟩
  · rw [List.pairwise_cons]
    refine ⟨?_, h2⟩
    intro z hz
    rw [List.mem_cons] at hz
    rcases hz with rfl | hz
    · simp only [Rel]; grind
    · rw [List.pairwise_cons] at h2
      have := h2.1 z hz
      cases z with
      | ent b => cases d <;> simp only [Rel, Item.key] at * <;> grind
      | sep b => cases d <;> simp only [Rel, Item.key] at * <;> grind
  · intro a ha z hz
    rw [List.mem_cons] at hz
    rcases hz with rfl | hz
    · rw [List.mem_append] at ha
      rcases ha with ha | ha
      · rw [List.pairwise_append] at h1
        exact (h1.2.2 a ha (.ent l) (by simp)).trans hl
      · rw [List.mem_singleton] at ha; subst ha; exact hl
    · exact h3 a ha z hz

theorem split_ok {o q h f : Nat} {d : Bool} (ho : 3 ≤ o) (hq : q = (o - 1) - (o - 1) / 2) (hd : d = true ∨ (o - 1) / 2 < q)
    {lo hi : Option K} {c : Tree K V} (hc : Ok o q h hi c) (hfull : c.size = o - 1)
    (hs : Srt d (bound lo ++ c.items ++ bound hi)) {ks1 ks2 : List K} {cs1 cs2 : List (Tree K V)}
    (hlen : cs1.length = ks1.length) (hk1 : ∀ k ∈ ks1, ∀ x ∈ c.items, k ≤ x.key)
    (hk2 : ∀ k, ks2.head? = some k → hi = some k) :
    ∃ L R s, splitChild (KeyOps.linear K) f (ks1 ++ ks2) (cs1 ++ c :: cs2) cs1.length =
        some (ks1 ++ s :: ks2, cs1 ++ L :: R :: cs2) ∧
      Ok o q h (some s) L ∧ Ok o q h hi R ∧ L.size < o - 1 ∧ R.size < o - 1 ∧
      Srt d (bound lo ++ (L.items ++ .sep s :: R.items) ++ bound hi) ∧
      LeafStep f (f + 1) c.leaves (L.leaves ++ R.leaves) ∧ entriesOf (L.leaves ++ R.leaves) = c.entries ∧
      (∀ b, hi = some b → s < b) ∧ (∀ k ∈ ks1, k ≤ s) := by
  cases c with
  | leaf id es next =>
    cases h with
    | succ h => simp [Ok] at hc
    | zero =>
    obtain ⟨hc1, hc2⟩ := hc
    simp only [Tree.size] at hfull
    have hsp : es.length / 2 < es.length := by omega
    have hsp1 : 1 ≤ es.length / 2 := by omega
    have hsplit : es = es.take (es.length / 2) ++ es.drop (es.length / 2) := (List.take_append_drop _ _).symm
    obtain ⟨⟨s, v⟩, hsv⟩ : ∃ e, es[es.length / 2]? = some e := ⟨_, List.getElem?_eq_getElem hsp⟩
    have hR : ∃ r, es.drop (es.length / 2) = (s, v) :: r := by
      rw [List.drop_eq_getElem_cons hsp]
      rw [List.getElem?_eq_some_iff] at hsv
      exact ⟨_, by rw [hsv.2]⟩
    have hL : ∃ l x, es.take (es.length / 2) = l ++ [x] := by
      have : es.take (es.length / 2) ≠ [] := by
        intro e
        have := congrArg List.length e
        simp only [List.length_take, List.length_nil] at this; omega
      exact ⟨_, _, (List.dropLast_concat_getLast this).symm⟩
    obtain ⟨r, hR⟩ := hR
    obtain ⟨l, x, hL⟩ := hL
    -- the separator is below the bound
    have hlt : ∀ b, hi = some b → s < b := by
      intro b hb
      have hne := hc2 b hb
      simp only [List.length_map, hfull, hq] at hne
      have hi0 : (o - 1) - ((o - 1) - (o - 1) / 2) = es.length / 2 := by omega
      rw [hi0] at hne
      have hne := hne (by omega)
      rw [List.getElem?_map, hsv] at hne
      have hle : Rel d (.ent s) (.sep b) := by
        unfold Srt at hs
        rw [List.pairwise_append] at hs
        refine hs.2.2 (.ent s) ?_ (.sep b) (bound_mem hb)
        rw [List.mem_append]; right
        exact mem_items_leaf (List.mem_of_getElem? hsv)
      have := hle.le
      simp only [Item.key, Option.map_some, ne_eq, Option.some.injEq] at this hne
      grind
    have hks1 : ∀ k ∈ ks1, k ≤ s := by
      intro k hk
      exact hk1 k hk (.ent s) (mem_items_leaf (List.mem_of_getElem? hsv))
    have hpos : findPos (KeyOps.linear K) (ks1 ++ ks2) s = ks1.length :=
      findPos_eq hks1 (fun k hk => hlt k (hk2 k hk))
    refine ⟨.leaf id (es.take (es.length / 2)) (some f), .leaf f (es.drop (es.length / 2)) next, s, ?_, ?_, ?_, ?_, ?_, ?_, ?_, ?_,
      hlt, hks1⟩
    · unfold splitChild
      rw [get_mid]
      simp only [hR, List.head?_cons, hpos]
      rw [if_pos (by simp only [List.length_append, List.length_cons]; omega), insert_mid, set_mid, ← hlen, insert_mid']
    · refine ⟨by rw [List.length_take]; omega, ?_⟩
      intro b hb hlen2 he
      cases hb
      rw [List.length_map, List.length_take] at hlen2
      rcases hd with hd | hd
      · subst hd
        have hm : s ∈ (es.take (es.length / 2)).map (·.1) := List.mem_of_getElem? he
        rw [List.mem_map] at hm
        obtain ⟨e, he1, he2⟩ := hm
        have hrel : Rel true (.ent e.1) (.ent s) := by
          unfold Srt at hs
          simp only [Tree.items] at hs
          rw [List.pairwise_append, List.pairwise_append] at hs
          have h2 := hs.1.2.1
          rw [hsplit, List.map_append, List.pairwise_append] at h2
          exact h2.2.2 _ (mem_items_leaf he1) _ (by rw [hR]; simp)
        simp only [Rel, Item.key, if_true] at hrel
        grind
      · omega
    · refine ⟨by rw [List.length_drop]; omega, ?_⟩
      intro b hb hlen2 he
      have := hlt b hb
      rw [List.length_map, List.length_drop] at he
      have h0 : es.length - es.length / 2 - q = 0 := by omega
      rw [h0, hR] at he
      simp only [List.map_cons, List.getElem?_cons_zero, Option.some.injEq] at he
      grind
    · simp only [Tree.size, List.length_take]; omega
    · simp only [Tree.size, List.length_drop]; omega
    · simp only [Tree.items] at hs ⊢
      rw [hsplit, List.map_append] at hs
      rw [hL, hR] at hs ⊢
      simp only [List.map_append, List.map_cons, List.map_nil] at hs ⊢
      have := srt_insert_sep (d := d) (x := bound lo ++ l.map fun e => Item.ent e.1) (l := x.1) (s := s)
        (y := (r.map fun e => Item.ent e.1) ++ bound hi) (by simpa [List.append_assoc] using hs)
      simpa [List.append_assoc] using this
    · simp only [Tree.leaves, List.singleton_append]
      refine ⟨by omega, fun n => rfl, ?_, ?_, ?_⟩
      · intro n hn
        simp only [Linked, firstId] at hn ⊢
        exact ⟨trivial, hn.1, trivial⟩
      · intro i hi2
        simp only [ids, List.map_cons, List.map_nil, List.mem_cons, List.not_mem_nil, or_false] at hi2 ⊢
        omega
      · intro hl _
        simp only [ids, List.map_cons, List.map_nil, List.mem_singleton] at hl ⊢
        have := hl id rfl
        simp only [List.nodup_cons, List.mem_singleton, List.not_mem_nil, not_false_eq_true, List.nodup_nil, and_true]
        omega
    · simp only [Tree.leaves, Tree.entries, entriesOf, List.singleton_append, List.flatMap_cons, List.flatMap_nil,
        List.append_nil]
      exact hsplit.symm
  | node ks ch =>
    cases h with
    | zero => simp [Ok] at hc
    | succ h =>
    obtain ⟨hc1, hc2, hc3⟩ := hc
    simp only [Tree.size] at hfull
    have hchlen := OkL_length hc3
    have hsp : ks.length / 2 < ks.length := by omega
    obtain ⟨m, hm⟩ : ∃ m, ks[ks.length / 2]? = some m := ⟨_, List.getElem?_eq_getElem hsp⟩
    have hkr : ks.drop (ks.length / 2) = m :: ks.drop (ks.length / 2 + 1) := by
      rw [List.drop_eq_getElem_cons hsp]
      rw [List.getElem?_eq_some_iff] at hm
      rw [hm.2]
    have hksplit : ks = ks.take (ks.length / 2) ++ [m] ++ ks.drop (ks.length / 2 + 1) := by
      rw [List.append_assoc, List.singleton_append, ← hkr, List.take_append_drop]
    have hchsplit : ch = ch.take (ks.length / 2 + 1) ++ ch.drop (ks.length / 2 + 1) := (List.take_append_drop _ _).symm
    have hl1 : (ch.take (ks.length / 2 + 1)).length = (ks.take (ks.length / 2)).length + 1 := by
      rw [List.length_take, List.length_take]; omega
    have hitems : (Tree.node ks ch).items = (Tree.node (ks.take (ks.length / 2)) (ch.take (ks.length / 2 + 1))).items ++
        .sep m :: (Tree.node (ks.drop (ks.length / 2 + 1)) (ch.drop (ks.length / 2 + 1))).items := by
      simp only [Tree.items]
      conv => lhs; rw [hksplit, hchsplit]
      rw [itemsL_append _ _ _ _ (by simp [hl1]), itemsL_snoc _ _ _ hl1]
      simp
    have hmem : Item.sep m ∈ (Tree.node ks ch).items := by rw [hitems]; simp
    have hlt : ∀ b, hi = some b → m < b := by
      intro b hb
      have hne := hc2 b hb
      simp only [hfull, hq] at hne
      have hi0 : (o - 1) - ((o - 1) - (o - 1) / 2) = ks.length / 2 := by omega
      rw [hi0, hm] at hne
      have hne := hne (by omega)
      have hle : Rel d (.sep m) (.sep b) := by
        unfold Srt at hs
        rw [List.pairwise_append] at hs
        exact hs.2.2 (.sep m) (List.mem_append.2 (.inr hmem)) (.sep b) (bound_mem hb)
      have := hle.le
      simp only [Item.key, ne_eq, Option.some.injEq] at this hne
      grind
    have hks1 : ∀ k ∈ ks1, k ≤ m := fun k hk => hk1 k hk _ hmem
    have hpos : findPos (KeyOps.linear K) (ks1 ++ ks2) m = ks1.length :=
      findPos_eq hks1 (fun k hk => hlt k (hk2 k hk))
    have hOk : PreL (fun hi c => Ok o q h hi c) (ks.take (ks.length / 2) ++ [m]) (ch.take (ks.length / 2 + 1)) ∧
        OkL (fun hi c => Ok o q h hi c) hi (ks.drop (ks.length / 2 + 1)) (ch.drop (ks.length / 2 + 1)) := by
      rw [← OkL_append _ _ (by simp [hl1]), ← hksplit, ← hchsplit]; exact hc3
    refine ⟨.node (ks.take (ks.length / 2)) (ch.take (ks.length / 2 + 1)),
      .node (ks.drop (ks.length / 2 + 1)) (ch.drop (ks.length / 2 + 1)), m, ?_, ?_, ?_, ?_, ?_, ?_, ?_, ?_, hlt, hks1⟩
    · unfold splitChild
      rw [get_mid]
      simp only [hm, hpos]
      rw [if_pos (by simp only [List.length_append, List.length_cons]; omega), insert_mid, set_mid, ← hlen, insert_mid']
    · refine ⟨by rw [List.length_take]; omega, ?_, PreL_snoc.1 hOk.1⟩
      intro b hb hlen2 he
      cases hb
      rw [List.length_take] at hlen2
      rcases hd with hd | hd
      · subst hd
        have hm2 : m ∈ ks.take (ks.length / 2) := List.mem_of_getElem? he
        obtain ⟨ka, kb, hab⟩ := List.append_of_mem hm2
        have hrel : Rel true (.sep m) (.sep m) := by
          have h2 : Srt true (Tree.node ks ch).items := by
            unfold Srt at hs ⊢
            rw [List.pairwise_append, List.pairwise_append] at hs
            exact hs.1.2.1
          rw [hitems] at h2
          unfold Srt at h2
          rw [List.pairwise_append] at h2
          refine h2.2.2 (.sep m) ?_ (.sep m) (by simp)
          simp only [Tree.items, hab]
          exact sep_mem_itemsL (by rw [hl1, hab]) 
        simp only [Rel, Item.key, if_true] at hrel
        grind
      · omega
    · refine ⟨by rw [List.length_drop]; omega, ?_, hOk.2⟩
      intro b hb hlen2
      rw [List.length_drop] at hlen2
      omega
    · simp only [Tree.size, List.length_take]; omega
    · simp only [Tree.size, List.length_drop]; omega
    · rw [← hitems]; exact hs
    · simp only [Tree.leaves, ← leavesL_append, List.take_append_drop]
      have := LeafStep.refl f (leavesL ch)
      exact ⟨by omega, this.first, this.link, fun i hi => .inl hi, fun _ h => h⟩
    · simp only [Tree.leaves, ← leavesL_append, List.take_append_drop, Tree.entries]

/-! ### Entries and items -/

/-- The keys of the entries in a sequence of items. -/
def entKeys (l : List (Item K)) : List K := l.filterMap fun x => match x with | .ent k => some k | .sep _ => none

theorem entKeys_append (a b : List (Item K)) : entKeys (a ++ b) = entKeys a ++ entKeys b := by simp [entKeys]

theorem mem_entKeys {l : List (Item K)} {k : K} : k ∈ entKeys l ↔ Item.ent k ∈ l := by
  unfold entKeys
  rw [List.mem_filterMap]
  constructor
  · rintro ⟨x, hx, h⟩
    cases x with
    | ent a => simp only [Option.some.injEq] at h; exact h ▸ hx
    | sep a => cases h
  · intro h; exact ⟨_, h, rfl⟩

mutual
theorem entKeys_items : ∀ (t : Tree K V), entKeys t.items = t.entries.map (·.1)
  | .leaf id es next => by
    simp only [Tree.items, Tree.entries, Tree.leaves, entriesOf, List.flatMap_cons, List.flatMap_nil, List.append_nil, entKeys]
    induction es with
    | nil => rfl
    | cons e es ih => rw [List.map_cons, List.filterMap_cons, ih, List.map_cons]
  | .node ks cs => by
    simp only [Tree.items, Tree.entries, Tree.leaves]
    exact entKeys_itemsL cs ks
theorem entKeys_itemsL : ∀ (cs : List (Tree K V)) (ks : List K), entKeys (itemsL cs ks) = (entriesOf (leavesL cs)).map (·.1)
  | [], _ => by simp [itemsL, leavesL, entriesOf, entKeys]
  | c :: cs, [] => by
    have h1 := entKeys_items c
    have h2 := entKeys_itemsL cs []
    simp only [itemsL, leavesL, entriesOf_append, List.map_append, entKeys_append, h1, h2, Tree.entries]
  | c :: cs, k :: ks => by
    have h1 := entKeys_items c
    have h2 := entKeys_itemsL cs ks
    have h3 : entKeys (Item.sep k :: itemsL cs ks) = entKeys (itemsL cs ks) := by simp [entKeys]
    simp only [itemsL, leavesL, entriesOf_append, List.map_append, entKeys_append, h1, h3, h2, Tree.entries]
end

theorem ent_mem_items {t : Tree K V} {e : K × V} (h : e ∈ t.entries) : Item.ent e.1 ∈ t.items := by
  rw [← mem_entKeys, entKeys_items]; exact List.mem_map.2 ⟨e, h, rfl⟩

theorem ent_mem_itemsL {cs : List (Tree K V)} {e : K × V} (ks : List K) (h : e ∈ entriesOf (leavesL cs)) :
    Item.ent e.1 ∈ itemsL cs ks := by
  rw [← mem_entKeys, entKeys_itemsL]; exact List.mem_map.2 ⟨e, h, rfl⟩

/-! ### One child of a node -/

/-- Lower bound of the child between `ks1` and `ks2`. -/
def loOf (lo : Option K) (ks1 : List K) : Option K := ks1.getLast?.or lo
/-- Upper bound of that child. -/
def hiOf (hi : Option K) (ks2 : List K) : Option K := ks2.head?.or hi

theorem before_last {lo : Option K} {ks1 : List K} {cs1 : List (Tree K V)} (h : cs1.length = ks1.length) :
    (bound lo ++ itemsL cs1 ks1).getLast?.toList = bound (loOf lo ks1) := by
  rcases List.eq_nil_or_concat ks1 with rfl | ⟨ka, k, rfl⟩
  · have : cs1 = [] := by simpa using h
    subst this
    cases lo <;> simp [itemsL, bound, loOf]
  · rw [List.concat_eq_append, itemsL_snoc _ _ _ (by simpa using h)]
    simp [loOf, bound, List.getLast?_append]

theorem after_first {P : Option K → Tree K V → Prop} {hi : Option K} {ks2 : List K} {cs2 : List (Tree K V)}
    (h : PostL P hi ks2 cs2) : (afterHead ks2 cs2 ++ bound hi).head?.toList = bound (hiOf hi ks2) := by
  cases ks2 with
  | nil => simp only [PostL] at h; subst h; cases hi <;> simp [afterHead, itemsL, bound, hiOf]
  | cons k ks => simp [afterHead, bound, hiOf]

theorem node_items {cs1 : List (Tree K V)} {ks1 : List K} (h : cs1.length = ks1.length) (c : Tree K V) (cs2 : List (Tree K V))
    (ks2 : List K) (lo hi : Option K) :
    bound lo ++ (Tree.node (ks1 ++ ks2) (cs1 ++ c :: cs2)).items ++ bound hi =
      (bound lo ++ itemsL cs1 ks1) ++ c.items ++ (afterHead ks2 cs2 ++ bound hi) := by
  simp only [Tree.items, itemsL_append _ _ _ _ h, itemsL_cons, List.append_assoc]

theorem srt_near {d : Bool} {a m b : List (Item K)} (h : Srt d (a ++ m ++ b)) :
    Srt d (a.getLast?.toList ++ m ++ b.head?.toList) := by
  refine List.Pairwise.sublist ?_ h
  refine List.Sublist.append (List.Sublist.append ?_ (List.Sublist.refl _)) ?_
  · rcases List.eq_nil_or_concat a with rfl | ⟨a, x, rfl⟩
    · simp
    · simp
  · cases b <;> simp

/-- The child with its bounds is ordered. -/
theorem node_child {d : Bool} {P : Option K → Tree K V → Prop} {lo hi : Option K} {ks1 ks2 : List K} {cs1 cs2 : List (Tree K V)}
    {c : Tree K V} (h : cs1.length = ks1.length) (hp : PostL P hi ks2 cs2)
    (hs : Srt d (bound lo ++ (Tree.node (ks1 ++ ks2) (cs1 ++ c :: cs2)).items ++ bound hi)) :
    Srt d (bound (loOf lo ks1) ++ c.items ++ bound (hiOf hi ks2)) := by
  rw [node_items h] at hs
  rw [← before_last h, ← after_first hp]
  exact srt_near hs

/-- Replacing the child by a sequence that is ordered with the bounds. -/
theorem node_replace {d : Bool} {P : Option K → Tree K V → Prop} {lo hi : Option K} {ks1 ks2 : List K} {cs1 cs2 : List (Tree K V)}
    {c : Tree K V} {m : List (Item K)} (h : cs1.length = ks1.length) (hp : PostL P hi ks2 cs2)
    (hs : Srt d (bound lo ++ (Tree.node (ks1 ++ ks2) (cs1 ++ c :: cs2)).items ++ bound hi))
    (hm : Srt d (bound (loOf lo ks1) ++ m ++ bound (hiOf hi ks2))) :
    Srt d ((bound lo ++ itemsL cs1 ks1) ++ m ++ (afterHead ks2 cs2 ++ bound hi)) := by
  rw [node_items h] at hs
  rw [← before_last h, ← after_first hp] at hm
  exact srt_replace hs hm

/-- Items before the child are at most the lower bound. -/
theorem node_before {d : Bool} {lo hi : Option K} {ks1 ks2 : List K} {cs1 cs2 : List (Tree K V)}
    {c : Tree K V} (h : cs1.length = ks1.length)
    (hs : Srt d (bound lo ++ (Tree.node (ks1 ++ ks2) (cs1 ++ c :: cs2)).items ++ bound hi)) {x : Item K}
    (hx : x ∈ itemsL cs1 ks1) : ∃ k, ks1.getLast? = some k ∧ x.key ≤ k := by
  rcases List.eq_nil_or_concat ks1 with rfl | ⟨ka, k, rfl⟩
  · have : cs1 = [] := by simpa using h
    subst this
    simp [itemsL] at hx
  · rw [List.concat_eq_append] at *
    refine ⟨k, by simp, ?_⟩
    rw [node_items h, itemsL_snoc _ _ _ (by simpa using h)] at hs
    rw [itemsL_snoc _ _ _ (by simpa using h), List.mem_append] at hx
    rcases hx with hx | hx
    · unfold Srt at hs
      simp only [List.append_assoc] at hs
      rw [List.pairwise_append] at hs
      have hs := hs.2.1
      rw [List.pairwise_append] at hs
      have := (hs.2.2 x hx (.sep k) (by simp)).le
      exact this
    · rw [List.mem_singleton] at hx; subst hx; exact Std.le_refl k

/-- Items after the child are at least the upper bound. -/
theorem node_after {d : Bool} {P : Option K → Tree K V → Prop} {lo hi : Option K} {ks1 ks2 : List K} {cs1 cs2 : List (Tree K V)}
    {c : Tree K V} (h : cs1.length = ks1.length) (hp : PostL P hi ks2 cs2)
    (hs : Srt d (bound lo ++ (Tree.node (ks1 ++ ks2) (cs1 ++ c :: cs2)).items ++ bound hi)) {x : Item K}
    (hx : x ∈ afterHead ks2 cs2) : ∃ k, ks2.head? = some k ∧ k ≤ x.key := by
  cases ks2 with
  | nil => simp only [PostL] at hp; subst hp; simp [afterHead, itemsL] at hx
  | cons k ks =>
    refine ⟨k, rfl, ?_⟩
    simp only [afterHead, List.mem_cons] at hx
    rcases hx with rfl | hx
    · exact Std.le_refl k
    · rw [node_items h] at hs
      unfold Srt at hs
      simp only [afterHead, List.append_assoc, List.cons_append] at hs
      have hs := (List.pairwise_append.1 (List.pairwise_append.1 (List.pairwise_append.1 hs).2.1).2.1).2.1
      rw [List.pairwise_cons] at hs
      exact (hs.1 x (by simp [hx])).le

theorem sep_mem_pre {cs1 : List (Tree K V)} {ks1 : List K} (h : cs1.length = ks1.length) {k : K} (hk : k ∈ ks1) :
    Item.sep k ∈ itemsL cs1 ks1 := by
  rcases List.eq_nil_or_concat ks1 with rfl | ⟨ka, k', rfl⟩
  · cases hk
  · rw [List.concat_eq_append] at *
    rw [itemsL_snoc _ _ _ (by simpa using h)]
    rw [List.mem_append] at hk ⊢
    rcases hk with hk | hk
    · left
      obtain ⟨a, b, rfl⟩ := List.append_of_mem hk
      exact sep_mem_itemsL (by simp at h ⊢; omega)
    · right; simp at hk ⊢; exact hk

/-! ### Insert -/

/-- What an insert does to the entries: the new pair goes after all smaller or equal keys, or it was there already. -/
def Ins (key : K) (v : V) (r : Bool) (a b : List (K × V)) : Prop :=
  (r = true ∧ ∃ x y, a = x ++ y ∧ b = x ++ (key, v) :: y ∧ (∀ e ∈ x, e.1 ≤ key) ∧ (∀ e ∈ y, key < e.1)) ∨
  (r = false ∧ b = a ∧ (key, v) ∈ a)

theorem Ins.frame {key : K} {v : V} {r : Bool} {a b x y : List (K × V)} (h : Ins key v r a b) (hx : ∀ e ∈ x, e.1 ≤ key)
    (hy : ∀ e ∈ y, key < e.1) : Ins key v r (x ++ a ++ y) (x ++ b ++ y) := by
  rcases h with ⟨h1, x1, y1, h2, h3, h4, h5⟩ | ⟨h1, h2, h3⟩
  · refine .inl ⟨h1, x ++ x1, y1 ++ y, by simp [h2], by simp [h3], ?_, ?_⟩
    · intro e he; rw [List.mem_append] at he; rcases he with he | he
      · exact hx e he
      · exact h4 e he
    · intro e he; rw [List.mem_append] at he; rcases he with he | he
      · exact h5 e he
      · exact hy e he
  · exact .inr ⟨h1, by rw [h2], by simp [h3]⟩

/-- The outcome of an insert into a subtree. -/
structure InsOk (o q h : Nat) (d : Bool) (lo hi : Option K) (key : K) (v : V) (f f' : Nat) (r : Bool) (t t' : Tree K V) :
    Prop where
  ok : Ok o q h hi t'
  srt : Srt d (bound lo ++ t'.items ++ bound hi)
  leaves : LeafStep f f' t.leaves t'.leaves
  ins : Ins key v r t.entries t'.entries

theorem srt_insert_ent {d : Bool} {a b : List (Item K)} {key : K} (h : Srt d (a ++ b))
    (ha : ∀ x ∈ a, Rel d x (.ent key)) (hb : ∀ x ∈ b, Rel d (.ent key) x) : Srt d (a ++ .ent key :: b) := by
  unfold Srt at *
  rw [List.pairwise_append] at h ⊢
  refine ⟨h.1, List.pairwise_cons.2 ⟨hb, h.2.1⟩, ?_⟩
  intro x hx y hy
  rw [List.mem_cons] at hy
  rcases hy with rfl | hy
  · exact ha x hx
  · exact h.2.2 x hx y hy

theorem hasPair_mem [DecidableEq V] {es : List (K × V)} {pos : Nat} {key : K} {v : V}
    (h : hasPair (KeyOps.linear K) es pos key v = true) : (key, v) ∈ es := by
  unfold hasPair at h
  have aux : ∀ l : List (K × V), (l.takeWhile (fun e => (KeyOps.linear K).eq e.1 key)).any (fun e => e.2 = v) = true →
      (key, v) ∈ l := by
    intro l hl
    rw [List.any_eq_true] at hl
    obtain ⟨e, he, hv⟩ := hl
    have h1 : (KeyOps.linear K).eq e.1 key = true := by
      have := List.all_takeWhile (p := fun e : K × V => (KeyOps.linear K).eq e.1 key) (l := l)
      rw [List.all_eq_true] at this
      exact this e he
    have h2 := (List.takeWhile_sublist (fun e : K × V => (KeyOps.linear K).eq e.1 key) (l := l)).subset he
    simp only [KeyOps.linear, decide_eq_true_eq] at h1 hv
    obtain ⟨a, b⟩ := e
    simp only at h1 hv; subst h1; subst hv; exact h2
  rw [Bool.or_eq_true] at h
  rcases h with h | h
  · have := aux _ h
    rw [List.mem_reverse] at this
    exact List.mem_of_mem_take this
  · exact List.mem_of_mem_drop (aux _ h)

theorem ins_leaf [DecidableEq V] {o q : Nat} {d : Bool} {lo hi : Option K} {id : Nat} {es : List (K × V)} {next : Option Nat}
    {key : K} {v : V} {f n : Nat} (hc : Ok o q 0 hi (Tree.leaf id es next)) (hroom : es.length < o - 1)
    (hs : Srt d (bound lo ++ (Tree.leaf id es next).items ++ bound hi)) (hlo : ∀ b, lo = some b → b ≤ key)
    (hhi : ∀ b, hi = some b → key < b) (hnew : d = true → ∀ e ∈ es, e.1 ≠ key) :
    ∃ t' r f', insertNonFull (KeyOps.linear K) o n (.leaf id es next) key v f = some (t', r, f') ∧
      InsOk o q 0 d lo hi key v f f' r (.leaf id es next) t' := by
  have hunf : insertNonFull (KeyOps.linear K) o n (.leaf id es next) key v f =
      (if hasPair (KeyOps.linear K) es (findPos (KeyOps.linear K) (es.map (·.1)) key) key v then some (.leaf id es next, false, f)
       else some (.leaf id (es.insertIdx (findPos (KeyOps.linear K) (es.map (·.1)) key) (key, v)) next, true, f)) := by
    cases n <;> rfl
  rw [hunf]
  by_cases hp : hasPair (KeyOps.linear K) es (findPos (KeyOps.linear K) (es.map (·.1)) key) key v = true
  · rw [if_pos hp]
    refine ⟨_, _, _, rfl, hc, hs, LeafStep.refl _ _, .inr ⟨rfl, rfl, ?_⟩⟩
    simpa [Tree.entries, Tree.leaves, entriesOf] using hasPair_mem hp
  · rw [if_neg hp]
    refine ⟨_, _, _, rfl, ?_⟩
    obtain ⟨hp1, hp2⟩ := findPos_spec (es.map (·.1)) key
    have hple := findPos_le (es.map (·.1)) key
    rw [List.length_map] at hple
    generalize hpos : findPos (KeyOps.linear K) (es.map (·.1)) key = pos at hp1 hp2 hple
    have hes : es = es.take pos ++ es.drop pos := (List.take_append_drop _ _).symm
    have hins : es.insertIdx pos (key, v) = es.take pos ++ (key, v) :: es.drop pos := by
      have := insert_mid (es.take pos) (es.drop pos) (key, v)
      rw [List.take_append_drop, List.length_take, Nat.min_eq_left hple] at this
      exact this
    rw [hins]
    have hle : ∀ e ∈ es.take pos, e.1 ≤ key := by
      intro e he; apply hp1; rw [← List.map_take]; exact List.mem_map.2 ⟨e, he, rfl⟩
    have hsE : ((es.drop pos).map fun e => Item.ent e.1).Pairwise (Rel d) := by
      unfold Srt at hs
      simp only [Tree.items] at hs
      have := (List.pairwise_append.1 (List.pairwise_append.1 hs).1).2.1
      rw [hes, List.map_append] at this
      exact (List.pairwise_append.1 this).2.1
    have hgt : ∀ e ∈ es.drop pos, key < e.1 := by
      intro e he
      cases hdr : es.drop pos with
      | nil => rw [hdr] at he; cases he
      | cons e0 r =>
        have h0 : key < e0.1 := hp2 e0.1 (by rw [← List.map_drop, hdr]; rfl)
        rw [hdr, List.map_cons, List.pairwise_cons] at hsE
        rw [hdr, List.mem_cons] at he
        rcases he with rfl | he
        · exact h0
        · have := (hsE.1 (.ent e.1) (mem_items_leaf he)).le
          simp only [Item.key] at this
          grind
    refine ⟨⟨?_, ?_⟩, ?_, ?_, ?_⟩
    · rw [← hins, List.length_insertIdx_of_le_length hple]; omega
    · rw [List.map_append, List.map_cons]
      refine NR_insert (by rw [← List.map_append, ← hes]; exact hc.2) ?_ hhi
      intro k hk
      rw [List.mem_map] at hk
      obtain ⟨e, he, rfl⟩ := hk
      exact hle e he
    · simp only [Tree.items, List.map_append, List.map_cons]
      have := srt_insert_ent (d := d) (a := bound lo ++ (es.take pos).map fun e => Item.ent e.1)
        (b := (es.drop pos).map (fun e => Item.ent e.1) ++ bound hi) (key := key) ?_ ?_ ?_
      · simpa [List.append_assoc] using this
      · rw [Tree.items, hes, List.map_append] at hs
        simpa only [List.append_assoc] using hs
      · intro x hx
        rw [List.mem_append] at hx
        rcases hx with hx | hx
        · cases lo with
          | none => simp [bound] at hx
          | some b => simp [bound] at hx; subst hx; exact hlo b rfl
        · rw [List.mem_map] at hx
          obtain ⟨e, he, rfl⟩ := hx
          have h1 := hle e he
          cases d with
          | false => exact h1
          | true =>
            have h2 := hnew rfl e (List.mem_of_mem_take he)
            simp only [Rel, Item.key, if_true]; grind
      · intro x hx
        have hlt : key < x.key := by
          rw [List.mem_append] at hx
          rcases hx with hx | hx
          · rw [List.mem_map] at hx
            obtain ⟨e, he, rfl⟩ := hx
            exact hgt e he
          · cases hi with
            | none => simp [bound] at hx
            | some b => simp [bound] at hx; subst hx; exact hhi b rfl
        cases d <;> cases x <;> simp only [Rel, Item.key] at * <;> grind
    · simp only [Tree.leaves]
      exact ⟨Nat.le_refl _, fun _ => rfl, fun n h => h, fun i hi => .inl hi, fun _ h => h⟩
    · left
      refine ⟨rfl, es.take pos, es.drop pos, ?_, ?_, hle, hgt⟩
      · simp [Tree.entries, Tree.leaves, entriesOf]
      · simp [Tree.entries, Tree.leaves, entriesOf]

/-- Inserting into one child of a node, given that it works for the child. -/
theorem ins_child {o q h : Nat} {d : Bool} {lo hi : Option K} {ks1 ks2 : List K} {cs1 cs2 : List (Tree K V)} {c c' : Tree K V}
    {key : K} {v : V} {f f' : Nat} {r : Bool} (hlen : cs1.length = ks1.length)
    (hks : (ks1 ++ ks2).length ≤ o - 1) (hnr : NR q (ks1 ++ ks2) hi)
    (hpre : PreL (fun hi c => Ok o q h hi c) ks1 cs1) (hpost : PostL (fun hi c => Ok o q h hi c) hi ks2 cs2)
    (hs : Srt d (bound lo ++ (Tree.node (ks1 ++ ks2) (cs1 ++ c :: cs2)).items ++ bound hi))
    (hk1 : ∀ k, ks1.getLast? = some k → k ≤ key) (hk2 : ∀ k, ks2.head? = some k → key < k)
    (hi1 : InsOk o q h d (loOf lo ks1) (hiOf hi ks2) key v f f' r c c') :
    InsOk o q (h + 1) d lo hi key v f f' r (.node (ks1 ++ ks2) (cs1 ++ c :: cs2)) (.node (ks1 ++ ks2) (cs1 ++ c' :: cs2)) := by
  refine ⟨⟨hks, hnr, ?_⟩, ?_, ?_, ?_⟩
  · rw [OkL_append _ _ hlen, OkL_cons]
    exact ⟨hpre, hi1.ok, hpost⟩
  · rw [node_items hlen]
    exact node_replace hlen hpost hs hi1.srt
  · have := hi1.leaves.frame (leavesL cs1) (leavesL cs2)
    simpa [Tree.leaves, leavesL_append, leavesL] using this
  · have := hi1.ins.frame (x := entriesOf (leavesL cs1)) (y := entriesOf (leavesL cs2)) ?_ ?_
    · simpa [Tree.entries, Tree.leaves, leavesL_append, leavesL, entriesOf_append] using this
    · intro e he
      obtain ⟨k, hk, hle⟩ := node_before hlen hs (ent_mem_itemsL ks1 he)
      have := hk1 k hk
      simp only [Item.key] at hle
      grind
    · intro e he
      have hm : Item.ent e.1 ∈ afterHead ks2 cs2 := by
        cases ks2 with
        | nil => exact ent_mem_itemsL [] he
        | cons k ks => simp only [afterHead, List.mem_cons]; exact .inr (ent_mem_itemsL ks he)
      obtain ⟨k, hk, hle⟩ := node_after hlen hpost hs hm
      have := hk2 k hk
      simp only [Item.key] at hle
      grind

theorem lo_le {lo : Option K} {ks1 : List K} {key : K} (h1 : ∀ k ∈ ks1, k ≤ key) (hlo : ∀ b, lo = some b → b ≤ key) :
    ∀ b, loOf lo ks1 = some b → b ≤ key := by
  intro b hb
  unfold loOf at hb
  cases hl : ks1.getLast? with
  | none => rw [hl] at hb; exact hlo b hb
  | some k => rw [hl] at hb; cases hb; exact h1 _ (List.mem_of_getLast? hl)

theorem hi_lt {hi : Option K} {ks2 : List K} {key : K} (h2 : ∀ k, ks2.head? = some k → key < k)
    (hhi : ∀ b, hi = some b → key < b) : ∀ b, hiOf hi ks2 = some b → key < b := by
  intro b hb
  unfold hiOf at hb
  cases hl : ks2.head? with
  | none => rw [hl] at hb; exact hhi b hb
  | some k => rw [hl] at hb; cases hb; exact h2 _ hl

theorem ins_ok [DecidableEq V] {o q : Nat} {d : Bool} (ho : 3 ≤ o) (hq : q = (o - 1) - (o - 1) / 2)
    (hd : d = true ∨ (o - 1) / 2 < q) {key : K} {v : V} : ∀ (n : Nat) {h : Nat} {lo hi : Option K} {t : Tree K V} {f : Nat},
    Ok o q h hi t → h ≤ n → t.size < o - 1 → Srt d (bound lo ++ t.items ++ bound hi) → (∀ b, lo = some b → b ≤ key) →
    (∀ b, hi = some b → key < b) → (d = true → ∀ e ∈ t.entries, e.1 ≠ key) →
    ∃ t' r f', insertNonFull (KeyOps.linear K) o n t key v f = some (t', r, f') ∧ InsOk o q h d lo hi key v f f' r t t' := by
  intro n
  induction n with
  | zero =>
    intro h lo hi t f hc hn hroom hs hlo hhi hnew
    have : h = 0 := by omega
    subst this
    cases t with
    | leaf id es next =>
      refine ins_leaf hc hroom hs hlo hhi ?_
      intro h1 e he
      exact hnew h1 e (by simpa [Tree.entries, Tree.leaves, entriesOf] using he)
    | node ks cs => simp [Ok] at hc
  | succ n ih =>
    intro h lo hi t f hc hn hroom hs hlo hhi hnew
    cases h with
    | zero =>
      cases t with
      | leaf id es next =>
        refine ins_leaf hc hroom hs hlo hhi ?_
        intro h1 e he
        exact hnew h1 e (by simpa [Tree.entries, Tree.leaves, entriesOf] using he)
      | node ks cs => simp [Ok] at hc
    | succ h =>
      cases t with
      | leaf id es next => simp [Ok] at hc
      | node keys cs =>
        obtain ⟨hc1, hc2, hc3⟩ := hc
        have hcl := OkL_length hc3
        obtain ⟨hp1, hp2⟩ := findPos_spec keys key
        have hple := findPos_le keys key
        generalize hpos : findPos (KeyOps.linear K) keys key = pos at hp1 hp2 hple
        -- decompose
        obtain ⟨ks1, ks2, rfl, hl1⟩ : ∃ ks1 ks2, keys = ks1 ++ ks2 ∧ ks1.length = pos :=
          ⟨keys.take pos, keys.drop pos, (List.take_append_drop _ _).symm, by rw [List.length_take]; omega⟩
        subst hl1
        rw [List.take_left] at hp1
        rw [List.drop_left] at hp2
        obtain ⟨cs1, c, cs2, rfl, hlen⟩ : ∃ cs1 c cs2, cs = cs1 ++ c :: cs2 ∧ cs1.length = ks1.length := by
          have hlt : ks1.length < cs.length := by omega
          refine ⟨cs.take ks1.length, cs[ks1.length], cs.drop (ks1.length + 1), ?_, by rw [List.length_take]; omega⟩
          rw [← List.drop_eq_getElem_cons hlt, List.take_append_drop]
        rw [OkL_append _ _ hlen, OkL_cons] at hc3
        obtain ⟨hpre, hcc, hpost⟩ := hc3
        have hsc := node_child hlen hpost hs
        have hnewc : d = true → ∀ e ∈ c.entries, e.1 ≠ key := by
          intro h1 e he
          refine hnew h1 e ?_
          simp only [Tree.entries, Tree.leaves, leavesL_append, leavesL, entriesOf_append, List.mem_append] at he ⊢
          exact .inr (.inl he)
        have hidx : (if ks1.length ≥ (cs1 ++ c :: cs2).length then (cs1 ++ c :: cs2).length - 1 else ks1.length) = cs1.length := by
          rw [if_neg (by simp only [List.length_append, List.length_cons]; omega), hlen]
        simp only [insertNonFull, hpos, hidx, get_mid]
        by_cases hfull : c.size = o - 1
        · rw [if_pos hfull]
          have hk1x : ∀ k ∈ ks1, ∀ x ∈ c.items, k ≤ x.key := by
            intro k hk x hx
            have hs2 := hs
            rw [node_items hlen] at hs2
            unfold Srt at hs2
            have := (List.pairwise_append.1 (List.pairwise_append.1 hs2).1).2.2 (.sep k)
              (List.mem_append.2 (.inr (sep_mem_pre hlen hk))) x hx
            exact this.le
          obtain ⟨L, R, s, hsplit, hL, hR, hLs, hRs, hsrt, hstep, hent, hslt, hsge⟩ :=
            split_ok (f := f) ho hq hd hcc hfull hsc (ks2 := ks2) (cs2 := cs2) hlen hk1x
              (fun k hk => by simp [hk])
          rw [hsplit]
          simp only
          -- the node after the split
          have hwhole := node_replace hlen hpost hs hsrt
          have hnr : NR q (ks1 ++ s :: ks2) hi := by
            refine NR_insert hc2 hsge ?_
            intro b hb
            cases hk2 : ks2.head? with
            | none => exact hslt b (by simp [hk2, hb])
            | some k =>
              have h1 := hslt k (by simp [hk2])
              have hmem : Item.sep k ∈ afterHead ks2 cs2 := by
                cases ks2 with
                | nil => cases hk2
                | cons k' ks => cases hk2; simp [afterHead]
              have hrel : k ≤ b := by
                have hs2 := hs
                rw [node_items hlen] at hs2
                unfold Srt at hs2
                exact ((List.pairwise_append.1 (List.pairwise_append.1 hs2).2.1).2.2 (.sep k) hmem (.sep b) (bound_mem hb)).le
              grind
          have hks : (ks1 ++ s :: ks2).length ≤ o - 1 := by
            simp only [Tree.size, List.length_append, List.length_cons] at hroom ⊢; omega
          have hentc : ∀ e, e ∈ c.entries ↔ e ∈ L.entries ∨ e ∈ R.entries := by
            intro e; rw [← hent, entriesOf_append, List.mem_append]; rfl
          -- how the result of the recursive call gives the result
          have finish : ∀ {t2 t3 : Tree K V} {r f'}, t2.leaves = leavesL cs1 ++ (L.leaves ++ R.leaves) ++ leavesL cs2 →
              InsOk o q (h + 1) d lo hi key v (f + 1) f' r t2 t3 →
              InsOk o q (h + 1) d lo hi key v f f' r (.node (ks1 ++ ks2) (cs1 ++ c :: cs2)) t3 := by
            intro t2 t3 r f' hl2 h2
            have hstep' := hstep.frame (leavesL cs1) (leavesL cs2)
            rw [← hl2] at hstep'
            refine ⟨h2.ok, h2.srt, ?_, ?_⟩
            · refine LeafStep.trans ?_ h2.leaves
              simpa [Tree.leaves, leavesL_append, leavesL] using hstep'
            · have he : t2.entries = (Tree.node (ks1 ++ ks2) (cs1 ++ c :: cs2)).entries := by
                simp only [Tree.entries, Tree.leaves, leavesL_append, leavesL, entriesOf_append, hl2]
                rw [← entriesOf_append, hent]
                simp [Tree.entries]
              rw [← he]; exact h2.ins
          by_cases hks2 : key < s
          · have hpos' : findPos (KeyOps.linear K) (ks1 ++ s :: ks2) key = ks1.length :=
              findPos_eq hp1 (fun k hk => by simp at hk; subst hk; exact hks2)
            have hidx' : (if ks1.length ≥ (cs1 ++ L :: R :: cs2).length then (cs1 ++ L :: R :: cs2).length - 1 else ks1.length) =
                cs1.length := by
              rw [if_neg (by simp only [List.length_append, List.length_cons]; omega), hlen]
            simp only [hpos', hidx', get_mid]
            have hwhole' : Srt d (bound lo ++ (Tree.node (ks1 ++ s :: ks2) (cs1 ++ L :: R :: cs2)).items ++ bound hi) := by
              rw [node_items hlen]
              simpa [afterHead, itemsL_cons, List.append_assoc] using hwhole
            have hpost' : PostL (fun hi c => Ok o q h hi c) hi (s :: ks2) (R :: cs2) := by
              simp only [PostL]; rw [OkL_cons]; exact ⟨hR, hpost⟩
            have hsc' := node_child hlen hpost' hwhole'
            have h2' : ∀ k, (s :: ks2).head? = some k → key < k := by
              intro k hk; simp at hk; subst hk; exact hks2
            obtain ⟨t', r, f', hrec, hI⟩ := ih (f := f + 1) (t := L) (lo := loOf lo ks1) (hi := hiOf hi (s :: ks2)) (h := h)
              (by simpa [hiOf] using hL) (by omega) hLs hsc' (lo_le hp1 hlo) (hi_lt h2' hhi)
              (fun h1 e he => hnewc h1 e ((hentc e).2 (.inl he)))
            rw [hrec]
            simp only [set_mid]
            refine ⟨_, _, _, rfl, finish (t2 := .node (ks1 ++ s :: ks2) (cs1 ++ L :: R :: cs2)) ?_
              (ins_child hlen hks hnr hpre hpost' hwhole' (fun k hk => hp1 k (List.mem_of_getLast? hk)) h2' hI)⟩
            simp [Tree.leaves, leavesL_append, leavesL]
          · have hsk : s ≤ key := by grind
            have hp1' : ∀ k ∈ ks1 ++ [s], k ≤ key := by
              intro k hk; rw [List.mem_append, List.mem_singleton] at hk
              rcases hk with hk | rfl
              · exact hp1 k hk
              · exact hsk
            have heq : ks1 ++ s :: ks2 = (ks1 ++ [s]) ++ ks2 := by simp
            have hceq : cs1 ++ L :: R :: cs2 = (cs1 ++ [L]) ++ R :: cs2 := by simp
            have hlen' : (cs1 ++ [L]).length = (ks1 ++ [s]).length := by simp [hlen]
            have hpos' : findPos (KeyOps.linear K) ((ks1 ++ [s]) ++ ks2) key = (ks1 ++ [s]).length := findPos_eq hp1' hp2
            have hidx' : (if (ks1 ++ [s]).length ≥ ((cs1 ++ [L]) ++ R :: cs2).length then ((cs1 ++ [L]) ++ R :: cs2).length - 1
                else (ks1 ++ [s]).length) = (cs1 ++ [L]).length := by
              rw [if_neg (by simp only [List.length_append, List.length_cons]; omega), hlen']
            rw [heq, hceq]
            simp only [hpos', hidx', get_mid]
            have hwhole' : Srt d (bound lo ++ (Tree.node ((ks1 ++ [s]) ++ ks2) ((cs1 ++ [L]) ++ R :: cs2)).items ++ bound hi) := by
              rw [node_items hlen', itemsL_append _ _ _ _ hlen]
              simpa [itemsL, List.append_assoc] using hwhole
            have hsc' := node_child hlen' hpost hwhole'
            have hpre' : PreL (fun hi c => Ok o q h hi c) (ks1 ++ [s]) (cs1 ++ [L]) := by
              rw [PreL_snoc]
              have := (OkL_append (P := fun hi c => Ok o q h hi c) (hi := some s) ks1 cs1 (ks2 := []) (cs2 := [L]) hlen).2
                ⟨hpre, hL⟩
              simpa using this
            obtain ⟨t', r, f', hrec, hI⟩ := ih (f := f + 1) (t := R) (lo := loOf lo (ks1 ++ [s])) (hi := hiOf hi ks2) (h := h)
              hR (by omega) hRs hsc' (lo_le hp1' hlo) (hi_lt hp2 hhi)
              (fun h1 e he => hnewc h1 e ((hentc e).2 (.inr he)))
            rw [hrec]
            simp only [set_mid]
            refine ⟨_, _, _, rfl, finish (t2 := .node ((ks1 ++ [s]) ++ ks2) ((cs1 ++ [L]) ++ R :: cs2)) ?_
              (ins_child hlen' (by rw [← heq]; exact hks) (by rw [← heq]; exact hnr) hpre' hpost hwhole'
                (fun k hk => hp1' k (List.mem_of_getLast? hk)) hp2 hI)⟩
            simp [Tree.leaves, leavesL_append, leavesL]
        · rw [if_neg hfull]
          have hroomc : c.size < o - 1 := by
            have : c.size ≤ o - 1 := by
              cases c with
              | leaf id es next => cases h with
                | zero => exact hcc.1
                | succ h => simp [Ok] at hcc
              | node ks cs => cases h with
                | zero => simp [Ok] at hcc
                | succ h => exact hcc.1
            omega
          obtain ⟨t', r, f', hrec, hI⟩ := ih (f := f) hcc (by omega) hroomc hsc (lo_le hp1 hlo) (hi_lt hp2 hhi) hnewc
          rw [hrec]
          simp only [set_mid]
          exact ⟨_, _, _, rfl, ins_child hlen hc1 hc2 hpre hpost hs (fun k hk => hp1 k (List.mem_of_getLast? hk)) hp2 hI⟩

end

end Verif.BTree

import Verif.PTree.Search

/-!
# Paged B+ tree: the tree the pages form
-/

namespace Verif.PTree

variable {V : Type}

/-- A tree of pages whose leaves are `h` levels down: a leaf has its number, its pairs and the number of the next leaf; an internal page
has its number, whether its first key is doubled (as a split leaves the right half), and its children, each with the key in
front of it. The key in front of the first child stands in the page only when it is doubled. -/
def Tr (V : Type) : Nat → Type
  | 0 => Nat × List (Int × V) × Option Nat
  | h + 1 => Nat × Bool × List (Int × Tr V h)

/-- An internal page. -/
def Tr.node {h : Nat} (id : Nat) (dup : Bool) (cs : List (Int × Tr V h)) : Tr V (h + 1) := (id, dup, cs)

/-- A leaf. -/
def Tr.lf (id : Nat) (es : List (Int × V)) (next : Option Nat) : Tr V 0 := (id, es, next)

/-- The number of the top page. -/
def Tr.id : {h : Nat} → Tr V h → Nat
  | 0, t => t.1
  | _ + 1, t => t.1

/-- The children of an internal page, each with the key in front of it. -/
abbrev Kids (V : Type) (h : Nat) := List (Int × Tr V h)

/-- The keys in the page. -/
def keysOf {α : Type} (dup : Bool) (cs : List (Int × α)) : List Int := if dup then cs.map (·.1) else (cs.map (·.1)).tail

/-- The page numbers in the page. -/
def valsOf {h : Nat} (dup : Bool) (cs : Kids V h) : List Nat :=
  if dup then (cs.take 1).map (·.2.id) ++ cs.map (·.2.id) else cs.map (·.2.id)

/-- The pages of a tree, with their numbers. -/
def Tr.own : {h : Nat} → Bool → Tr V h → List (Nat × Page V)
  | 0, r, t => [(t.1, .leaf ⟨t.2.1, t.2.2, r⟩)]
  | _ + 1, r, t => (t.1, .inner ⟨keysOf t.2.1 t.2.2, valsOf t.2.1 t.2.2, r⟩) :: t.2.2.flatMap (fun c => c.2.own false)

/-- The leaves, from left to right. -/
def Tr.leaves : {h : Nat} → Tr V h → List (Nat × List (Int × V) × Option Nat)
  | 0, t => [t]
  | _ + 1, t => t.2.2.flatMap (fun c => c.2.leaves)

/-- The pairs, from left to right. -/
def ents (ls : List (Nat × List (Int × V) × Option Nat)) : List (Int × V) := ls.flatMap (fun l => l.2.1)

/-- Each leaf names the next one. -/
def Linked : List (Nat × List (Int × V) × Option Nat) → Option Nat → Prop
  | [], _ => True
  | l :: ls, e => l.2.2 = (match ls with | [] => e | l' :: _ => some l'.1) ∧ Linked ls e

/-- `lo ≤ x`. -/
def geLo (lo : Option Int) (x : Int) : Prop := ∀ a, lo = some a → a ≤ x
/-- `x < hi`. -/
def ltHi (hi : Option Int) (x : Int) : Prop := ∀ a, hi = some a → x < a
/-- `lo < hi`. -/
def ltB (lo hi : Option Int) : Prop := ∀ a b, lo = some a → hi = some b → a < b

/-- The bound in front of what follows. -/
def bound {α : Type} (cs : List (Int × α)) (hi : Option Int) : Option Int := match cs with | [] => hi | c :: _ => some c.1

/-- The children behind the first one lie between their keys. -/
def OkTail {α : Type} (P : α → Option Int → Option Int → Prop) : List (Int × α) → Option Int → Prop
  | [], _ => True
  | c :: cs, hi => P c.2 (some c.1) (bound cs hi) ∧ OkTail P cs hi

/-- The children of a page lie between its bounds and keys. -/
def OkKids {α : Type} (P : α → Option Int → Option Int → Prop) (lo : Option Int) (cs : List (Int × α)) (hi : Option Int) : Prop :=
  match cs with
  | [] => False
  | c :: cs => P c.2 lo (bound cs hi) ∧ OkTail P cs hi

/-- The tree is a search tree with keys in `[lo, hi)` and pages of at most the given order. -/
def Tr.Ok (o : Nat) : {h : Nat} → Tr V h → Option Int → Option Int → Prop
  | 0, t, lo, hi => ltB lo hi ∧ Asc (keys t.2.1) ∧ (∀ e ∈ t.2.1, geLo lo e.1 ∧ ltHi hi e.1) ∧ t.2.1.length ≤ o
  | _ + 1, t, lo, hi =>
    OkKids (fun c lo hi => c.Ok o lo hi) lo t.2.2 hi ∧ (t.2.1 = true → lo = t.2.2.head?.map (·.1)) ∧
      0 < (keysOf t.2.1 t.2.2).length ∧ (keysOf t.2.1 t.2.2).length < o

/-- The tree around a place `h` levels above the leaves, in a tree of `H` levels. -/
inductive Ctx (V : Type) (H : Nat) : Nat → Type where
  | top : Ctx V H H
  | up {h : Nat} (c : Ctx V H (h + 1)) (id : Nat) (dup : Bool) (l : Kids V h) (k : Int) (r : Kids V h) : Ctx V H h

variable {H : Nat}

/-- A tree put at the place. -/
def Ctx.plug : {h : Nat} → Ctx V H h → Tr V h → Tr V H
  | _, .top, t => t
  | _, .up c id dup l k r, t => c.plug (.node id dup (l ++ (k, t) :: r))

/-- The pages above, nearest first. -/
def Ctx.path : {h : Nat} → Ctx V H h → List Nat
  | _, .top => []
  | _, .up c id _ _ _ _ => id :: c.path

/-- The place is the whole tree. -/
def Ctx.isTop : {h : Nat} → Ctx V H h → Bool
  | _, .top => true
  | _, .up _ _ _ _ _ _ => false

/-- The bounds at the place. -/
def Ctx.lo : {h : Nat} → Ctx V H h → Option Int
  | _, .top => none
  | _, .up c _ _ l k _ => if l.isEmpty then c.lo else some k
/-- See `Ctx.lo`. -/
def Ctx.hi : {h : Nat} → Ctx V H h → Option Int
  | _, .top => none
  | _, .up c _ _ _ _ r => bound r c.hi

/-- The leaves in front of the place. -/
def Ctx.before : {h : Nat} → Ctx V H h → List (Nat × List (Int × V) × Option Nat)
  | _, .top => []
  | _, .up c _ _ l _ _ => c.before ++ l.flatMap (fun c => c.2.leaves)
/-- The leaves behind the place. -/
def Ctx.after : {h : Nat} → Ctx V H h → List (Nat × List (Int × V) × Option Nat)
  | _, .top => []
  | _, .up c _ _ _ _ r => r.flatMap (fun c => c.2.leaves) ++ c.after

/-- The page numbers of a page with a place among its children. -/
def valsAt {h : Nat} (dup : Bool) (l : Kids V h) (i : Nat) (r : Kids V h) : List Nat :=
  let ids := l.map (·.2.id) ++ i :: r.map (·.2.id)
  if dup then ids.take 1 ++ ids else ids

/-- The pages around the place, when the page `i` is put there. -/
def Ctx.own : {h : Nat} → Ctx V H h → Nat → List (Nat × Page V)
  | _, .top, _ => []
  | _, .up c id dup l k r, i =>
    (id, .inner ⟨(if dup then l.map (·.1) ++ k :: r.map (·.1) else (l.map (·.1) ++ k :: r.map (·.1)).tail), valsAt dup l i r, c.isTop⟩) ::
      (l.flatMap (fun c => c.2.own false) ++ r.flatMap (fun c => c.2.own false) ++ c.own id)

/-- The state holds these pages, each once. -/
structure Held (s : State V) (L : List (Nat × Page V)) : Prop where
  get : ∀ x ∈ L, s.pages x.1 = some x.2
  nodup : (L.map (·.1)).Nodup
  lt : ∀ x ∈ L, x.1 < s.next

theorem Held.perm {s : State V} {L M : List (Nat × Page V)} (h : Held s L) (p : L.Perm M) : Held s M :=
  ⟨fun x hx => h.get x (p.mem_iff.mpr hx), (p.map _).nodup_iff.mp h.nodup, fun x hx => h.lt x (p.mem_iff.mpr hx)⟩

theorem Held.set {s : State V} {i : Nat} {p : Page V} {L : List (Nat × Page V)} (h : Held s ((i, p) :: L)) (q : Page V) :
    Held (s.set i q) ((i, q) :: L) := by
  have hn : i ∉ L.map (·.1) := (List.nodup_cons.mp h.nodup).1
  refine ⟨fun x hx => ?_, by simpa using h.nodup, fun x hx => ?_⟩
  · rcases List.mem_cons.mp hx with rfl | hx
    · simp [State.set]
    · have : x.1 ≠ i := fun e => hn (e ▸ List.mem_map_of_mem hx)
      simp only [State.set, if_neg this]
      exact h.get x (by simp [hx])
  · rcases List.mem_cons.mp hx with rfl | hx
    · exact h.lt (i, p) (by simp)
    · exact h.lt x (by simp [hx])

theorem Held.alloc {s : State V} {L : List (Nat × Page V)} (h : Held s L) (q : Page V) : Held (s.alloc q) ((s.next, q) :: L) := by
  refine ⟨fun x hx => ?_, ?_, fun x hx => ?_⟩
  · rcases List.mem_cons.mp hx with rfl | hx
    · simp [State.alloc, State.set]
    · have := h.lt x hx
      simp only [State.alloc, State.set, if_neg (show x.1 ≠ s.next by omega)]
      exact h.get x hx
  · rw [List.map_cons, List.nodup_cons]
    refine ⟨fun hm => ?_, h.nodup⟩
    obtain ⟨x, hx, e⟩ := List.mem_map.mp hm
    have := h.lt x hx
    omega
  · rcases List.mem_cons.mp hx with rfl | hx
    · simp [State.alloc, State.set]
    · have := h.lt x hx
      simp only [State.alloc, State.set]
      omega

theorem Held.congr {s s' : State V} {L : List (Nat × Page V)} (h : Held s L) (hp : s'.pages = s.pages) (hn : s'.next = s.next) : Held s' L :=
  ⟨fun x hx => by rw [hp]; exact h.get x hx, h.nodup, fun x hx => by rw [hn]; exact h.lt x hx⟩

theorem Held.leaf {s : State V} {L : List (Nat × Page V)} (h : Held s L) {i : Nat} {l : Leaf V} (hm : (i, .leaf l) ∈ L) : s.leaf i = .ok l := by
  simp [State.leaf, h.get _ hm]

theorem Held.inner {s : State V} {L : List (Nat × Page V)} (h : Held s L) {i : Nat} {n : Inner} (hm : (i, .inner n) ∈ L) : s.inner i = .ok n := by
  simp [State.inner, h.get _ hm]

theorem Tr.own_id {h : Nat} (r : Bool) (t : Tr V h) : ∃ p L, t.own r = (t.id, p) :: L := by
  cases h with
  | zero => exact ⟨_, _, rfl⟩
  | succ h => exact ⟨_, _, rfl⟩

/-- The pages of a tree are those of the place and those around it. -/
theorem Ctx.own_plug : {h : Nat} → (c : Ctx V H h) → (t : Tr V h) → ((c.plug t).own true).Perm (t.own c.isTop ++ c.own t.id)
  | _, .top, t => by simp [plug, isTop, own]
  | _, .up c id dup l k r, t => by
    have ih := c.own_plug (.node id dup (l ++ (k, t) :: r))
    refine ih.trans ?_
    simp only [Tr.node, Tr.own, Ctx.own, isTop, Tr.id, List.flatMap_append, List.flatMap_cons]
    have e1 : keysOf dup (l ++ (k, t) :: r) = (if dup then l.map (·.1) ++ k :: r.map (·.1) else (l.map (·.1) ++ k :: r.map (·.1)).tail) := by
      simp [keysOf]
    have e2 : valsOf dup (l ++ (k, t) :: r) = valsAt dup l t.id r := by
      unfold valsOf valsAt
      cases l <;> simp
    rw [e1, e2]
    have p1 : (l.flatMap (fun c => c.2.own false) ++ (t.own false ++ r.flatMap (fun c => c.2.own false))).Perm
        (t.own false ++ (l.flatMap (fun c => c.2.own false) ++ r.flatMap (fun c => c.2.own false))) := by
      rw [← List.append_assoc, ← List.append_assoc]
      exact List.Perm.append_right _ List.perm_append_comm
    refine (List.Perm.cons _ (p1.append_right _)).trans ?_
    rw [List.append_assoc]
    exact List.perm_middle.symm

theorem Ctx.leaves_plug : {h : Nat} → (c : Ctx V H h) → (t : Tr V h) → (c.plug t).leaves = c.before ++ t.leaves ++ c.after
  | _, .top, t => by simp [plug, before, after]
  | _, .up c id dup l k r, t => by
    rw [plug, c.leaves_plug]
    simp [Tr.leaves, Tr.node, before, after]

theorem Ctx.plug_id_top {h : Nat} (c : Ctx V H h) (t t' : Tr V h) (e : t.id = t'.id) : (c.plug t).id = (c.plug t').id := by
  induction c with
  | top => exact e
  | up c id dup l k r ih => exact ih _ _ rfl

theorem OkTail.append {α : Type} {P : α → Option Int → Option Int → Prop} : ∀ (l r : List (Int × α)) (hi : Option Int),
    OkTail P (l ++ r) hi ↔ OkTail P l (bound r hi) ∧ OkTail P r hi
  | [], r, hi => by simp [OkTail]
  | x :: l, r, hi => by
    have : bound (l ++ r) hi = bound l (bound r hi) := by cases l <;> rfl
    simp only [List.cons_append, OkTail, OkTail.append l r hi, this, and_assoc]

/-- The place of a child. -/
theorem OkKids.mid {α : Type} {P : α → Option Int → Option Int → Prop} (lo : Option Int) (l : List (Int × α)) (k : Int) (t : α) (r : List (Int × α)) (hi : Option Int) :
    OkKids P lo (l ++ (k, t) :: r) hi ↔
      ((l = [] ∨ OkKids P lo l (some k)) ∧ P t (if l.isEmpty then lo else some k) (bound r hi) ∧ OkTail P r hi) := by
  cases l with
  | nil => simp [OkKids]
  | cons x l =>
    have : bound (l ++ (k, t) :: r) hi = bound l (some k) := by cases l <;> rfl
    simp only [List.cons_append, OkKids, this, OkTail.append, OkTail, List.isEmpty_cons, Bool.false_eq_true, if_false, reduceCtorEq, false_or]
    constructor
    · rintro ⟨h1, h2, h3, h4⟩; exact ⟨⟨h1, by simpa [bound] using h2⟩, h3, h4⟩
    · rintro ⟨⟨h1, h2⟩, h3, h4⟩; exact ⟨h1, by simpa [bound] using h2, h3, h4⟩

/-- What is at the place lies between the bounds there, and may be replaced. -/
theorem Ctx.ok_plug {o : Nat} : {h : Nat} → (c : Ctx V H h) → (t : Tr V h) → (c.plug t).Ok o none none →
    t.Ok o c.lo c.hi ∧ ∀ t' : Tr V h, t'.Ok o c.lo c.hi → (c.plug t').Ok o none none
  | _, .top, t, h => ⟨h, fun _ h' => h'⟩
  | _, .up c id dup l k r, t, h => by
    obtain ⟨h1, h2⟩ := c.ok_plug _ h
    simp only [Tr.Ok, Tr.node] at h1
    obtain ⟨h1, hd, h3, h4⟩ := h1
    obtain ⟨ha, hb, hc⟩ := (OkKids.mid _ _ _ _ _ _).mp h1
    refine ⟨hb, fun t' ht' => h2 _ ?_⟩
    have ek : keysOf dup (l ++ (k, t') :: r) = keysOf dup (l ++ (k, t) :: r) := by simp [keysOf]
    have eh : (l ++ (k, t') :: r).head?.map (·.1) = (l ++ (k, t) :: r).head?.map (·.1) := by cases l <;> rfl
    simp only [Tr.Ok, Tr.node]
    rw [ek, eh]
    exact ⟨(OkKids.mid _ _ _ _ _ _).mpr ⟨ha, ht', hc⟩, hd, h3, h4⟩

end Verif.PTree

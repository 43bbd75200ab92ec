import Verif.Pool.Threads
import Verif.Pool.Lemmas
import Verif.Latch.Safe

/-!
# What stays true of the books of the pool while several threads are in the middle of their calls
-/

namespace Verif.Pool

/-- What the only thread that fetches or deletes a page knows of it: nothing; it is loading it; it is not in memory; it is in a frame; it is there and nobody has a guard; the frame has
been emptied but the page table still names it. -/
inductive Right where
  | any
  | busy
  | absent
  | at_ (f o : Nat)
  | idle (f o : Nat)
  | gone (f : Nat)
  deriving DecidableEq

/-- What a thread has in the middle of a call: a free frame set aside for it; a frame of its own; a page object nobody else knows; an object in a frame that is not in the page table; a
pin without a guard; the right to fetch and delete a page. -/
inductive Tok where
  | reserve
  | frame (f : Nat)
  | obj (pid o : Nat)
  | placed (pid f o : Nat)
  | pin (pid f o : Nat)
  | right (pid : Nat) (r : Right)
  deriving DecidableEq

/-- What matters of a pool: of the page objects only their page and pin count, of the guards only their page and object. -/
structure View where
  next : Nat
  frames : Nat → Option (Option Nat)
  objs : Nat → Option Nat
  cnt : Nat → Nat
  table : Nat → Option Nat
  free : List Nat
  guards : Nat → Option (Nat × Nat)
  pins : Nat → Nat

/-- Changing a function at one place. -/
def put {α : Type} (f : Nat → α) (a : Nat) (b : α) : Nat → α := fun x => if x = a then b else f x

/-- One token more. -/
def add (t : Tok) (n : Tok → Nat) : Tok → Nat := fun x => if x = t then n x + 1 else n x

/-- The books, when the threads in the middle of calls have the tokens `n` together. `keep` are the pages which nobody deletes, with their frames and objects. -/
structure Books (keep : Nat → Option (Nat × Nat)) (v : View) (n : Tok → Nat) : Prop where
  reserve : n .reserve ≤ v.free.length
  heap : ∀ f o, v.frames f = some (some o) → ∃ i, v.objs o = some i
  ids : ∀ f f' o o' i, v.frames f = some (some o) → v.frames f' = some (some o') → v.objs o = some i → v.objs o' = some i → f = f'
  idsF : ∀ f o i o', v.frames f = some (some o) → v.objs o = some i → n (.obj i o') = 0
  idsO : ∀ i o o', 0 < n (.obj i o) → 0 < n (.obj i o') → o = o'
  old : ∀ f o i, v.frames f = some (some o) → v.objs o = some i → i < v.next
  oldO : ∀ i o, 0 < n (.obj i o) → i < v.next
  table : ∀ i f, v.table i = some f ↔ (∃ o, v.frames f = some (some o) ∧ v.objs o = some i ∧ n (.placed i f o) = 0) ∨ 0 < n (.right i (.gone f))
  free : ∀ f ∈ v.free, v.frames f = some none ∧ n (.frame f) = 0 ∧ ∀ i, n (.right i (.gone f)) = 0
  nodup : v.free.Nodup
  frame : ∀ f, n (.frame f) ≤ 1
  frameE : ∀ f, 0 < n (.frame f) → v.frames f = some none ∧ ∀ i, n (.right i (.gone f)) = 0
  gone : ∀ i f, 0 < n (.right i (.gone f)) → v.frames f = some none
  goneU : ∀ i j f, 0 < n (.right i (.gone f)) → 0 < n (.right j (.gone f)) → i = j
  obj : ∀ i o, n (.obj i o) ≤ 1
  objE : ∀ i o, 0 < n (.obj i o) → v.objs o = some i ∧ v.cnt o = 1 ∧ ∀ f, v.frames f ≠ some (some o)
  placed : ∀ i f o, n (.placed i f o) ≤ 1
  placedE : ∀ i f o, 0 < n (.placed i f o) → v.frames f = some (some o) ∧ v.objs o = some i ∧ v.cnt o = 1
  guards : ∀ g i o, v.guards g = some (i, o) → ∃ f, v.frames f = some (some o) ∧ v.objs o = some i ∧ n (.placed i f o) = 0
  pins : ∀ f o i, v.frames f = some (some o) → v.objs o = some i → n (.placed i f o) = 0 → v.cnt o = v.pins o + n (.pin i f o)
  pinE : ∀ i f o, 0 < n (.pin i f o) → v.frames f = some (some o) ∧ v.objs o = some i ∧ n (.placed i f o) = 0
  right : ∀ i s, n (.right i s) ≤ 1
  rightU : ∀ i s s', 0 < n (.right i s) → 0 < n (.right i s') → s = s'
  rightE : ∀ i s, 0 < n (.right i s) → keep i = none ∧ i < v.next
  rightN : ∀ i s, 0 < n (.right i s) → s ≠ .busy → ∀ o, n (.obj i o) = 0 ∧ ∀ f, n (.placed i f o) = 0
  absent : ∀ i, 0 < n (.right i .absent) → ∀ f o, v.frames f = some (some o) → v.objs o ≠ some i
  at_ : ∀ i f o, 0 < n (.right i (.at_ f o)) → v.frames f = some (some o) ∧ v.objs o = some i
  idle : ∀ i f o, 0 < n (.right i (.idle f o)) → v.frames f = some (some o) ∧ v.objs o = some i ∧ v.cnt o = 0
  keep : ∀ i f o, keep i = some (f, o) → v.frames f = some (some o) ∧ v.objs o = some i ∧ n (.placed i f o) = 0

variable {keep : Nat → Option (Nat × Nat)} {v : View} {n : Tok → Nat}

theorem add_pos (t : Tok) (n : Tok → Nat) : 0 < add t n t := by simp [add]

/-- Every part of the books, one after the other. -/
macro "books" h:ident : tactic => `(tactic| (
  constructor <;> (try simp only [add, put, reduceCtorEq, Tok.frame.injEq, Tok.obj.injEq, Tok.placed.injEq, Tok.pin.injEq, Tok.right.injEq, Right.at_.injEq, Right.idle.injEq, Right.gone.injEq, and_false, false_and, if_false])
  case reserve => have := ($h).reserve; (try simp only [add, put, reduceCtorEq, Tok.frame.injEq, Tok.obj.injEq, Tok.placed.injEq, Tok.pin.injEq, Tok.right.injEq, Right.at_.injEq, Right.idle.injEq, Right.gone.injEq, and_false, false_and, if_false] at *); grind
  case heap => have := ($h).heap; grind
  case ids => have := ($h).ids; grind
  case idsF => have := ($h).idsF; (try simp only [add, put, reduceCtorEq, Tok.frame.injEq, Tok.obj.injEq, Tok.placed.injEq, Tok.pin.injEq, Tok.right.injEq, Right.at_.injEq, Right.idle.injEq, Right.gone.injEq, and_false, false_and, if_false] at *); grind
  case idsO => have := ($h).idsO; have := ($h).oldO; (try simp only [add, put, reduceCtorEq, Tok.frame.injEq, Tok.obj.injEq, Tok.placed.injEq, Tok.pin.injEq, Tok.right.injEq, Right.at_.injEq, Right.idle.injEq, Right.gone.injEq, and_false, false_and, if_false] at *); grind
  case old => have := ($h).old; grind
  case oldO => have := ($h).oldO; (try simp only [add, put, reduceCtorEq, Tok.frame.injEq, Tok.obj.injEq, Tok.placed.injEq, Tok.pin.injEq, Tok.right.injEq, Right.at_.injEq, Right.idle.injEq, Right.gone.injEq, and_false, false_and, if_false] at *); grind
  case table => have := ($h).table; have := ($h).placedE; (try simp only [add, put, reduceCtorEq, Tok.frame.injEq, Tok.obj.injEq, Tok.placed.injEq, Tok.pin.injEq, Tok.right.injEq, Right.at_.injEq, Right.idle.injEq, Right.gone.injEq, and_false, false_and, if_false] at *); grind
  case free => have := ($h).free; (try simp only [add, put, reduceCtorEq, Tok.frame.injEq, Tok.obj.injEq, Tok.placed.injEq, Tok.pin.injEq, Tok.right.injEq, Right.at_.injEq, Right.idle.injEq, Right.gone.injEq, and_false, false_and, if_false] at *); grind
  case nodup => have := ($h).nodup; grind
  case frame => have := ($h).frame; (try simp only [add, put, reduceCtorEq, Tok.frame.injEq, Tok.obj.injEq, Tok.placed.injEq, Tok.pin.injEq, Tok.right.injEq, Right.at_.injEq, Right.idle.injEq, Right.gone.injEq, and_false, false_and, if_false] at *); grind
  case frameE => have := ($h).frameE; (try simp only [add, put, reduceCtorEq, Tok.frame.injEq, Tok.obj.injEq, Tok.placed.injEq, Tok.pin.injEq, Tok.right.injEq, Right.at_.injEq, Right.idle.injEq, Right.gone.injEq, and_false, false_and, if_false] at *); grind
  case gone => have := ($h).gone; (try simp only [add, put, reduceCtorEq, Tok.frame.injEq, Tok.obj.injEq, Tok.placed.injEq, Tok.pin.injEq, Tok.right.injEq, Right.at_.injEq, Right.idle.injEq, Right.gone.injEq, and_false, false_and, if_false] at *); grind
  case goneU => have := ($h).goneU; (try simp only [add, put, reduceCtorEq, Tok.frame.injEq, Tok.obj.injEq, Tok.placed.injEq, Tok.pin.injEq, Tok.right.injEq, Right.at_.injEq, Right.idle.injEq, Right.gone.injEq, and_false, false_and, if_false] at *); grind
  case obj => have := ($h).obj; (try simp only [add, put, reduceCtorEq, Tok.frame.injEq, Tok.obj.injEq, Tok.placed.injEq, Tok.pin.injEq, Tok.right.injEq, Right.at_.injEq, Right.idle.injEq, Right.gone.injEq, and_false, false_and, if_false] at *); grind
  case objE => have := ($h).objE; (try simp only [add, put, reduceCtorEq, Tok.frame.injEq, Tok.obj.injEq, Tok.placed.injEq, Tok.pin.injEq, Tok.right.injEq, Right.at_.injEq, Right.idle.injEq, Right.gone.injEq, and_false, false_and, if_false] at *); grind
  case placed => have := ($h).placed; have := ($h).placedE; (try simp only [add, put, reduceCtorEq, Tok.frame.injEq, Tok.obj.injEq, Tok.placed.injEq, Tok.pin.injEq, Tok.right.injEq, Right.at_.injEq, Right.idle.injEq, Right.gone.injEq, and_false, false_and, if_false] at *); grind
  case placedE => have := ($h).placedE; (try simp only [add, put, reduceCtorEq, Tok.frame.injEq, Tok.obj.injEq, Tok.placed.injEq, Tok.pin.injEq, Tok.right.injEq, Right.at_.injEq, Right.idle.injEq, Right.gone.injEq, and_false, false_and, if_false] at *); grind
  case guards => have := ($h).guards; (try simp only [add, put, reduceCtorEq, Tok.frame.injEq, Tok.obj.injEq, Tok.placed.injEq, Tok.pin.injEq, Tok.right.injEq, Right.at_.injEq, Right.idle.injEq, Right.gone.injEq, and_false, false_and, if_false] at *); grind
  case pins => have := ($h).pins; have := ($h).placedE; (try simp only [add, put, reduceCtorEq, Tok.frame.injEq, Tok.obj.injEq, Tok.placed.injEq, Tok.pin.injEq, Tok.right.injEq, Right.at_.injEq, Right.idle.injEq, Right.gone.injEq, and_false, false_and, if_false] at *); grind
  case pinE => have := ($h).pinE; (try simp only [add, put, reduceCtorEq, Tok.frame.injEq, Tok.obj.injEq, Tok.placed.injEq, Tok.pin.injEq, Tok.right.injEq, Right.at_.injEq, Right.idle.injEq, Right.gone.injEq, and_false, false_and, if_false] at *); grind
  case right => have := ($h).right; (try simp only [add, put, reduceCtorEq, Tok.frame.injEq, Tok.obj.injEq, Tok.placed.injEq, Tok.pin.injEq, Tok.right.injEq, Right.at_.injEq, Right.idle.injEq, Right.gone.injEq, and_false, false_and, if_false] at *); grind
  case rightU => have := ($h).rightU; (try simp only [add, put, reduceCtorEq, Tok.frame.injEq, Tok.obj.injEq, Tok.placed.injEq, Tok.pin.injEq, Tok.right.injEq, Right.at_.injEq, Right.idle.injEq, Right.gone.injEq, and_false, false_and, if_false] at *); grind
  case rightE => have := ($h).rightE; (try simp only [add, put, reduceCtorEq, Tok.frame.injEq, Tok.obj.injEq, Tok.placed.injEq, Tok.pin.injEq, Tok.right.injEq, Right.at_.injEq, Right.idle.injEq, Right.gone.injEq, and_false, false_and, if_false] at *); grind
  case rightN => have := ($h).rightN; (try simp only [add, put, reduceCtorEq, Tok.frame.injEq, Tok.obj.injEq, Tok.placed.injEq, Tok.pin.injEq, Tok.right.injEq, Right.at_.injEq, Right.idle.injEq, Right.gone.injEq, and_false, false_and, if_false] at *); grind
  case absent => have := ($h).absent; (try simp only [add, put, reduceCtorEq, Tok.frame.injEq, Tok.obj.injEq, Tok.placed.injEq, Tok.pin.injEq, Tok.right.injEq, Right.at_.injEq, Right.idle.injEq, Right.gone.injEq, and_false, false_and, if_false] at *); grind
  case at_ => have := ($h).at_; (try simp only [add, put, reduceCtorEq, Tok.frame.injEq, Tok.obj.injEq, Tok.placed.injEq, Tok.pin.injEq, Tok.right.injEq, Right.at_.injEq, Right.idle.injEq, Right.gone.injEq, and_false, false_and, if_false] at *); grind
  case idle => have := ($h).idle; (try simp only [add, put, reduceCtorEq, Tok.frame.injEq, Tok.obj.injEq, Tok.placed.injEq, Tok.pin.injEq, Tok.right.injEq, Right.at_.injEq, Right.idle.injEq, Right.gone.injEq, and_false, false_and, if_false] at *); grind
  case keep => have := ($h).keep; (try simp only [add, put, reduceCtorEq, Tok.frame.injEq, Tok.obj.injEq, Tok.placed.injEq, Tok.pin.injEq, Tok.right.injEq, Right.at_.injEq, Right.idle.injEq, Right.gone.injEq, and_false, false_and, if_false] at *); grind))

/-! ## The steps -/

/-- A free frame is taken. -/
theorem Books.take {f : Nat} {fs : List Nat} (h : Books keep v (add .reserve n)) (hf : v.free = fs ++ [f]) : Books keep { v with free := fs } (add (.frame f) n) := by
  have h0 := h.free f (by simp [hf])
  have h1 := h.nodup
  rw [hf] at h1
  have h2 := h.reserve
  have hm : ∀ x, x ∈ v.free ↔ x ∈ fs ∨ x = f := by simp [hf]
  have hl : v.free.length = fs.length + 1 := by simp [hf]
  rw [List.nodup_append] at h1
  try simp only [add, put, reduceCtorEq, Tok.frame.injEq, Tok.obj.injEq, Tok.placed.injEq, Tok.pin.injEq, Tok.right.injEq, Right.at_.injEq, Right.idle.injEq, Right.gone.injEq, and_false, false_and, if_false] at *
  books h

/-- A page object for a new page. -/
theorem Books.create {o : Nat} (h : Books keep v n) (ho : v.objs o = none) : Books keep { v with next := v.next + 1, objs := put v.objs o (some v.next), cnt := put v.cnt o 1 } (add (.obj v.next o) n) := by
  have h1 : ∀ f, v.frames f ≠ some (some o) := fun f hf => by
    obtain ⟨p, hp⟩ := h.heap f o hf
    rw [ho] at hp
    cases hp
  have h2 : ∀ o', n (.obj v.next o') = 0 := fun o' => by have := h.oldO v.next o'; omega
  have h3 : ∀ i, n (.obj i o) = 0 := fun i => by
    have := h.objE i o
    rw [ho] at this
    simp at this
    exact this
  have h4 := h.old
  have h5 := h.rightE
  books h

/-- A page object for a page read from the disk. -/
theorem Books.load {i o : Nat} (h : Books keep v (add (.right i .absent) n)) (ho : v.objs o = none) :
    Books keep { v with objs := put v.objs o (some i), cnt := put v.cnt o 1 } (add (.right i .busy) (add (.obj i o) n)) := by
  have h1 : ∀ f, v.frames f ≠ some (some o) := fun f hf => by
    obtain ⟨p, hp⟩ := h.heap f o hf
    rw [ho] at hp
    cases hp
  have ha := h.absent i (add_pos _ _)
  have hn := h.rightN i .absent (add_pos _ _) (by simp)
  have h3 : ∀ i, n (.obj i o) = 0 := fun i => by
    have := h.objE i o
    rw [ho] at this
    simpa [add] using this
  have h5 := h.rightE i .absent (add_pos _ _)
  have h6 := h.right i
  have h7 := h.rightU i
  try simp only [add, put, reduceCtorEq, Tok.frame.injEq, Tok.obj.injEq, Tok.placed.injEq, Tok.pin.injEq, Tok.right.injEq, Right.at_.injEq, Right.idle.injEq, Right.gone.injEq, and_false, false_and, if_false] at *
  books h

/-- The object gets its frame. -/
theorem Books.place {i f o : Nat} (h : Books keep v (add (.frame f) (add (.obj i o) n))) : Books keep { v with frames := put v.frames f (some (some o)) } (add (.placed i f o) n) := by
  obtain ⟨hf, hg⟩ := h.frameE f (add_pos _ _)
  have ho : 0 < add (.frame f) (add (.obj i o) n) (.obj i o) := by simp [add]
  obtain ⟨hi, hc, hn⟩ := h.objE i o ho
  have hl := h.oldO i o ho
  have hu := h.idsO i o
  have h1 := h.obj i o
  have h2 := h.frame f
  have hr := h.rightN i
  have hd := h.idsF
  try simp only [add, put, reduceCtorEq, Tok.frame.injEq, Tok.obj.injEq, Tok.placed.injEq, Tok.pin.injEq, Tok.right.injEq, Right.at_.injEq, Right.idle.injEq, Right.gone.injEq, and_false, false_and, if_false, if_true] at *
  books h

/-- The object gets into the page table. -/
theorem Books.enter {i f o : Nat} (h : Books keep v (add (.placed i f o) n)) (hq : 0 < v.pins o → ∃ g i, v.guards g = some (i, o)) : Books keep { v with table := put v.table i (some f) } (add (.pin i f o) n) := by
  obtain ⟨hf, ho, hc⟩ := h.placedE i f o (add_pos _ _)
  have h1 := h.placed i f o
  have h2 := h.pinE i f o
  have h3 := h.ids
  have h4 := h.rightN i
  have h5 := h.guards
  have h7 := h.pinE
  try simp only [add, put, reduceCtorEq, Tok.frame.injEq, Tok.obj.injEq, Tok.placed.injEq, Tok.pin.injEq, Tok.right.injEq, Right.at_.injEq, Right.idle.injEq, Right.gone.injEq, and_false, false_and, if_false, if_true] at *
  have hp : v.pins o = 0 := by grind
  books h

/-- A guard is handed out. -/
theorem Books.hand {i f o g : Nat} (h : Books keep v (add (.pin i f o) n)) (hg : v.guards g = none) :
    Books keep { v with guards := put v.guards g (some (i, o)), pins := put v.pins o (v.pins o + 1) } n := by
  obtain ⟨hf, ho, h0⟩ := h.pinE i f o (add_pos _ _)
  have h1 := h.pins f o i hf ho h0
  have h3 := h.ids
  try simp only [add, put, reduceCtorEq, Tok.frame.injEq, Tok.obj.injEq, Tok.placed.injEq, Tok.pin.injEq, Tok.right.injEq, Right.at_.injEq, Right.idle.injEq, Right.gone.injEq, and_false, false_and, if_false, if_true] at *
  books h

/-- A guard is given up. -/
theorem Books.drop {i f o g : Nat} (h : Books keep v n) (hg : v.guards g = some (i, o)) (ht : v.table i = some f) (hp : 0 < v.pins o) :
    Books keep { v with guards := put v.guards g none, pins := put v.pins o (v.pins o - 1) } (add (.pin i f o) n) := by
  obtain ⟨f', hf, ho, h0⟩ := h.guards g i o hg
  have ht' := (h.table i f').2 (.inl ⟨o, hf, ho, h0⟩)
  rw [ht] at ht'
  cases ht'
  have h1 := h.pins f o i hf ho h0
  have h3 := h.ids
  try simp only [add, put, reduceCtorEq, Tok.frame.injEq, Tok.obj.injEq, Tok.placed.injEq, Tok.pin.injEq, Tok.right.injEq, Right.at_.injEq, Right.idle.injEq, Right.gone.injEq, and_false, false_and, if_false, if_true] at *
  books h

/-- A page that nobody deletes is pinned. -/
theorem Books.pinKept {i f o : Nat} (h : Books keep v n) (hk : keep i = some (f, o)) :
    Books keep { v with cnt := put v.cnt o (v.cnt o + 1) } (add (.pin i f o) n) := by
  obtain ⟨hf, ho, h0⟩ := h.keep i f o hk
  have h1 := h.pins f o i hf ho h0
  have h2 := h.rightE i
  have h3 := h.ids
  have h4 := h.objE
  have h5 := h.placedE
  try simp only [add, put, reduceCtorEq, Tok.frame.injEq, Tok.obj.injEq, Tok.placed.injEq, Tok.pin.injEq, Tok.right.injEq, Right.at_.injEq, Right.idle.injEq, Right.gone.injEq, and_false, false_and, if_false, if_true] at *
  books h

/-- A page is pinned by the only thread that fetches it. -/
theorem Books.pinMine {i f o : Nat} (h : Books keep v (add (.right i (.at_ f o)) n)) :
    Books keep { v with cnt := put v.cnt o (v.cnt o + 1) } (add (.pin i f o) (add (.right i .any) n)) := by
  obtain ⟨hf, ho⟩ := h.at_ i f o (add_pos _ _)
  have hn := h.rightN i _ (add_pos _ _) (by simp)
  have h0 := (hn o).2 f
  have h1 := h.pins f o i hf ho h0
  have h2 := h.rightE i _ (add_pos _ _)
  have h3 := h.ids
  have h4 := h.objE
  have h5 := h.placedE
  have h6 := h.right i
  have h7 := h.rightU i
  try simp only [add, put, reduceCtorEq, Tok.frame.injEq, Tok.obj.injEq, Tok.placed.injEq, Tok.pin.injEq, Tok.right.injEq, Right.at_.injEq, Right.idle.injEq, Right.gone.injEq, and_false, false_and, if_false, if_true] at *
  books h

/-- A page is unpinned. -/
theorem Books.unpin {i f o : Nat} (h : Books keep v (add (.pin i f o) n)) :
    0 < v.cnt o ∧ Books keep { v with cnt := put v.cnt o (v.cnt o - 1) } n := by
  obtain ⟨hf, ho, h0⟩ := h.pinE i f o (add_pos _ _)
  have h1 := h.pins f o i hf ho h0
  have h3 := h.ids
  have h4 := h.objE
  have h5 := h.placedE
  have h8 := h.idle
  try simp only [add, put, reduceCtorEq, Tok.frame.injEq, Tok.obj.injEq, Tok.placed.injEq, Tok.pin.injEq, Tok.right.injEq, Right.at_.injEq, Right.idle.injEq, Right.gone.injEq, and_false, false_and, if_false, if_true] at *
  refine ⟨by omega, ?_⟩
  books h

/-- A frame is emptied. -/
theorem Books.empty {i f o : Nat} (h : Books keep v (add (.right i (.idle f o)) n)) (hq : ∀ g i, v.guards g = some (i, o) → 0 < v.pins o) :
    Books keep { v with frames := put v.frames f (some none) } (add (.right i (.gone f)) n) := by
  obtain ⟨hf, ho, hc⟩ := h.idle i f o (add_pos _ _)
  have hn := h.rightN i _ (add_pos _ _) (by simp)
  have h0 := (hn o).2 f
  have h1 := h.pins f o i hf ho h0
  have h2 := h.rightE i _ (add_pos _ _)
  have h3 := h.ids
  have h4 := h.pinE
  have h5 := h.guards
  have h9 := fun j => h.gone j f
  have h6 := h.right i
  have h7 := h.rightU i
  have h8 := h.placedE
  try simp only [add, put, reduceCtorEq, Tok.frame.injEq, Tok.obj.injEq, Tok.placed.injEq, Tok.pin.injEq, Tok.right.injEq, Right.at_.injEq, Right.idle.injEq, Right.gone.injEq, and_false, false_and, if_false, if_true] at *
  books h

/-- A page is taken out of the page table. -/
theorem Books.erase {i f : Nat} (h : Books keep v (add (.right i (.gone f)) n)) :
    Books keep { v with table := put v.table i none } (add (.frame f) (add (.right i .any) n)) := by
  have hf := h.gone i f (add_pos _ _)
  have hn := h.rightN i _ (add_pos _ _) (by simp)
  have h2 := h.rightE i _ (add_pos _ _)
  have h3 := h.ids
  have h6 := h.right i
  have h7 := h.rightU i
  have h8 := h.goneU i
  have h9 := h.frameE f
  have h10 := h.free f
  try simp only [add, put, reduceCtorEq, Tok.frame.injEq, Tok.obj.injEq, Tok.placed.injEq, Tok.pin.injEq, Tok.right.injEq, Right.at_.injEq, Right.idle.injEq, Right.gone.injEq, and_false, false_and, if_false, if_true] at *
  books h

/-- A frame is given back. -/
theorem Books.give {f : Nat} (h : Books keep v (add (.frame f) n)) : Books keep { v with free := v.free ++ [f] } n := by
  have hf := h.frameE f (add_pos _ _)
  have h1 := h.frame f
  have h2 := h.free f
  have h3 := h.nodup
  try simp only [add, put, reduceCtorEq, Tok.frame.injEq, Tok.obj.injEq, Tok.placed.injEq, Tok.pin.injEq, Tok.right.injEq, Right.at_.injEq, Right.idle.injEq, Right.gone.injEq, and_false, false_and, if_false, if_true] at *
  books h


/-! ## What a thread may learn about a page only it fetches or deletes -/

theorem Books.notThere {i : Nat} (h : Books keep v (add (.right i .any) n)) (ht : v.table i = none) : Books keep v (add (.right i .absent) n) := by
  have hn := h.rightN i _ (add_pos _ _) (by simp)
  have h2 := h.rightE i _ (add_pos _ _)
  have h6 := h.right i
  have h7 := h.rightU i
  have h8 : ∀ f o, v.frames f = some (some o) → v.objs o ≠ some i := fun f o hf ho => by
    have := (h.table i f).2 (.inl ⟨o, hf, ho, (hn o).2 f⟩)
    rw [ht] at this
    cases this
  clear ht
  simp only [add, put, reduceCtorEq, Tok.frame.injEq, Tok.obj.injEq, Tok.placed.injEq, Tok.pin.injEq, Tok.right.injEq, Right.at_.injEq, Right.idle.injEq, Right.gone.injEq, and_false,
    false_and, if_false] at *
  books h

theorem Books.there {i f : Nat} (h : Books keep v (add (.right i .any) n)) (ht : v.table i = some f) :
    ∃ o, v.frames f = some (some o) ∧ v.objs o = some i ∧ Books keep v (add (.right i (.at_ f o)) n) := by
  have hn := h.rightN i _ (add_pos _ _) (by simp)
  have h2 := h.rightE i _ (add_pos _ _)
  have h6 := h.right i
  have h7 := h.rightU i
  rcases (h.table i f).1 ht with ⟨o, hf, ho, h0⟩ | h0
  · refine ⟨o, hf, ho, ?_⟩
    clear ht
    simp only [add, put, reduceCtorEq, Tok.frame.injEq, Tok.obj.injEq, Tok.placed.injEq, Tok.pin.injEq, Tok.right.injEq, Right.at_.injEq, Right.idle.injEq, Right.gone.injEq, and_false,
      false_and, if_false] at *
    books h
  · have := h7 _ _ (add_pos _ _) h0
    cases this

theorem Books.unused {i f o : Nat} (h : Books keep v (add (.right i (.at_ f o)) n)) (hc : v.cnt o = 0) : Books keep v (add (.right i (.idle f o)) n) := by
  obtain ⟨hf, ho⟩ := h.at_ i f o (add_pos _ _)
  have hn := h.rightN i _ (add_pos _ _) (by simp)
  have h2 := h.rightE i _ (add_pos _ _)
  have h6 := h.right i
  have h7 := h.rightU i
  simp only [add, put, reduceCtorEq, Tok.frame.injEq, Tok.obj.injEq, Tok.placed.injEq, Tok.pin.injEq, Tok.right.injEq, Right.at_.injEq, Right.idle.injEq, Right.gone.injEq, and_false,
    false_and, if_false] at *
  books h

theorem Books.forgetAbsent {i : Nat} (h : Books keep v (add (.right i .absent) n)) : Books keep v (add (.right i .any) n) := by
  have hn := h.rightN i _ (add_pos _ _) (by simp)
  have h2 := h.rightE i _ (add_pos _ _)
  have h6 := h.right i
  have h7 := h.rightU i
  simp only [add, put, reduceCtorEq, Tok.frame.injEq, Tok.obj.injEq, Tok.placed.injEq, Tok.pin.injEq, Tok.right.injEq, Right.at_.injEq, Right.idle.injEq, Right.gone.injEq, and_false,
    false_and, if_false] at *
  books h

theorem Books.forgetAt {i f o : Nat} (h : Books keep v (add (.right i (.at_ f o)) n)) : Books keep v (add (.right i .any) n) := by
  have hn := h.rightN i _ (add_pos _ _) (by simp)
  have h2 := h.rightE i _ (add_pos _ _)
  have h6 := h.right i
  have h7 := h.rightU i
  simp only [add, put, reduceCtorEq, Tok.frame.injEq, Tok.obj.injEq, Tok.placed.injEq, Tok.pin.injEq, Tok.right.injEq, Right.at_.injEq, Right.idle.injEq, Right.gone.injEq, and_false,
    false_and, if_false] at *
  books h

/-- The page that was read is in its frame and in the page table. -/
theorem Books.loaded {i f o : Nat} (h : Books keep v (add (.right i .busy) (add (.pin i f o) n))) : Books keep v (add (.right i .any) (add (.pin i f o) n)) := by
  obtain ⟨hf, ho, h0⟩ := h.pinE i f o (by simp [add])
  have h1 := fun o' => h.idsF f o i o' hf ho
  have h3 : ∀ f' o', n (.placed i f' o') = 0 := fun f' o' => by
    rcases Nat.eq_zero_or_pos (n (.placed i f' o')) with h4 | h4
    · exact h4
    · obtain ⟨h5, h6, _⟩ := h.placedE i f' o' (by simpa [add] using h4)
      obtain rfl := h.ids f f' o o' i hf h5 ho h6
      rw [hf] at h5
      cases h5
      simpa [add] using h0
  have h2 := h.rightE i _ (add_pos _ _)
  have h6 := h.right i
  have h7 := h.rightU i
  simp only [add, put, reduceCtorEq, Tok.frame.injEq, Tok.obj.injEq, Tok.placed.injEq, Tok.pin.injEq, Tok.right.injEq, Right.at_.injEq, Right.idle.injEq, Right.gone.injEq, and_false,
    false_and, if_false] at *
  books h

end Verif.Pool

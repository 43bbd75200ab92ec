import Verif.Pool.Model

/-!
# Specification of the buffer pool

Written without the definitions that do the work in the model; it only looks at the fields of `World`.
-/

namespace Verif.Pool

variable {B : Type}

/-- Frame `f` holds page object number `o`, and that object is `p`. -/
def World.Holds (w : World B) (f o : Nat) (p : Page B) : Prop := w.frames[f]? = some (some o) ∧ w.objs[o]? = some p

/-- Guard number `g` has been handed out, not dropped, and is `gd`. -/
def World.Live (w : World B) (g : Nat) (gd : Guard) : Prop := w.guards[g]? = some (some gd)

/-- C26: the books of the pool agree with each other and with the guards in the users' hands. -/
structure Consistent (w : World B) : Prop where
  /-- the page table names the frame that holds the page, and every page held by a frame is in the page table -/
  table : ∀ pid f, w.table.get pid = some f ↔ ∃ o p, w.Holds f o p ∧ p.id = pid
  /-- so a page is in one frame only -/
  one_frame : ∀ f f' o o' p p', w.Holds f o p → w.Holds f' o' p' → p.id = p'.id → f = f'
  /-- a free frame exists, holds nothing and is listed once -/
  free : ∀ f ∈ w.free, w.frames[f]? = some none
  free_once : w.free.Nodup
  /-- a page with a guard is in a frame, and it is the object the guard points to -/
  pinned : ∀ g gd, w.Live g gd → ∃ f p, w.Holds f gd.obj p ∧ p.id = gd.pid
  /-- the pin count is the number of guards -/
  pins : ∀ f o p, w.Holds f o p → IsCount (fun g => ∃ gd, w.Live g gd ∧ gd.obj = o) p.pin

/-- What users know of a page number. -/
inductive Entry (B : Type) where
  | unused
  | deleted
  | holds (c : Content B)
  deriving Repr, DecidableEq

/-- What users know: what they last put on each page, whether it was written to or flushed since it was created, and the page of
each guard (`none`: dropped). -/
structure Known (B : Type) where
  data : Nat → Entry B
  written : Nat → Bool
  guards : List (Option Nat)

/-- Nothing known at the start. -/
def Known.start : Known B := { data := fun _ => .unused, written := fun _ => false, guards := [] }

def Known.put (s : Known B) (pid : Nat) (x : Entry B) (written : Bool) : Known B :=
  { s with data := fun p => if p = pid then x else s.data p, written := fun p => if p = pid then written else s.written p }

/-- The allowed results of a call (C27). Calls that hand out guards may fail; when they succeed the guard shows what was last put
on the page. -/
inductive SStep : Known B → Op B → Out B → Known B → Prop where
  | newNone (s c) : SStep s (.new c) (.guard none) s
  | new (s c pid) : s.data pid = .unused →
      SStep s (.new c) (.guard (some (s.guards.length, pid))) { s.put pid (.holds c) false with guards := s.guards ++ [some pid] }
  | fetchNone (s ty pid) : SStep s (.fetch ty pid) (.guard none) s
  | fetch (s ty pid c) : s.data pid = .holds c → c.ty = ty →
      SStep s (.fetch ty pid) (.guard (some (s.guards.length, pid))) { s with guards := s.guards ++ [some pid] }
  | fetchDeleted (s ty pid c) : s.data pid = .deleted → c.ty = ty →
      SStep s (.fetch ty pid) (.guard (some (s.guards.length, pid))) { s.put pid (.holds c) true with guards := s.guards ++ [some pid] }
  | drop (s g) : SStep s (.drop g) .unit { s with guards := s.guards.set g none }
  | write (s g b pid c) : s.guards[g]? = some (some pid) → s.data pid = .holds c →
      SStep s (.write g b) .unit (s.put pid (.holds { c with body := b }) true)
  | writeNone (s g b) : (s.guards[g]?).join = none → SStep s (.write g b) .unit s
  | read (s g pid c) : s.guards[g]? = some (some pid) → s.data pid = .holds c → SStep s (.read g) (.content (some c)) s
  | readNone (s g) : (s.guards[g]?).join = none → SStep s (.read g) (.content none) s
  | writePage (s pid b c) : s.data pid = .holds c → SStep s (.writePage pid b) .unit (s.put pid (.holds { c with body := b }) true)
  /-- a page nobody has a guard for may be out of memory, and the write is then dropped (buffer_pool_manager_async.rs:526-529) -/
  | writePageIgnored (s pid b) : some pid ∉ s.guards → SStep s (.writePage pid b) .unit s
  | flush (s pid) : SStep s (.flush pid) (.bool true) { s with written := fun p => if p = pid then true else s.written p }
  | flushNot (s pid) : SStep s (.flush pid) (.bool false) s
  | delete (s pid) : some pid ∉ s.guards → SStep s (.delete pid) (.bool true) (s.put pid .deleted false)
  | deleteNot (s pid) : SStep s (.delete pid) (.bool false) s

/-- A sequence of calls with results allowed by the specification. -/
inductive SRun : Known B → List (Op B) → List (Out B) → Known B → Prop where
  | nil (s) : SRun s [] [] s
  | cons {s o out s' os outs s''} : SStep s o out s' → SRun s' os outs s'' → SRun s (o :: os) (out :: outs) s''

/-- The number of frames that can still be used: free ones and those holding a page. -/
def World.capacity (w : World B) : Nat := w.free.length + (w.frames.filter (·.isSome)).length

end Verif.Pool

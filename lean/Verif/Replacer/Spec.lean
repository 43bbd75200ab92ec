import Verif.Replacer.Model

/-!
# Specification of an LRU-K replacer

The specification state only knows, for each tracked frame, the complete list of its access times
(oldest first) and whether it is evictable.
-/

namespace Verif.Replacer.Spec

open Verif.Replacer (Op Out)

/-- Tracked frames: all access times since tracking began, and the evictable flag. -/
abbrev State := Nat → Option (List Nat × Bool)

def empty : State := fun _ => none

def upd (s : State) (f : Nat) (v : Option (List Nat × Bool)) : State :=
  fun g => if g = f then v else s g

/-- `f` may be evicted: it is tracked and marked evictable. -/
def Evictable (s : State) (f : Nat) : Prop := ∃ h, s f = some (h, true)

/-- `f` should go no later than `g`, given their access times and `k`:
a frame with fewer than `k` accesses goes before one with at least `k`; among the former, fewer
accesses first and then the oldest first access; among the latter, the oldest `k`-th most
recent access. -/
def NoLater (k : Nat) (hf hg : List Nat) : Prop :=
  if hf.length < k then
    hg.length < k →
      hf.length < hg.length ∨ (hf.length = hg.length ∧ hf.head? = none) ∨
      (hf.length = hg.length ∧ ∃ a b, hf.head? = some a ∧ hg.head? = some b ∧ a ≤ b)
  else
    ¬ hg.length < k ∧ ∃ a b, hf[hf.length - k]? = some a ∧ hg[hg.length - k]? = some b ∧ a ≤ b

/-- `f` is a victim allowed by LRU-K in state `s`. -/
def Victim (k : Nat) (s : State) (f : Nat) : Prop :=
  ∃ h, s f = some (h, true) ∧ ∀ g h', s g = some (h', true) → NoLater k h h'


/-- What each call may return and do. -/
inductive Step (k : Nat) (s : State) : Op → Out → State → Prop where
  | access (f now : Nat) :
      Step k s (.recordAccess f now) .unit
        (upd s f (some (match s f with
          | none => ([now], false)
          | some (h, e) => (h ++ [now], e))))
  | setUntracked (f b) : s f = none → Step k s (.setEvictable f b) (.bool false) s
  | setSame (f b h) : s f = some (h, b) → Step k s (.setEvictable f b) (.bool false) s
  | setFlip (f b h) : s f = some (h, !b) →
      Step k s (.setEvictable f b) (.bool true) (upd s f (some (h, b)))
  | removeEvictable (f) : Evictable s f → Step k s (.remove f) .unit (upd s f none)
  | removeOther (f) : ¬ Evictable s f → Step k s (.remove f) .unit s
  | evictNone : (∀ f, ¬ Evictable s f) → Step k s .evict (.frame none) s
  | evictSome (f h) : s f = some (h, true) → Victim k s f →
      Step k s .evict (.frame (some f)) (upd s f (some (h, false)))
  | total (n) : IsCount (fun f => (s f).isSome) n → Step k s .totalFrames (.count n) s
  | totalEv (n) : IsCount (Evictable s) n → Step k s .totalEvictable (.count n) s

/-- A sequence of calls with their results allowed by the specification. -/
inductive Run (k : Nat) : State → List Op → List Out → State → Prop where
  | nil (s) : Run k s [] [] s
  | cons (s o out s' os outs s'') : Step k s o out s' → Run k s' os outs s'' →
      Run k s (o :: os) (out :: outs) s''

end Verif.Replacer.Spec

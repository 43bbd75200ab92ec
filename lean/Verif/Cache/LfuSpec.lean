import Verif.Base.AMap

/-!
# Specification of a least-frequently-used cache

The state knows the live keys, their values and the number of uses counted for each. Which of several
least-used entries is evicted is left open, so the specification is a relation.
-/

namespace Verif.LfuSpec

variable {K V : Type} [DecidableEq K]

/-- The calls of `CoreCache`, `MutableCache` and `LFUCacheTrait` (cache_traits.rs:277-445). -/
inductive Op (K V : Type) where
  | insert (k : K) (v : V)
  | get (k : K)
  | contains (k : K)
  | len
  | clear
  | remove (k : K)
  | popLfu
  | peekLfu
  | frequency (k : K)
  | reset (k : K)
  | increment (k : K)
  deriving Repr

/-- Results of calls. -/
inductive Out (K V : Type) where
  | unit
  | val (v : Option V)
  | bool (b : Bool)
  | nat (n : Nat)
  | freq (n : Option Nat)
  | entry (e : Option (K × V))
  deriving Repr, DecidableEq

/-- Live entries: value and use count. -/
abbrev State (K V : Type) := K → Option (V × Nat)

def upd (s : State K V) (k : K) (x : Option (V × Nat)) : State K V :=
  fun k' => if k' = k then x else s k'

/-- `n` entries are live. -/
def Size (s : State K V) (n : Nat) : Prop := IsCount (fun k => (s k).isSome) n

/-- `k` is live with value `v`, and no live entry has been used less. -/
def Least (s : State K V) (k : K) (v : V) : Prop :=
  ∃ f, s k = some (v, f) ∧ ∀ k' v' f', s k' = some (v', f') → f ≤ f'

inductive Step (cap : Nat) (s : State K V) : Op K V → Out K V → State K V → Prop where
  | insertPresent (k v old f) : s k = some (old, f) →
      Step cap s (.insert k v) (.val (some old)) (upd s k (some (v, f)))
  | insertZero (k v) : s k = none → cap = 0 → Step cap s (.insert k v) (.val none) s
  | insertRoom (k v n) : s k = none → Size s n → n < cap →
      Step cap s (.insert k v) (.val none) (upd s k (some (v, 1)))
  | insertFull (k v n vk vv) : s k = none → Size s n → 0 < cap → cap ≤ n → Least s vk vv →
      Step cap s (.insert k v) (.val none) (upd (upd s vk none) k (some (v, 1)))
  | getHit (k v f) : s k = some (v, f) →
      Step cap s (.get k) (.val (some v)) (upd s k (some (v, f + 1)))
  | getMiss (k) : s k = none → Step cap s (.get k) (.val none) s
  | contains (k) : Step cap s (.contains k) (.bool (s k).isSome) s
  | len (n) : Size s n → Step cap s .len (.nat n) s
  | clear : Step cap s .clear .unit (fun _ => none)
  | remove (k) : Step cap s (.remove k) (.val ((s k).map (·.1))) (upd s k none)
  | popEmpty : (∀ k, s k = none) → Step cap s .popLfu (.entry none) s
  | pop (k v) : Least s k v → Step cap s .popLfu (.entry (some (k, v))) (upd s k none)
  | peekEmpty : (∀ k, s k = none) → Step cap s .peekLfu (.entry none) s
  | peek (k v) : Least s k v → Step cap s .peekLfu (.entry (some (k, v))) s
  | frequency (k) : Step cap s (.frequency k) (.freq ((s k).map (·.2))) s
  | reset (k v f) : s k = some (v, f) →
      Step cap s (.reset k) (.freq (some f)) (upd s k (some (v, 1)))
  | resetMiss (k) : s k = none → Step cap s (.reset k) (.freq none) s
  | increment (k v f) : s k = some (v, f) →
      Step cap s (.increment k) (.freq (some (f + 1))) (upd s k (some (v, f + 1)))
  | incrementMiss (k) : s k = none → Step cap s (.increment k) (.freq none) s

inductive Run (cap : Nat) : State K V → List (Op K V) → List (Out K V) → State K V → Prop where
  | nil (s) : Run cap s [] [] s
  | cons {s o out s' os outs s''} : Step cap s o out s' → Run cap s' os outs s'' →
      Run cap s (o :: os) (out :: outs) s''

end Verif.LfuSpec

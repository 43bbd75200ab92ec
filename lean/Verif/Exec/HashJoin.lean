import Verif.Exec.Model
import Verif.Sql.OrderLemmas
import Verif.Hash.Table

/-!
# The hash join (`src/sql/execution/executors/hash_join_executor.rs`)
-/

namespace Verif.Exec

open Verif.Wire Verif.Bytes Verif.Sql Verif.Hash

/-- `==` of values, as the relation by which the hash table identifies its keys. -/
instance valueSetoid : Setoid Value where
  r a b := valueEq a b = true
  iseqv := ⟨valueEq_refl, valueEq_symm, valueEq_trans⟩

/-- A key of the hash table: a value up to `==`. -/
abbrev Key := Quotient valueSetoid

/-- The key of a value. -/
def key (a : Value) : Key := Quotient.mk _ a

instance : DecidableEq Key := fun a b => Quotient.recOnSubsingleton₂ a b fun a b =>
  if h : valueEq a b = true then isTrue (Quotient.sound h) else isFalse fun e => h (Quotient.exact e)

/-- The state: building the table from the right side (`build_hash_table`), or probing it. -/
inductive HashSt (σ τ ρ : Type) where
  | build (t : Table Key ρ) (rights : List (ρ × Row)) (r : τ) (l : σ)
  | probe (t : Table Key ρ) (rights : List (ρ × Row)) (l : σ)

/-- `build_hash_table`, `init` and `next` (hash_join_executor.rs:180-230, 249-262, 291-335), for the first key expressions `el` and `er`; the other ones and
the join type are not looked at. Rows come with their record ids. `alloc i` is what the buffer pool answers during the `i`-th insert. When building fails the
executor stays uninitialized and `next` says `Ok(None)`. -/
def hashJoin {σ τ ρ : Type} [DecidableEq ρ] (alloc : Nat → Nat → Bool) (el er : Expr) (left : Machine σ (Row × ρ)) (right : Machine τ (Row × ρ)) :
    Machine (HashSt σ τ ρ) Row
  | .build t rights r l => (match right r with
    | .emit (b, rid) r' => (match eval false (rowEnv b) er with
      | .ok k => (match t.insert (key k) rid (alloc rights.length) with
        | some (t', true) => .cont (.build t' (rights ++ [(rid, b)]) r' l)
        | some (_, false) => .stop .done
        | none => .stop .panic)
      | .overflow => .stop .panic
      | _ => .stop .done)
    | .cont r' => .cont (.build t rights r' l)
    | .stop .done => .cont (.probe t rights l)
    | .stop .err => .stop .done
    | .stop .panic => .stop .panic)
  | .probe t rights l => (match left l with
    | .emit (a, _) l' => (match eval false (rowEnv a) el with
      | .ok k => (match (t.getValue (key k)).bind fun rid => rights.find? fun x => x.1 = rid with
        | some x => .emit (a ++ x.2) (.probe t rights l')
        | none => .cont (.probe t rights l'))
      | .overflow => .stop .panic
      | _ => .cont (.probe t rights l'))
    | .cont l' => .cont (.probe t rights l')
    | .stop e => .stop e)

/-- `DiskExtendableHashTable::new(.., 4, 4, 100)` (hash_join_executor.rs:183-190). -/
def joinTable {ρ : Type} (hash : Key → Nat) : Table Key ρ := Table.new hash 4 4 100

end Verif.Exec

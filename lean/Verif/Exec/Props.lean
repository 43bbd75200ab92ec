import Verif.Exec.Model
import Verif.Sql.ExprProps

/-!
# LIMIT, OFFSET, WHERE and projection (C40)

Specification vocabulary: `Yields m s xs e` is the drained result of an executor. The first `n` rows of a list are `xs.take n`, the others
`xs.drop n`, the rows with a property `xs.filter`. `EvalsTo false (rowEnv row) p .t` says that the predicate is TRUE on the row.
-/

namespace Verif.Exec

open Verif.Wire Verif.Bytes Verif.Sql

/-- An executor has only one result: what the theorems below say of some result they say of the result. -/
theorem C40_deterministic {σ α : Type} {m : Machine σ α} {s : σ} {xs ys : List α} {e e' : End} (h : Yields m s xs e) (h' : Yields m s ys e') :
    xs = ys ∧ e = e' := by
  induction h generalizing ys e' with
  | emit h1 _ ih =>
    cases h' with
    | emit g1 g2 => rw [h1] at g1; cases g1; obtain ⟨rfl, rfl⟩ := ih g2; exact ⟨rfl, rfl⟩
    | cont g1 _ => rw [h1] at g1; cases g1
    | stop g1 => rw [h1] at g1; cases g1
  | cont h1 _ ih =>
    cases h' with
    | emit g1 _ => rw [h1] at g1; cases g1
    | cont g1 g2 => rw [h1] at g1; cases g1; exact ih g2
    | stop g1 => rw [h1] at g1; cases g1
  | stop h1 =>
    cases h' with
    | emit g1 _ => rw [h1] at g1; cases g1
    | cont g1 _ => rw [h1] at g1; cases g1
    | stop g1 => rw [h1] at g1; cases g1; exact ⟨rfl, rfl⟩

theorem source_yields {α : Type} (xs : List α) : Yields source xs xs .done := by
  induction xs with
  | nil => exact .stop rfl
  | cons x xs ih => exact .emit rfl ih

theorem broken_yields {α : Type} (xs : List α) : Yields broken xs xs .err := by
  induction xs with
  | nil => exact .stop rfl
  | cons x xs ih => exact .emit rfl ih

theorem limit_from {σ α : Type} {child : Machine σ α} {c : σ} {xs : List α} {e : End} (n : Nat) (h : Yields child c xs e) (i : Nat) (hi : i ≤ n) :
    Yields (limit n child) (i, c) (xs.take (n - i)) (if n - i ≤ xs.length then .done else e) := by
  induction h generalizing i with
  | @emit s a s' xs e h1 h2 ih =>
    by_cases hn : n ≤ i
    · have : n - i = 0 := by omega
      simp only [this, List.take_zero, Nat.zero_le, if_true]
      exact .stop (by simp [limit, hn])
    · obtain ⟨k, hk⟩ : ∃ k, n - i = k + 1 := ⟨n - i - 1, by omega⟩
      have hk' : n - (i + 1) = k := by omega
      have := ih (i + 1) (by omega)
      rw [hk'] at this
      simp only [hk, List.take_succ_cons, List.length_cons, Nat.add_le_add_iff_right]
      exact .emit (by simp [limit, hn, h1]) this
  | @cont s s' xs e h1 h2 ih =>
    by_cases hn : n ≤ i
    · have : n - i = 0 := by omega
      simp only [this, List.take_zero, Nat.zero_le, if_true]
      exact .stop (by simp [limit, hn])
    · exact .cont (by simp [limit, hn, h1]) (ih i hi)
  | @stop s e h1 =>
    by_cases hn : n ≤ i
    · have : n - i = 0 := by omega
      simp only [this, List.take_zero, Nat.zero_le, if_true]
      exact .stop (by simp [limit, hn])
    · rw [if_neg (by simp; omega)]
      simp only [List.take_nil]
      exact .stop (by simp [limit, hn, h1])

/-- LIMIT `n` over any input gives its first `n` rows, and it ends as the input does only if it had to look past the last row. -/
theorem C40_limit {σ α : Type} {child : Machine σ α} {c : σ} {xs : List α} {e : End} (n : Nat) (h : Yields child c xs e) :
    Yields (limit n child) (0, c) (xs.take n) (if n ≤ xs.length then .done else e) := limit_from n h 0 (Nat.zero_le n)

theorem offset_from {σ α : Type} {child : Machine σ α} {c : σ} {xs : List α} {e : End} (n : Nat) (h : Yields child c xs e) (i : Nat) :
    Yields (offset n child) (i, c) (xs.drop (n - i)) e := by
  induction h generalizing i with
  | @emit s a s' xs e h1 h2 ih =>
    by_cases hn : i < n
    · obtain ⟨k, hk⟩ : ∃ k, n - i = k + 1 := ⟨n - i - 1, by omega⟩
      have hk' : n - (i + 1) = k := by omega
      have := ih (i + 1)
      rw [hk'] at this
      rw [hk, List.drop_succ_cons]
      exact .cont (by simp [offset, h1, hn]) this
    · have hk : n - i = 0 := by omega
      have := ih i
      rw [hk, List.drop_zero] at *
      exact .emit (by simp [offset, h1, hn]) this
  | @cont s s' xs e h1 h2 ih => exact .cont (by simp [offset, h1]) (ih i)
  | @stop s e h1 => rw [List.drop_nil]; exact .stop (by simp [offset, h1])

/-- OFFSET `n` over any input gives all but its first `n` rows and ends as the input does. -/
theorem C40_offset {σ α : Type} {child : Machine σ α} {c : σ} {xs : List α} {e : End} (n : Nat) (h : Yields child c xs e) :
    Yields (offset n child) (0, c) (xs.drop n) e := offset_from n h 0

theorem asBool_truth {v : Value} {x : Tri} (h : truth v = some x) : asBool v = decide (x = .t) := by
  unfold truth at h
  unfold asBool
  split at h
  · cases h; simp_all
  · cases h; simp_all
  · cases h; simp_all
  · cases h

/-- On this row the predicate has a truth value, or its evaluation is an error. -/
def Decided (p : Expr) (row : Row) : Prop := (∃ t, EvalsTo false (rowEnv row) p t) ∨ eval false (rowEnv row) p = .err

theorem keeps_decided {p : Expr} {row : Row} (h : Decided p row) : ∃ b, whereKeeps p row = some b ∧ (b = true ↔ EvalsTo false (rowEnv row) p .t) := by
  rcases h with ⟨t, v, hv, ht⟩ | h
  · refine ⟨asBool v, by simp [whereKeeps, hv], ?_⟩
    rw [asBool_truth ht]
    constructor
    · intro h
      exact ⟨v, hv, by rw [ht, of_decide_eq_true h]⟩
    · rintro ⟨w, hw, tw⟩
      rw [hv] at hw
      cases hw
      rw [ht] at tw
      cases tw
      rfl
  · refine ⟨false, by simp [whereKeeps, h], by simp, ?_⟩
    rintro ⟨w, hw, _⟩
    rw [h] at hw
    cases hw

/-- WHERE over any input gives exactly the rows on which the predicate is TRUE, in the order of the input, and ends as the input does. A row
on which the predicate is FALSE, NULL or an error is left out. -/
theorem C40_where {σ : Type} {child : Machine σ Row} {c : σ} {xs : List Row} {e : End} {p : Expr} (h : Yields child c xs e)
    (hd : ∀ row ∈ xs, Decided p row) (isTrue : Row → Bool) (ht : ∀ row ∈ xs, isTrue row = true ↔ EvalsTo false (rowEnv row) p .t) :
    Yields (filter p child) c (xs.filter isTrue) e := by
  induction h with
  | @emit s a s' xs e h1 h2 ih =>
    have ih := ih (fun r hr => hd r (List.mem_cons_of_mem _ hr)) (fun r hr => ht r (List.mem_cons_of_mem _ hr))
    obtain ⟨b, hb, hb'⟩ := keeps_decided (hd a List.mem_cons_self)
    have heq : isTrue a = b := by
      have := ht a List.mem_cons_self
      cases b <;> cases hi : isTrue a <;> simp_all
    rw [List.filter_cons, heq]
    cases b with
    | true => exact .emit (by simp [filter, h1, hb]) ih
    | false => exact .cont (by simp [filter, h1, hb]) ih
  | @cont s s' xs e h1 h2 ih => exact .cont (by simp [filter, h1]) (ih hd ht)
  | @stop s e h1 => exact .stop (by simp [filter, h1])

/-- The query `… WHERE p LIMIT n OFFSET m`, which the planner builds as LIMIT over OFFSET over WHERE: rows `m`, `m+1`, …, `m+n-1` of those on
which `p` is TRUE. -/
theorem C40_query {σ : Type} {child : Machine σ Row} {c : σ} {xs : List Row} {p : Expr} (n m : Nat) (h : Yields child c xs .done)
    (hd : ∀ row ∈ xs, Decided p row) (isTrue : Row → Bool) (ht : ∀ row ∈ xs, isTrue row = true ↔ EvalsTo false (rowEnv row) p .t) :
    Yields (limit n (offset m (filter p child))) (0, 0, c) (((xs.filter isTrue).drop m).take n) .done := by
  have := C40_limit n (C40_offset m (C40_where h hd isTrue ht))
  simpa using this

/-- `SELECT e₁, e₂, …` over any input gives, row by row, the values of the expressions. -/
theorem C40_projection {σ : Type} {child : Machine σ Row} {c : σ} {xs : List Row} {e : End} {es : List Expr} (h : Yields child c xs e)
    (val : Row → Expr → Value) (hv : ∀ row ∈ xs, ∀ x ∈ es, eval false (rowEnv row) x = .ok (val row x)) :
    Yields (projection es child) c (xs.map fun row => es.map (val row)) e := by
  have key : ∀ row, (∀ x ∈ es, eval false (rowEnv row) x = .ok (val row x)) → project (rowEnv row) es = .ok (es.map (val row)) := by
    intro row hr
    clear h hv
    induction es with
    | nil => rfl
    | cons x es ih =>
      simp only [project, hr x List.mem_cons_self, ih (fun y hy => hr y (List.mem_cons_of_mem _ hy)), List.map_cons]
      rfl
  induction h with
  | @emit s a s' xs e h1 h2 ih =>
    exact .emit (by simp [projection, h1, key a (hv a List.mem_cons_self)]) (ih fun r hr => hv r (List.mem_cons_of_mem _ hr))
  | @cont s s' xs e h1 h2 ih => exact .cont (by simp [projection, h1]) (ih hv)
  | @stop s e h1 => exact .stop (by simp [projection, h1])

/-- Three rows, a predicate that is TRUE on the second, FALSE on the third and an error on the first. -/
def exRows : List Row := [[new (.varLen [65])], [new (.integer 7)], [new (.integer 3)]]
def exPred : Expr := .cmp .eq (.arith .add (.col 0 0) (.lit (new (.integer 1)))) (.lit (new (.integer 8)))

theorem ex_decided : ∀ row ∈ exRows, Decided exPred row := by
  intro row h
  simp only [exRows, List.mem_cons, List.not_mem_nil, or_false] at h
  rcases h with rfl | rfl | rfl
  · exact .inr rfl
  · exact .inl ⟨.t, _, rfl, by decide⟩
  · exact .inl ⟨.f, _, rfl, by decide⟩

example : Yields (limit 1 (offset 0 (filter exPred source))) (0, 0, exRows) [[new (.integer 7)]] .done := by
  refine C40_query 1 0 (source_yields exRows) ex_decided (fun r => match r with | [v] => (match val v with | .integer i => i == 7 | _ => false) | _ => false) ?_
  intro row h
  simp only [exRows, List.mem_cons, List.not_mem_nil, or_false] at h
  rcases h with rfl | rfl | rfl
  · exact ⟨fun h => absurd h (by decide), fun ⟨_, h, _⟩ => by cases h⟩
  · exact ⟨fun _ => ⟨_, rfl, by decide⟩, fun _ => rfl⟩
  · refine ⟨fun h => absurd h (by decide), fun ⟨v, h, t⟩ => ?_⟩
    cases h
    revert t
    decide

/-- What WHERE does with an error the user is not told: the first row above is an error, yet the query succeeds. -/
theorem C40_where_hides_errors : ∃ p rows row, row ∈ rows ∧ eval false (rowEnv row) p = .err ∧ ∃ out, Yields (filter p source) rows out .done :=
  ⟨exPred, exRows, _, List.mem_cons_self, rfl, _, .cont rfl (.emit rfl (.cont rfl (.stop rfl)))⟩

end Verif.Exec

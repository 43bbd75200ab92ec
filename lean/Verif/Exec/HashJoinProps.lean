import Verif.Exec.HashJoin
import Verif.Exec.JoinProps

/-!
# The hash join (C44)

The specification is the join of C43 (`pairs`): the joined rows of all pairs whose keys are equal for SQL. `kl` and `kr` give the keys of the rows.
-/

namespace Verif.Exec

open Verif.Wire Verif.Bytes Verif.Sql Verif.Hash

variable {σ τ ρ : Type} [DecidableEq ρ] {alloc : Nat → Nat → Bool} {el er : Expr} {left : Machine σ (Row × ρ)} {right : Machine τ (Row × ρ)}
  {kl kr : Row → Value}

/-- The inserts of `build_hash_table`, when `n` rows have been inserted before. -/
def builds (alloc : Nat → Nat → Bool) (kr : Row → Value) : Nat → List (Row × ρ) → List (Op Key ρ)
  | _, [] => []
  | n, x :: xs => .insert (key (kr x.1)) x.2 (alloc n) :: builds alloc kr (n + 1) xs

/-- For the table of the hash join: all inserts are accepted, and splits go through lowest slots (the condition of C20). -/
def Built (t : Table Key ρ) (os : List (Op Key ρ)) : Prop :=
  t.RunOk os = true ∧ ∃ t' outs, t.run os = some (t', outs) ∧ ∀ o ∈ outs, o = .bool true

theorem built_cons {t : Table Key ρ} {l : List (Key × ρ)} (I : Inv t l) {k : Key} {v : ρ} {a : Nat → Bool} {os : List (Op Key ρ)}
    (h : Built t (.insert k v a :: os)) : ∃ t', t.insert k v a = some (t', true) ∧ Inv t' (l ++ [(k, v)]) ∧ Built t' os := by
  obtain ⟨hok, tf, outs, hrun, hall⟩ := h
  simp only [Table.RunOk, Bool.and_eq_true] at hok
  obtain ⟨t', out, h1, h2, I1⟩ := inv_step I hok.1
  simp only [Table.run, h1] at hrun
  rw [h1] at hok
  cases h3 : t'.run os with
  | none => rw [h3] at hrun; cases hrun
  | some r =>
    rw [h3] at hrun
    cases hrun
    have : out = .bool true := hall _ (List.mem_cons_self ..)
    subst this
    simp only [Table.step] at h1
    cases h4 : t.insert k v a with
    | none => rw [h4] at h1; cases h1
    | some r' =>
      rw [h4] at h1
      obtain ⟨x, y⟩ := r'
      cases h1
      exact ⟨x, rfl, I1, hok.2, _, _, h3, fun o ho => hall o (List.mem_cons_of_mem _ ho)⟩

theorem lookup_inv {t : Table Key ρ} {l : List (Key × ρ)} (I : Inv t l) (k : Key) : t.getValue k = (l.find? (fun e => e.1 = k)).map (·.2) := by
  obtain ⟨t', out, h1, h2, _⟩ := inv_step I (o := .get k) rfl
  simp only [Table.step] at h1
  cases h1
  exact h2

/-- The first right row with the key of the left one. -/
def firstMatch (kl kr : Row → Value) (rs : List (Row × ρ)) (a : Row) : Option Row :=
  (rs.find? fun x => valueEq (kl a) (kr x.1)).map fun x => a ++ x.1

omit [DecidableEq ρ] in
theorem find_entries (kl kr : Row → Value) (a : Row) (rs : List (Row × ρ)) :
    (rs.map fun x => (key (kr x.1), x.2)).find? (fun e => e.1 = key (kl a)) =
      (rs.find? fun x => valueEq (kl a) (kr x.1)).map fun x => (key (kr x.1), x.2) := by
  rw [List.find?_map]
  congr 2
  funext x
  simp only [Function.comp]
  by_cases h : valueEq (kl a) (kr x.1) = true
  · rw [h, decide_eq_true_eq]; exact (Quotient.sound (s := valueSetoid) h).symm
  · rw [Bool.not_eq_true] at h
    rw [h, decide_eq_false_iff_not]
    intro e
    have := Quotient.exact (s := valueSetoid) e.symm
    rw [show valueEq (kl a) (kr x.1) = true from this] at h
    cases h

theorem find_rid {rs : List (Row × ρ)} (hr : (rs.map (·.2)).Nodup) {x : Row × ρ} (hx : x ∈ rs) :
    (rs.map fun x => (x.2, x.1)).find? (fun y => y.1 = x.2) = some (x.2, x.1) := by
  induction rs with
  | nil => cases hx
  | cons y rs ih =>
    simp only [List.map_cons, List.nodup_cons] at hr
    simp only [List.map_cons, List.find?_cons]
    rcases List.mem_cons.1 hx with rfl | hx
    · simp
    · have : y.2 ≠ x.2 := fun e => hr.1 (e ▸ List.mem_map.2 ⟨x, hx, rfl⟩)
      simp only [this, decide_false]
      exact ih hr.2 hx

theorem probe_yields {t : Table Key ρ} {rs : List (Row × ρ)} (I : Inv t (rs.map fun x => (key (kr x.1), x.2))) (hn : (rs.map (·.2)).Nodup)
    {l : σ} {ls : List (Row × ρ)} {e : End} (hl : Yields left l ls e) (hk : ∀ x ∈ ls, eval false (rowEnv x.1) el = .ok (kl x.1)) :
    Yields (hashJoin alloc el er left right) (.probe t (rs.map fun x => (x.2, x.1)) l) ((ls.map (·.1)).filterMap (firstMatch kl kr rs)) e := by
  induction hl with
  | @emit s a s' xs e h _ ih =>
    have ih := ih fun x hx => hk x (List.mem_cons_of_mem _ hx)
    have hka := hk a (List.mem_cons_self ..)
    obtain ⟨a, rid⟩ := a
    have hg : (t.getValue (key (kl a))) = (rs.find? fun x => valueEq (kl a) (kr x.1)).map (·.2) := by
      rw [lookup_inv I, find_entries, Option.map_map]
      rfl
    simp only [List.map_cons, List.filterMap_cons, firstMatch]
    cases hf : rs.find? fun x => valueEq (kl a) (kr x.1) with
    | none =>
      rw [hf] at hg
      refine .cont (s' := .probe t (rs.map fun x => (x.2, x.1)) s') ?_ ih
      simp only [hashJoin, h, hka, hg, Option.map_none, Option.bind_none]
    | some x =>
      rw [hf] at hg
      refine .emit (s' := .probe t (rs.map fun x => (x.2, x.1)) s') ?_ ih
      simp only [hashJoin, h, hka, hg, Option.map_some, Option.bind_some, find_rid hn (List.mem_of_find?_eq_some hf)]
  | @cont s s' xs e h _ ih =>
    refine .cont (s' := .probe t (rs.map fun x => (x.2, x.1)) s') ?_ (ih hk)
    simp only [hashJoin, h]
  | @stop s e h =>
    refine .stop ?_
    simp only [hashJoin, h]

theorem build_yields {l : σ} {ls : List (Row × ρ)} {e : End} (hl : Yields left l ls e) (hk : ∀ x ∈ ls, eval false (rowEnv x.1) el = .ok (kl x.1))
    {r : τ} {rs : List (Row × ρ)} {e' : End} (hr : Yields right r rs e') (he : e' = .done) :
    ∀ {t : Table Key ρ} {pre : List (Row × ρ)}, (∀ x ∈ rs, eval false (rowEnv x.1) er = .ok (kr x.1)) →
      Inv t (pre.map fun x => (key (kr x.1), x.2)) → ((pre ++ rs).map (·.2)).Nodup → Built t (builds alloc kr pre.length rs) →
      Yields (hashJoin alloc el er left right) (.build t (pre.map fun x => (x.2, x.1)) r l)
        ((ls.map (·.1)).filterMap (firstMatch kl kr (pre ++ rs))) e := by
  induction hr with
  | @emit s x s' xs e'' h _ ih =>
    intro t pre hkr I hn hb
    obtain ⟨t', h1, I1, hb1⟩ := built_cons I hb
    have hx := hkr x (List.mem_cons_self ..)
    have ih := ih he (t := t') (pre := pre ++ [x]) (fun y hy => hkr y (List.mem_cons_of_mem _ hy)) (by simpa using I1) (by simpa using hn) (by simpa using hb1)
    rw [List.append_assoc, List.singleton_append, List.map_append] at ih
    refine .cont (s' := .build t' (pre.map (fun x => (x.2, x.1)) ++ [(x.2, x.1)]) s' l) ?_ ih
    obtain ⟨b, rid⟩ := x
    simp only [hashJoin, h, hx, List.length_map, h1]
  | @cont s s' xs e'' h _ ih =>
    intro t pre hkr I hn hb
    refine .cont (s' := .build t (pre.map fun x => (x.2, x.1)) s' l) ?_ (ih he hkr I hn hb)
    simp only [hashJoin, h]
  | @stop s e'' h =>
    intro t pre hkr I hn hb
    subst he
    rw [List.append_nil] at hn ⊢
    refine .cont (s' := .probe t (pre.map fun x => (x.2, x.1)) l) ?_ (probe_yields I hn hl hk)
    simp only [hashJoin, h]

/-- C44, what the hash join gives for right rows with any keys: for each left row one row, joined with the first right row whose key is `==`, if there is one. The keys
evaluate, the right rows have different record ids, and the table takes them all. -/
theorem C44_first_match_partial {hash : Key → Nat} {l : σ} {ls : List (Row × ρ)} {e : End} (hl : Yields left l ls e)
    (hkl : ∀ x ∈ ls, eval false (rowEnv x.1) el = .ok (kl x.1)) {r : τ} {rs : List (Row × ρ)} (hr : Yields right r rs .done)
    (hkr : ∀ x ∈ rs, eval false (rowEnv x.1) er = .ok (kr x.1)) (hn : (rs.map (·.2)).Nodup) (hb : Built (joinTable hash) (builds alloc kr 0 rs)) :
    Yields (hashJoin alloc el er left right) (.build (joinTable hash) [] r l)
      ((ls.map (·.1)).filterMap fun a => (rs.find? fun x => valueEq (kl a) (kr x.1)).map fun x => a ++ x.1) e :=
  build_yields hl hkl hr rfl (pre := []) hkr (inv_new hash 4 4 100 (by decide)) hn hb

/-- The table takes up to 100 rows, whatever the hash function does and whatever the buffer pool answers. -/
theorem C44_small_build (hash : Key → Nat) (rs : List (Row × ρ)) (h : rs.length ≤ 100) : Built (joinTable hash) (builds alloc kr 0 rs) := by
  have gen : ∀ (rs : List (Row × ρ)) {t : Table Key ρ} {l : List (Key × ρ)} {n : Nat}, Inv t l → t.bucketMax = 100 → l.length + rs.length ≤ 100 →
      Built t (builds alloc kr n rs) := by
    intro rs
    induction rs with
    | nil => intro t l n _ _ _; exact ⟨rfl, t, [], rfl, fun _ h => by cases h⟩
    | cons x rs ih =>
      intro t l n I hbm hlen
      obtain ⟨p, b, hloc, hp, hpn, hb, hm, hbl, hk⟩ := locate_eq I (key (kr x.1))
      have hb' := bucket_length I (Nat.mod_lt _ (Nat.two_pow_pos _)) hp hb
      have hf : b.isFull = false := by
        simp only [Bucket.isFull, decide_eq_false_iff_not]; rw [hm, hbm]
        simp only [List.length_cons] at hlen; omega
      have ho : t.OpOk (.insert (key (kr x.1)) x.2 (alloc n)) = true := by
        simp only [Table.OpOk, Table.splitsLow, hloc, hf, if_true]
      have hi : ∃ t', t.insert (key (kr x.1)) x.2 (alloc n) = some (t', true) := by
        unfold Table.insert Table.insertLoop
        rw [hloc]
        simp only [hf, if_true, Bucket.insert, Bool.false_eq_true, if_false]
        exact ⟨_, rfl⟩
      obtain ⟨t', hi⟩ := hi
      obtain ⟨t1, out, h1, h2, I1⟩ := inv_step I ho
      have hs : t.step (.insert (key (kr x.1)) x.2 (alloc n)) = some (t', .bool true) := by simp only [Table.step, hi]; rfl
      rw [hs] at h1
      cases h1
      obtain ⟨k1, tf, outs, k2, k3⟩ := ih (n := n + 1) I1 (by rw [← hbm]; exact step_bucketMax hs)
        (by simp only [Spec.step, List.length_append, List.length_cons, List.length_nil] at hlen ⊢; omega)
      refine ⟨by simp only [builds, Table.RunOk, ho, hs, k1, Bool.and_self], tf, .bool true :: outs, by simp only [builds, Table.run, hs, k2], ?_⟩
      intro o ho
      rcases List.mem_cons.1 ho with rfl | ho
      · rfl
      · exact k3 o ho
  exact gen rs (inv_new hash 4 4 100 (by decide)) rfl (by simpa using h)

theorem filter_unique {q : Row → Bool} {rs : List Row} (hu : rs.Pairwise fun x y => ¬ (q x = true ∧ q y = true)) :
    rs.filter q = (rs.find? q).toList := by
  induction rs with
  | nil => rfl
  | cons b rs ihr =>
    rw [List.pairwise_cons] at hu
    simp only [List.filter_cons, List.find?_cons]
    cases hb : q b with
    | true =>
      simp only [if_true, Option.toList, List.cons.injEq, true_and, List.filter_eq_nil_iff]
      intro y hy hay
      exact hu.1 y hy ⟨hb, hay⟩
    | false => simpa using ihr hu.2

theorem pairs_unique {on : Row → Row → Bool} {ls rs : List Row} (hu : ∀ a ∈ ls, rs.Pairwise fun x y => ¬ (on a x = true ∧ on a y = true)) :
    pairs on ls rs = ls.filterMap fun a => (rs.find? (on a)).map (a ++ ·) := by
  induction ls with
  | nil => rfl
  | cons a ls ih =>
    simp only [pairs, List.flatMap_cons, List.filterMap_cons]
    have ih := ih fun x hx => hu x (List.mem_cons_of_mem _ hx)
    simp only [pairs] at ih
    rw [ih]
    rw [filter_unique (hu a (List.mem_cons_self ..))]
    cases rs.find? (on a) <;> simp

/-- C44 for keys that are integers of one type, different on the right side, and a table that takes all right rows (at least every right side of up to 100 rows,
`C44_small_build`): exactly the joined rows of all pairs with equal keys. Missing: repeated keys on the right (`C44_duplicate_fails`), NULL keys (`C44_null_fails`), keys
of two types (`C44_types_fails`), and right sides the table refuses or that fail (`C44_right_error_fails`). -/
theorem C44_equijoin_partial {hash : Key → Nat} {ty : Nat} (ht : 1 ≤ ty ∧ ty ≤ 4) {il ir : Row → Int} {l : σ} {ls : List (Row × ρ)} {e : End}
    (hl : Yields left l ls e) (hkl : ∀ x ∈ ls, eval false (rowEnv x.1) el = .ok (intVal ty (il x.1))) {r : τ} {rs : List (Row × ρ)}
    (hr : Yields right r rs .done) (hkr : ∀ x ∈ rs, eval false (rowEnv x.1) er = .ok (intVal ty (ir x.1))) (hn : (rs.map (·.2)).Nodup)
    (hu : (rs.map fun x => ir x.1).Nodup) (hb : rs.length ≤ 100 ∨ Built (joinTable hash) (builds alloc (fun b => intVal ty (ir b)) 0 rs)) :
    Yields (hashJoin alloc el er left right) (.build (joinTable hash) [] r l) (pairs (fun a b => il a == ir b) (ls.map (·.1)) (rs.map (·.1))) e := by
  have hb : Built (joinTable hash) (builds alloc (fun b => intVal ty (ir b)) 0 rs) := hb.elim (C44_small_build hash rs) id
  have := C44_first_match_partial (kl := fun a => intVal ty (il a)) (kr := fun a => intVal ty (ir a)) hl hkl hr hkr hn hb
  have hv : ∀ i j : Int, valueEq (intVal ty i) (intVal ty j) = (i == j) := by
    intro i j
    obtain ⟨h1, h2⟩ := ht
    have : ty = 1 ∨ ty = 2 ∨ ty = 3 ∨ ty = 4 := by omega
    rcases this with rfl | rfl | rfl | rfl <;> simp [intVal, new, newTyped, valueEq, valEq, tag, atoms]
  rw [pairs_unique]
  · simp only [List.find?_map, hv] at this ⊢
    simpa [Function.comp_def, Option.map_map] using this
  · intro a _
    rw [List.pairwise_map]
    simp only [List.Nodup, List.pairwise_map] at hu
    refine hu.imp fun {x y} h => ?_
    simp only [beq_iff_eq]
    intro ⟨h1, h2⟩
    exact h (h1.symm.trans h2)

/-! ## Cases -/

/-- Rows of one Integer, numbered. -/
def exSide (vs : List Value) : List (Row × Nat) := vs.zipIdx.map fun x => ([x.1], x.2)

def i4 (i : Int) : Value := new (.integer i)

-- The hypotheses hold for two rows of five with a match and keys that differ.
example : (∀ x ∈ exSide [i4 3, i4 7, i4 3], eval false (rowEnv x.1) (.col 0 0) = .ok (intVal 3 (match x.1 with | [.mk (.integer i) _ _ _ _] => i | _ => 0))) ∧
    ((exSide [i4 3, i4 7, i4 3]).map (·.2)).Nodup := by
  refine ⟨?_, by decide⟩
  intro x hx
  simp only [exSide, List.zipIdx_cons, List.zipIdx_nil, List.map_cons, List.map_nil, List.mem_cons, List.not_mem_nil, or_false] at hx
  rcases hx with rfl | rfl | rfl <;> rfl

example (hash : Key → Nat) : Yields (hashJoin (fun _ _ => true) (.col 0 0) (.col 0 0) source source)
    (.build (joinTable hash) [] (exSide [i4 3, i4 5]) (exSide [i4 3, i4 7, i4 3])) [[i4 3, i4 3], [i4 3, i4 3]] .done := by
  have := C44_equijoin_partial (alloc := fun _ _ => true) (hash := hash) (el := .col 0 0) (er := .col 0 0) (ty := 3) (by decide)
    (il := fun r => match r with | [.mk (.integer i) _ _ _ _] => i | _ => 0)
    (ir := fun r => match r with | [.mk (.integer i) _ _ _ _] => i | _ => 0)
    (source_yields (exSide [i4 3, i4 7, i4 3])) (by
      intro x hx
      simp only [exSide, List.zipIdx_cons, List.zipIdx_nil, List.map_cons, List.map_nil, List.mem_cons, List.not_mem_nil, or_false] at hx
      rcases hx with rfl | rfl | rfl <;> rfl)
    (source_yields (exSide [i4 3, i4 5])) (by
      intro x hx
      simp only [exSide, List.zipIdx_cons, List.zipIdx_nil, List.map_cons, List.map_nil, List.mem_cons, List.not_mem_nil, or_false] at hx
      rcases hx with rfl | rfl <;> rfl) (by decide) (by decide) (.inl (by decide))
  exact this

/-- The join of two one-column sides, by `C44_first_match_partial`. -/
theorem ex_join (hash : Key → Nat) (vs ws : List Value) (h : ws.length ≤ 100) :
    Yields (hashJoin (fun _ _ => true) (.col 0 0) (.col 0 0) source source) (.build (joinTable hash) [] (exSide ws) (exSide vs))
      (((exSide vs).map (·.1)).filterMap fun a => ((exSide ws).find? fun x => valueEq (a.headD (new .null)) (x.1.headD (new .null))).map fun x => a ++ x.1) .done := by
  have hk : ∀ (vs : List Value), ∀ x ∈ exSide vs, eval false (rowEnv x.1) (.col 0 0) = .ok (x.1.headD (new .null)) := by
    intro vs x hx
    simp only [exSide, List.mem_map] at hx
    obtain ⟨y, _, rfl⟩ := hx
    rfl
  refine C44_first_match_partial (kl := fun a => a.headD (new .null)) (kr := fun a => a.headD (new .null)) (source_yields _) (hk vs) (source_yields _) (hk ws) ?_
    (C44_small_build hash _ (by simpa [exSide] using h))
  simp only [exSide, List.map_map]
  have : (List.map (Prod.snd ∘ fun x : Value × Nat => ([x.1], x.2)) ws.zipIdx) = List.range' 0 ws.length := by
    rw [← List.zipIdx_map_snd 0 ws]; rfl
  rw [this]
  exact List.nodup_range'

/-- C44 is false: of two right rows with the key of a left row only the first is joined. -/
theorem C44_duplicate_fails (hash : Key → Nat) : ∃ ls rs : List Value, (pairs (fun a b => valuesEq a b) (ls.map ([·])) (rs.map ([·]))).length = 2 ∧
    Yields (hashJoin (fun _ _ => true) (.col 0 0) (.col 0 0) source source) (.build (joinTable hash) [] (exSide rs) (exSide ls)) [[i4 1, i4 1]] .done :=
  ⟨[i4 1], [i4 1, i4 1], by decide, ex_join hash [i4 1] [i4 1, i4 1] (by decide)⟩

/-- C44 is false: NULL is joined with NULL. -/
theorem C44_null_fails (hash : Key → Nat) : ∃ a b : Value, compareOp .eq a b = .n ∧
    Yields (hashJoin (fun _ _ => true) (.col 0 0) (.col 0 0) source source) (.build (joinTable hash) [] (exSide [b]) (exSide [a])) [[a, b]] .done :=
  ⟨newTyped .null 3, newTyped .null 3, by decide, ex_join hash [newTyped .null 3] [newTyped .null 3] (by decide)⟩

/-- C44 is false: equal numbers of two types are not joined. -/
theorem C44_types_fails (hash : Key → Nat) : ∃ a b : Value, compareOp .eq a b = .t ∧
    Yields (hashJoin (fun _ _ => true) (.col 0 0) (.col 0 0) source source) (.build (joinTable hash) [] (exSide [b]) (exSide [a])) [] .done :=
  ⟨new (.integer 1), new (.bigInt 1), by decide, ex_join hash [new (.integer 1)] [new (.bigInt 1)] (by decide)⟩

/-- C44 is false: when the right side fails, the result is empty, without an error. -/
theorem C44_right_error_fails (hash : Key → Nat) (left : Machine σ (Row × Nat)) (l : σ) :
    Yields (hashJoin (fun _ _ => true) (.col 0 0) (.col 0 0) left broken) (.build (joinTable hash) [] [] l) [] .done :=
  .stop rfl

end Verif.Exec

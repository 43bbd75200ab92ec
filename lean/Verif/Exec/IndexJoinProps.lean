import Verif.Exec.IndexJoin
import Verif.Exec.IndexScanProps
import Verif.Exec.JoinProps

/-!
# The index nested-loop join (C144)

Specification vocabulary: `on a b` says that the join condition is TRUE of the two rows, `pairs on ls rs` (of C43) are the joined rows of all matching pairs.
`KeyOf t v k`: the value `v` is NULL and `k` is `none`, or `v` is the integer `k` of the type `t`. `sameKey kl kr a b`: the two rows have the same key, and it is not NULL.
-/

namespace Verif.Exec

open Verif.Wire Verif.Bytes Verif.Sql

/-- The join condition is TRUE of the two rows. -/
def JoinTrue (p : Expr) (a b : Row) : Prop := ∃ v, eval true (joinEnv a b) p = .ok v ∧ val v = .boolean true

/-- The join condition does not panic on any pair, and `on` says whether it is TRUE. An error counts as not TRUE. -/
def Says (p : Expr) (on : Row → Row → Bool) (ls rs : List Row) : Prop :=
  ∀ a ∈ ls, ∀ b ∈ rs, eval true (joinEnv a b) p ≠ .overflow ∧ (on a b = true ↔ JoinTrue p a b)

/-- The rows with a record id not seen before, in order, each record id once. -/
def firstRows {ρ : Type} [DecidableEq ρ] : List ρ → List (ρ × Row) → List Row
  | _, [] => []
  | seen, (r, b) :: xs => if r ∈ seen then firstRows seen xs else b :: firstRows (r :: seen) xs

theorem firstRows_mem {ρ : Type} [DecidableEq ρ] (xs : List (ρ × Row)) (seen : List ρ) {b : Row} (h : b ∈ firstRows seen xs) : b ∈ xs.map (·.2) := by
  induction xs generalizing seen with
  | nil => simp [firstRows] at h
  | cons x xs ih =>
    obtain ⟨r, c⟩ := x
    simp only [firstRows] at h
    split at h
    · simpa using .inr (by simpa using ih _ h)
    · rcases List.mem_cons.1 h with rfl | h
      · simp
      · simpa using .inr (by simpa using ih _ h)

theorem firstRows_nodup {ρ : Type} [DecidableEq ρ] (xs : List (ρ × Row)) (seen : List ρ) (hn : (xs.map (·.1)).Nodup) (hd : ∀ r ∈ xs.map (·.1), r ∉ seen) :
    firstRows seen xs = xs.map (·.2) := by
  induction xs generalizing seen with
  | nil => rfl
  | cons x xs ih =>
    obtain ⟨r, c⟩ := x
    simp only [List.map_cons, List.nodup_cons] at hn
    have hr : r ∉ seen := hd r (by simp)
    simp only [firstRows, hr, if_false, List.map_cons]
    rw [ih (r :: seen) hn.2]
    intro q hq
    simp only [List.mem_cons, not_or]
    exact ⟨fun h => hn.1 (h ▸ hq), hd q (by simp only [List.map_cons, List.mem_cons]; exact .inr hq)⟩

section
variable {σ τ ρ : Type} [DecidableEq ρ] {jt : JoinType} {p : Expr} {lk rk : List Expr} {left : Machine σ Row} {right : Machine τ (ρ × Row)} {start : List Expr → Option τ}

theorem join_scan {on : Row → Row → Bool} {l : σ} {a : Row} {r : τ} {xs : List (ρ × Row)} {e e' : End} {out : List Row} (hr : Yields right r xs e') (he : e' ≠ .panic)
    (ho : ∀ b ∈ xs.map (·.2), eval true (joinEnv a b) p ≠ .overflow ∧ (on a b = true ↔ JoinTrue p a b)) (seen : List ρ)
    (hy : Yields (indexJoin jt p lk rk left right start) (.fetch l) out e) :
    Yields (indexJoin jt p lk rk left right start) (.scan l a r seen) (((firstRows seen xs).filter (on a)).map (a ++ ·) ++ out) e := by
  induction hr generalizing seen with
  | @stop s e' h =>
    refine .cont ?_ (by simpa [firstRows] using hy)
    cases e' with
    | done => simp [indexJoin, h]
    | err => simp [indexJoin, h]
    | panic => exact absurd rfl he
  | @cont s s' xs e' h _ ih => exact .cont (by simp [indexJoin, h]) (ih he ho seen)
  | @emit s x s' xs e' h _ ih =>
    obtain ⟨rid, b⟩ := x
    have ih := ih he (fun b hb => ho b (by simp only [List.map_cons, List.mem_cons]; exact .inr hb))
    by_cases hs : rid ∈ seen
    · simp only [firstRows, hs, if_true]
      exact .cont (by simp [indexJoin, h, hs]) (ih seen)
    · simp only [firstRows, hs, if_false]
      have hb := ho b (by simp)
      have ih := ih (rid :: seen)
      by_cases ht : on a b = true
      · obtain ⟨v, hv, hvt⟩ := hb.2.1 ht
        simp only [List.filter_cons, ht, if_true, List.map_cons, List.cons_append]
        exact .emit (by simp [indexJoin, h, hs, hv, hvt]) ih
      · simp only [List.filter_cons, ht, if_false]
        refine .cont ?_ ih
        simp only [indexJoin, h, hs, if_false]
        cases hv : eval true (joinEnv a b) p with
        | ok v =>
          have : val v ≠ .boolean true := fun hh => ht (hb.2.2 ⟨v, hv, hh⟩)
          dsimp only
          split
          · rename_i hh; exact absurd hh this
          · rfl
        | overflow => exact absurd hv hb.1
        | err => rfl
        | out => rfl

/-- C144: for each left row in order, the join gives the left row joined with the rows that the right side gives for it and that meet the condition, in the order the right
side gives them, each record id once. It ends as the left side ends. -/
theorem C144_rows {on : Row → Row → Bool} {l : σ} {ls : List Row} {e : End} (hl : Yields left l ls e) (rows : Row → List (ρ × Row))
    (hs : ∀ a ∈ ls, ∃ ps r e', keyPreds a lk rk = some ps ∧ start ps = some r ∧ Yields right r (rows a) e' ∧ e' ≠ .panic)
    (ho : ∀ a ∈ ls, Says p on [a] ((rows a).map (·.2))) :
    Yields (indexJoin jt p lk rk left right start) (.fetch l) (ls.flatMap fun a => ((firstRows [] (rows a)).filter (on a)).map (a ++ ·)) e := by
  induction hl with
  | @stop s e h => exact .stop (by simp [indexJoin, h])
  | @cont s s' xs e h _ ih => exact .cont (by simp [indexJoin, h]) (ih hs ho)
  | @emit s a s' xs e h _ ih =>
    have ih := ih (fun a h => hs a (by simp [h])) (fun a h => ho a (by simp [h]))
    obtain ⟨ps, r, e', hk, hst, hr, he⟩ := hs a (by simp)
    rw [List.flatMap_cons]
    refine .cont (s' := .begin s' a) (by simp [indexJoin, h]) (.cont (s' := .scan s' a r []) (by simp [indexJoin, hk, hst]) ?_)
    exact join_scan hr he (fun b hb => ho a (by simp) a (by simp) b hb) [] ih

end

/-! ## The right table -/

section
variable {ρ : Type} [DecidableEq ρ]

theorem all_yields (t : RightTable ρ) (xs : List (ρ × Row)) : Yields t.step (.all xs) xs .done := by
  induction xs with
  | nil => exact .stop rfl
  | cons x xs ih => exact .emit rfl ih

/-- The rows an index scan gives, with their record ids. -/
def found (t : RightTable ρ) (ps : List Expr) (rids : List ρ) : List (ρ × Row) :=
  rids.filterMap fun r => match t.fetch r with
    | some row => if matchAll row ps = some true then some (r, row) else none
    | none => none

theorem index_yields (t : RightTable ρ) (ps : List Expr) (rids : List ρ) (h : ∀ r ∈ rids, ∀ row, t.fetch r = some row → matchAll row ps ≠ none) :
    Yields t.step (.byIndex ps rids) (found t ps rids) .done := by
  induction rids with
  | nil => exact .stop rfl
  | cons r rs ih =>
    have ih := ih (fun r' hr => h r' (by simp [hr]))
    unfold found at ih ⊢
    rw [List.filterMap_cons]
    cases hf : t.fetch r with
    | none => exact .cont (by simp [RightTable.step, indexScan, source, hf]) ih
    | some row =>
      have hm := h r (by simp) row hf
      cases hv : matchAll row ps with
      | none => exact absurd hv hm
      | some b =>
        cases b with
        | true =>
          simp only [hv, if_true]
          exact .emit (by simp [RightTable.step, indexScan, source, hf, hv]) ih
        | false =>
          simp only [hv, Option.some.injEq, Bool.false_eq_true, if_false]
          exact .cont (by simp [RightTable.step, indexScan, source, hf, hv]) ih

theorem not_other {child : RightChild} (hc : child ≠ .other) (t : RightTable ρ) (k : Nat) (ps : List Expr) :
    t.start child k ps = match t.indexes.find? (·.columns == k) with
      | some ix => some (.byIndex ps (ix.between (bounds ps)))
      | none => some (.all t.rows) := by
  cases child with
  | other => exact absurd rfl hc
  | seq => rfl
  | index _ => rfl

/-- C144: over a table with no index of as many columns as there are keys, the join gives the pairs that meet the condition, in the order of the left rows and for each of
them in the order of the table. -/
theorem C144_scan {σ : Type} {jt : JoinType} {p : Expr} {lk rk : List Expr} {left : Machine σ Row} {on : Row → Row → Bool} {l : σ} {ls : List Row} {e : End} (t : RightTable ρ)
    {child : RightChild} (hc : child ≠ .other) (hl : Yields left l ls e) (hx : ∀ ix ∈ t.indexes, ix.columns ≠ rk.length) (hn : (t.rows.map (·.1)).Nodup)
    (hk : ∀ a ∈ ls, keyPreds a lk rk ≠ none) (ho : Says p on ls (t.rows.map (·.2))) :
    Yields (indexJoin jt p lk rk left t.step (t.start child rk.length)) (.fetch l) (pairs on ls (t.rows.map (·.2))) e := by
  have hf : t.indexes.find? (·.columns == rk.length) = none := by
    rw [List.find?_eq_none]
    intro ix h
    simpa using hx ix h
  have := C144_rows (jt := jt) (p := p) (lk := lk) (rk := rk) (on := on) (right := t.step) (start := t.start child rk.length) hl (fun _ => t.rows)
    (fun a ha => by
      cases hp : keyPreds a lk rk with
      | none => exact absurd hp (hk a ha)
      | some ps => exact ⟨ps, .all t.rows, .done, rfl, by rw [not_other hc, hf], all_yields t _, nofun⟩)
    (fun a ha a' ha' b hb => by
      rw [List.mem_singleton.1 ha']
      exact ho a ha b hb)
  unfold pairs
  rw [firstRows_nodup t.rows [] hn (by simp)] at this
  exact this

theorem firstRows_perm (t : RightTable ρ) (hn : (t.rows.map (·.1)).Nodup) (hf : ∀ r row, t.fetch r = some row ↔ (r, row) ∈ t.rows) (q : Row → Bool) (ps : List Expr) (rids : List ρ)
    (hc : ∀ x ∈ t.rows, q x.2 = true → x.1 ∈ rids ∧ matchAll x.2 ps = some true) :
    ((firstRows [] (found t ps rids)).filter q).Perm ((t.rows.map (·.2)).filter q) := by
  have uniq : ∀ {r : ρ} {b c : Row}, (r, b) ∈ t.rows → (r, c) ∈ t.rows → b = c := by
    intro r b c hb hc
    have := (hf r b).2 hb
    rw [(hf r c).2 hc] at this
    exact (Option.some.inj this).symm

  have key : ∀ (xs : List (ρ × Row)) (seen : List ρ), ∃ ys : List (ρ × Row), firstRows seen xs = ys.map (·.2) ∧ (ys.map (·.1)).Nodup ∧ (∀ y ∈ ys, y ∈ xs ∧ y.1 ∉ seen) ∧
      (∀ x ∈ xs, x.1 ∉ seen → x.1 ∈ ys.map (·.1)) := by
    intro xs
    induction xs with
    | nil => intro seen; exact ⟨[], rfl, by simp, by simp, by simp⟩
    | cons x xs ih =>
      intro seen
      obtain ⟨r, b⟩ := x
      by_cases hs : r ∈ seen
      · obtain ⟨ys, h1, h2, h3, h4⟩ := ih seen
        refine ⟨ys, by simp [firstRows, hs, h1], h2, fun y hy => ⟨List.mem_cons_of_mem _ (h3 y hy).1, (h3 y hy).2⟩, ?_⟩
        intro x hx hxs
        rcases List.mem_cons.1 hx with rfl | hx
        · exact absurd hs hxs
        · exact h4 x hx hxs
      · obtain ⟨ys, h1, h2, h3, h4⟩ := ih (r :: seen)
        refine ⟨(r, b) :: ys, by simp [firstRows, hs, h1], ?_, ?_, ?_⟩
        · rw [List.map_cons, List.nodup_cons]
          refine ⟨?_, h2⟩
          intro hm
          obtain ⟨y, hy, he⟩ := List.mem_map.1 hm
          exact (h3 y hy).2 (by rw [he]; simp)
        · intro y hy
          rcases List.mem_cons.1 hy with rfl | hy
          · exact ⟨by simp, hs⟩
          · exact ⟨List.mem_cons_of_mem _ (h3 y hy).1, fun h => (h3 y hy).2 (List.mem_cons_of_mem _ h)⟩
        · intro x hx hxs
          rcases List.mem_cons.1 hx with rfl | hx
          · simp
          · by_cases hxr : x.1 = r
            · simp [hxr]
            · rw [List.map_cons]
              exact List.mem_cons_of_mem _ (h4 x hx (by simp [hxr, hxs]))
  obtain ⟨ys, h1, h2, h3, h4⟩ := key (found t ps rids) []
  have hfound : ∀ x ∈ found t ps rids, x ∈ t.rows ∧ matchAll x.2 ps = some true := by
    intro x hx
    obtain ⟨r, _, h⟩ := List.mem_filterMap.1 hx
    cases hfr : t.fetch r with
    | none => rw [hfr] at h; cases h
    | some row =>
      rw [hfr] at h
      dsimp only at h
      split at h
      · rename_i hm
        cases h
        exact ⟨(hf r row).1 hfr, hm⟩
      · cases h
  rw [h1]
  have hp : (ys.filter (fun y => q y.2)).Perm (t.rows.filter (fun y => q y.2)) := by
    have nd : ∀ {zs : List (ρ × Row)}, (zs.map (·.1)).Nodup → zs.Nodup := fun h => List.Pairwise.of_map (·.1) (fun a b h e => h (by rw [e])) h
    rw [List.perm_ext_iff_of_nodup ((nd h2).filter _) ((nd hn).filter _)]
    intro y
    simp only [List.mem_filter]
    constructor
    · rintro ⟨hy, hq⟩
      exact ⟨(hfound y (h3 y hy).1).1, hq⟩
    · rintro ⟨hy, hq⟩
      refine ⟨?_, hq⟩
      obtain ⟨h5, h6⟩ := hc y hy hq
      have : y ∈ found t ps rids := by
        refine List.mem_filterMap.2 ⟨y.1, h5, ?_⟩
        rw [(hf y.1 y.2).2 hy]
        simp [h6]
      obtain ⟨z, hz, he⟩ := List.mem_map.1 (h4 y this (by simp))
      have hz' := (hfound z (h3 z hz).1).1
      obtain ⟨y1, y2⟩ := y
      obtain ⟨z1, z2⟩ := z
      dsimp only at he
      subst he
      rw [uniq hy hz']
      exact hz
  have := hp.map (·.2)
  rw [List.filter_map, List.filter_map]
  exact this

/-- C144: through an index, if for every left row the index gives the record ids of all right rows that meet the condition and these rows meet the equalities of the keys,
the join gives the pairs that meet the condition, each once, up to the order of the right rows, even if the index gives a record id twice.
Missing: an index on other columns, an outer join, and a right side that is not a scan of a table (all false, see below). -/
theorem C144_index_partial {σ : Type} {jt : JoinType} {p : Expr} {lk rk : List Expr} {left : Machine σ Row} {on : Row → Row → Bool} {l : σ} {ls : List Row} {e : End}
    (t : RightTable ρ) {child : RightChild} {ix : JoinIndex ρ} (hc : child ≠ .other) (hl : Yields left l ls e) (hx : t.indexes.find? (·.columns == rk.length) = some ix)
    (hn : (t.rows.map (·.1)).Nodup) (hf : ∀ r row, t.fetch r = some row ↔ (r, row) ∈ t.rows) (ho : Says p on ls (t.rows.map (·.2)))
    (hk : ∀ a ∈ ls, ∃ ps, keyPreds a lk rk = some ps ∧ ∀ x ∈ t.rows, matchAll x.2 ps ≠ none ∧ (on a x.2 = true → x.1 ∈ ix.between (bounds ps) ∧ matchAll x.2 ps = some true)) :
    ∃ out, Yields (indexJoin jt p lk rk left t.step (t.start child rk.length)) (.fetch l) out e ∧ out.Perm (pairs on ls (t.rows.map (·.2))) := by
  let pr : Row → List Expr := fun a => (keyPreds a lk rk).getD []
  have hpr : ∀ a ∈ ls, keyPreds a lk rk = some (pr a) := by
    intro a ha
    obtain ⟨ps, h, _⟩ := hk a ha
    simp [pr, h]
  have hk' : ∀ a ∈ ls, ∀ x ∈ t.rows, matchAll x.2 (pr a) ≠ none ∧ (on a x.2 = true → x.1 ∈ ix.between (bounds (pr a)) ∧ matchAll x.2 (pr a) = some true) := by
    intro a ha
    obtain ⟨ps, h, h2⟩ := hk a ha
    have : ps = pr a := by simp [pr, h]
    rw [← this]
    exact h2
  have hsub : ∀ (ps : List Expr) (rids : List ρ), ∀ b ∈ (found t ps rids).map (·.2), b ∈ t.rows.map (·.2) := by
    intro ps rids b hb
    obtain ⟨x, hx, rfl⟩ := List.mem_map.1 hb
    obtain ⟨r, _, h⟩ := List.mem_filterMap.1 hx
    cases hfr : t.fetch r with
    | none => rw [hfr] at h; cases h
    | some row =>
      rw [hfr] at h
      dsimp only at h
      split at h
      · cases h
        exact List.mem_map.2 ⟨(r, row), (hf r row).1 hfr, rfl⟩
      · cases h
  refine ⟨_, C144_rows (jt := jt) (p := p) (lk := lk) (rk := rk) (on := on) (right := t.step) (start := t.start child rk.length) hl
    (fun a => found t (pr a) (ix.between (bounds (pr a))))
    (fun a ha => ⟨pr a, .byIndex (pr a) (ix.between (bounds (pr a))), .done, hpr a ha, by rw [not_other hc, hx],
      index_yields t _ _ (fun r _ row hr => (hk' a ha (r, row) ((hf r row).1 hr)).1), nofun⟩)
    (fun a ha a' ha' b hb => by
      rw [List.mem_singleton.1 ha']
      exact ho a ha b (hsub _ _ b hb)), ?_⟩
  unfold pairs
  clear ho hpr hl hk
  induction ls with
  | nil => exact .nil
  | cons a as ih =>
    rw [List.flatMap_cons, List.flatMap_cons]
    refine List.Perm.append ?_ (ih (fun a h => hk' a (by simp [h])))
    exact (firstRows_perm t hn hf (on a) (pr a) _ (fun x hx hq => (hk' a (by simp) x hx).2 hq)).map _

end

/-! ## Joins on equal integers -/

/-- The value is the key `k` of an integer column of type `t`: NULL or an integer. -/
def KeyOf (t : Nat) (v : Value) : Option Int → Prop
  | none => isNull v = true
  | some k => Fits t k ∧ v = intVal t k

/-- The two rows have the same key, not NULL. -/
def sameKey (kl kr : Row → Option Int) (a b : Row) : Bool := (kl a).isSome && decide (kl a = kr b)

/-- What `=` says of two keys. -/
def eqTri : Option Int → Option Int → Tri
  | some k, some m => .of (decide (k = m))
  | _, _ => .n

theorem eq_keys {t : Nat} {v w : Value} {k m : Option Int} (hv : KeyOf t v k) (hw : KeyOf t w m) :
    comparison .eq v w = .ok (ofTri (eqTri k m)) := by
  cases k with
  | none => unfold comparison; rw [if_pos (by rw [show isNull v = true from hv]; simp)]; rfl
  | some k =>
    cases m with
    | none => unfold comparison; rw [if_pos (by rw [show isNull w = true from hw]; simp)]; rfl
    | some m =>
      obtain ⟨h1, rfl⟩ := hv
      obtain ⟨h2, rfl⟩ := hw
      rw [C69_int .eq h1 h2]
      have : CmpOp.rel .eq k m = decide (k = m) := by
        rw [Bool.eq_iff_iff]
        simp [CmpOp.rel]
      rw [this]
      rfl

theorem ofTri_is {x : Tri} : val (ofTri x) = .boolean true ↔ x = .t := by cases x <;> simp [ofTri, new, newTyped, val]

/-- C144 for `left.i = right.j` on integer columns of the same type, with NULLs: if the index on column `j` gives, for a key, at least the record ids of the rows with that
key, the join through the index gives the pairs with the same key, each once. -/
theorem C144_equal_partial {σ ρ : Type} [DecidableEq ρ] {jt : JoinType} {left : Machine σ Row} {l : σ} {ls : List Row} {e : End} (t : RightTable ρ) {child : RightChild}
    {ix : JoinIndex ρ} {ty i j n : Nat} {kl kr : Row → Option Int} (hc : child ≠ .other) (hl : Yields left l ls e) (hx : t.indexes.find? (·.columns == 1) = some ix)
    (hn : (t.rows.map (·.1)).Nodup) (hf : ∀ r row, t.fetch r = some row ↔ (r, row) ∈ t.rows)
    (hls : ∀ a ∈ ls, a.length = n ∧ ∃ v, a[i]? = some v ∧ KeyOf ty v (kl a)) (hrs : ∀ x ∈ t.rows, ∃ v, x.2[j]? = some v ∧ KeyOf ty v (kr x.2))
    (hix : ∀ k, Fits ty k → ∀ x ∈ t.rows, kr x.2 = some k → x.1 ∈ ix.between (some (intVal ty k), some (intVal ty k))) :
    ∃ out, Yields (indexJoin jt (.cmp .eq (.col 0 i) (.col 1 (n + j))) [.col 0 i] [.col 0 j] left t.step (t.start child 1)) (.fetch l) out e ∧
      out.Perm (pairs (sameKey kl kr) ls (t.rows.map (·.2))) := by
  refine C144_index_partial (rk := [.col 0 j]) t hc hl hx hn hf ?_ ?_
  · intro a ha b hb
    obtain ⟨x, hx, rfl⟩ := List.mem_map.1 hb
    obtain ⟨hlen, v, hv, hkv⟩ := hls a ha
    obtain ⟨w, hw, hkw⟩ := hrs x hx
    have hev : eval true (joinEnv a x.2) (.cmp .eq (.col 0 i) (.col 1 (n + j))) =
        .ok (ofTri (eqTri (kl a) (kr x.2))) := by
      have h1 : joinEnv a x.2 0 i = some v := hv
      have h2 : joinEnv a x.2 1 (n + j) = some w := by
        show (if a.length ≤ n + j then x.2[n + j - a.length]? else x.2[n + j]?) = some w
        rw [hlen, if_pos (by omega), Nat.add_sub_cancel_left]
        exact hw
      simp only [eval, h1, h2, Res.bind]
      exact eq_keys hkv hkw
    rw [hev]
    refine ⟨nofun, ?_⟩
    unfold JoinTrue
    rw [hev]
    unfold sameKey
    constructor
    · intro h
      refine ⟨_, rfl, ofTri_is.2 ?_⟩
      cases h1 : kl a <;> cases h2 : kr x.2 <;> simp_all [Tri.of, eqTri]
    · rintro ⟨v, hv, ht⟩
      cases hv
      have := ofTri_is.1 ht
      cases h1 : kl a <;> cases h2 : kr x.2 <;> simp_all [Tri.of, eqTri]
  · intro a ha
    obtain ⟨hlen, v, hv, hkv⟩ := hls a ha
    refine ⟨[.cmp .eq (.col 0 j) (.lit v)], by simp [keyPreds, eval, rowEnv, hv], ?_⟩
    intro x hxr
    obtain ⟨w, hw, hkw⟩ := hrs x hxr
    have hm : eval false (rowEnv x.2) (.cmp .eq (.col 0 j) (.lit v)) =
        .ok (ofTri (eqTri (kr x.2) (kl a))) := by
      simp only [eval, rowEnv, hw, Res.bind]
      exact eq_keys hkw hkv
    constructor
    · simp only [matchAll, hm]
      split <;> simp
    · intro hs
      unfold sameKey at hs
      cases h1 : kl a with
      | none => simp [h1] at hs
      | some k =>
        have h2 : kr x.2 = some k := by simp [h1] at hs; exact hs.symm
        rw [h1] at hkv
        obtain ⟨hfit, rfl⟩ := hkv
        refine ⟨?_, ?_⟩
        · have : bounds [.cmp .eq (.col 0 j) (.lit (intVal ty k))] = (some (intVal ty k), some (intVal ty k)) := by
            simp [bounds, ranges, constOf, eval, widen]
          rw [this]
          exact hix k hfit x hxr h2
        · rw [h1, h2] at hm
          simp [matchAll, hm, eqTri, Tri.of, ofTri, new, newTyped, val]

/-! ## Cases -/

/-- An index on column `c` of the rows. -/
def exJoinIndex (c : Nat) (rows : List (Nat × Row)) : JoinIndex Nat := ⟨1, fun b => (rows.filter fun x => match x.2[c]?, b.1, b.2 with
  | some v, some lo, some hi => !ltV v lo && !gtV v hi
  | _, _, _ => true).map (·.1)⟩

/-- A table with an index on column `c`. -/
def exJoinTable (c : Nat) (rows : List (Nat × Row)) : RightTable Nat := ⟨rows, fun r => (rows.find? (·.1 == r)).map (·.2), [exJoinIndex c rows]⟩

/-- Departments: number and budget. -/
def exJoinDept : List (Nat × Row) := [(10, [intVal 3 1, intVal 3 5]), (11, [new .null, intVal 3 6]), (12, [intVal 3 2, intVal 3 7]), (13, [intVal 3 1, intVal 3 8])]

def exJoinStaff : List Row := [[intVal 3 1], [new .null], [intVal 3 3], [intVal 3 2]]

def exJoinKey (row : Row) : Option Int := match row.head? with
  | some v => (match val v with | .integer k => some k | _ => none)
  | none => none

/-- `staff.0 = dept.0` -/
def exJoinEqual : Expr := .cmp .eq (.col 0 0) (.col 1 1)

/-- The hypotheses of `C144_equal_partial` hold of staff and departments, with NULL keys on both sides, two departments with the same key and a key without a department. -/
example : ∃ out, Yields (indexJoin .inner exJoinEqual [.col 0 0] [.col 0 0] source (exJoinTable 0 exJoinDept).step ((exJoinTable 0 exJoinDept).start .seq 1)) (.fetch exJoinStaff) out .done ∧
    out.Perm (pairs (sameKey exJoinKey exJoinKey) exJoinStaff (exJoinDept.map (·.2))) := by
  refine C144_equal_partial (n := 1) (ty := 3) (i := 0) (j := 0) (exJoinTable 0 exJoinDept) (ix := exJoinIndex 0 exJoinDept) nofun (source_yields _) rfl (by decide) ?_ ?_ ?_ ?_
  · intro r row
    show (exJoinDept.find? (·.1 == r)).map (·.2) = some row ↔ (r, row) ∈ exJoinDept
    simp only [exJoinDept, List.find?_cons, List.mem_cons, Prod.mk.injEq, List.not_mem_nil, or_false]
    by_cases h0 : r = 10
    · subst h0; simp [eq_comm]
    by_cases h1 : r = 11
    · subst h1; simp [eq_comm]
    by_cases h2 : r = 12
    · subst h2; simp [eq_comm]
    by_cases h3 : r = 13
    · subst h3; simp [eq_comm]
    have e0 : ((10 : Nat) == r) = false := by simpa using fun h => h0 h.symm
    have e1 : ((11 : Nat) == r) = false := by simpa using fun h => h1 h.symm
    have e2 : ((12 : Nat) == r) = false := by simpa using fun h => h2 h.symm
    have e3 : ((13 : Nat) == r) = false := by simpa using fun h => h3 h.symm
    simp [h0, h1, h2, h3, e0, e1, e2, e3]
  · intro a ha
    simp only [exJoinStaff, List.mem_cons, List.not_mem_nil, or_false] at ha
    rcases ha with rfl | rfl | rfl | rfl
    · exact ⟨rfl, _, rfl, by simp [Fits, lo, hi], rfl⟩
    · exact ⟨rfl, _, rfl, rfl⟩
    · exact ⟨rfl, _, rfl, by simp [Fits, lo, hi], rfl⟩
    · exact ⟨rfl, _, rfl, by simp [Fits, lo, hi], rfl⟩
  · intro x hx
    simp only [exJoinTable, exJoinDept, List.mem_cons, List.not_mem_nil, or_false] at hx
    rcases hx with rfl | rfl | rfl | rfl
    · exact ⟨_, rfl, by simp [Fits, lo, hi], rfl⟩
    · exact ⟨_, rfl, rfl⟩
    · exact ⟨_, rfl, by simp [Fits, lo, hi], rfl⟩
    · exact ⟨_, rfl, by simp [Fits, lo, hi], rfl⟩
  · intro k _ x hx hk
    simp only [exJoinTable, exJoinDept, List.mem_cons, List.not_mem_nil, or_false] at hx
    rcases hx with rfl | rfl | rfl | rfl <;> cases hk <;> decide

/-- The pairs are three, so the case is not empty. -/
example : (pairs (sameKey exJoinKey exJoinKey) exJoinStaff (exJoinDept.map (·.2))).length = 3 := by decide

/-! ## Where the join differs from a nested loop join -/

/-- The index is chosen by the number of its columns. An index on another column is used with the value of the join key, and the matching row is not found. -/
theorem C144_index_fails : ∃ (t : RightTable Nat) (ls : List Row), pairs (sameKey exJoinKey exJoinKey) ls (t.rows.map (·.2)) ≠ [] ∧
    Yields (indexJoin .inner exJoinEqual [.col 0 0] [.col 0 0] source t.step (t.start .seq 1)) (.fetch ls) [] .done :=
  ⟨exJoinTable 1 [(10, [intVal 3 1, intVal 3 5])], [[intVal 3 1]], by decide, .cont rfl (.cont rfl (.cont rfl (.stop rfl)))⟩

/-- The join type is not looked at: a LEFT join gives no row for a left row without a match. -/
theorem C144_left_fails : ∃ (t : RightTable Nat) (ls : List Row), leftJoin (sameKey exJoinKey exJoinKey) 2 ls (t.rows.map (·.2)) ≠ [] ∧
    Yields (indexJoin .left exJoinEqual [.col 0 0] [.col 0 0] source t.step (t.start .seq 1)) (.fetch ls) [] .done :=
  ⟨⟨[], fun _ => none, []⟩, [[intVal 3 1]], by decide, .cont rfl (.cont rfl (.cont rfl (.stop rfl)))⟩

/-- A right side that is not a scan of a table (a filter, say) joins as if it had no rows: with whatever table, left rows and condition, the join ends without a row. -/
theorem C144_child_fails {ρ : Type} [DecidableEq ρ] (t : RightTable ρ) (jt : JoinType) (p : Expr) (lk rk : List Expr) (ls : List Row) (h : ∀ a ∈ ls, keyPreds a lk rk ≠ none) :
    Yields (indexJoin jt p lk rk source t.step (t.start .other rk.length)) (.fetch ls) [] .done := by
  induction ls with
  | nil => exact .stop rfl
  | cons a as ih =>
    refine .cont (s' := .begin as a) rfl (.cont (s' := .fetch as) ?_ (ih (fun a h' => h a (by simp [h']))))
    cases hk : keyPreds a lk rk with
    | none => exact absurd hk (h a (by simp))
    | some ps => simp [indexJoin, hk, RightTable.start]

/-- The predicates of a right child that is an index scan are not used: a row on which they are FALSE is joined. -/
theorem C144_predicate_fails : ∃ (t : RightTable Nat) (q : Expr) (ls : List Row) (row : Row), (∀ x ∈ t.rows, matchAll x.2 [q] = some false) ∧
    Yields (indexJoin .inner exJoinEqual [.col 0 0] [.col 0 0] source t.step (t.start (.index [q]) 1)) (.fetch ls) [row] .done :=
  ⟨exJoinTable 0 [(10, [intVal 3 1, intVal 3 5])], .cmp .gt (.col 0 1) (.lit (intVal 3 100)), [[intVal 3 1]], [intVal 3 1, intVal 3 1, intVal 3 5],
    by intro x hx; cases List.mem_singleton.1 hx; decide, .cont rfl (.cont rfl (.emit rfl (.cont rfl (.stop rfl))))⟩

/-- A right side that fails counts as exhausted: the join ends normally with what it had, where the nested loop join of the same two sides fails. -/
theorem C144_error_fails : ∃ (ls : List Row) (rs : List (Nat × Row)),
    Yields (indexJoin .inner exJoinEqual [] [] source broken (fun _ => some rs)) (.fetch ls) [] .done ∧
    Yields (nestedLoop .inner exJoinEqual 1 1 source broken (rs.map (·.2))) (.fetch ls ⟨[], [], []⟩) [] .err :=
  ⟨[[intVal 3 1]], [(0, [intVal 3 2])], .cont rfl (.cont rfl (.cont rfl (.cont rfl (.stop rfl)))), .cont rfl (.cont rfl (.stop rfl))⟩

/-- A condition that fails on a pair counts as FALSE, where the nested loop join fails. -/
theorem C144_condition_fails : ∃ (p : Expr) (ls : List Row) (rs : List (Nat × Row)),
    Yields (indexJoin .inner p [] [] source source (fun _ => some rs)) (.fetch ls) [] .done ∧
    Yields (nestedLoop .inner p 1 1 source source (rs.map (·.2))) (.fetch ls ⟨[], [], []⟩) [] .err :=
  ⟨.cmp .eq (.col 0 9) (.lit (intVal 3 1)), [[intVal 3 1]], [(0, [intVal 3 2])], .cont rfl (.cont rfl (.cont rfl (.cont rfl (.stop rfl)))), .cont rfl (.stop rfl)⟩

end Verif.Exec

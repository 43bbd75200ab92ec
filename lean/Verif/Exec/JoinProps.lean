import Verif.Exec.Join
import Verif.Exec.DistinctProps

/-!
# Nested loop joins (C43)

Specification vocabulary: `on l r` says that the join condition is TRUE of the two rows. `pairs on ls rs` are the joined rows of all pairs that match, one
for each pair. `unmatched on ls rs` are the rows of `rs` that match no row of `ls`.
-/

namespace Verif.Exec

open Verif.Wire Verif.Bytes Verif.Sql

/-- The joined rows of all matching pairs. -/
def pairs (on : Row → Row → Bool) (ls rs : List Row) : List Row := ls.flatMap fun l => (rs.filter (on l)).map (l ++ ·)

/-- The right rows that match no left row. -/
def unmatchedR (on : Row → Row → Bool) (ls rs : List Row) : List Row := rs.filter fun r => ls.all fun l => !on l r

/-- The left rows that match no right row. -/
def unmatchedL (on : Row → Row → Bool) (ls rs : List Row) : List Row := ls.filter fun l => rs.all fun r => !on l r

/-- For each left row its matches, or the row padded with NULLs when there is none. -/
def leftJoin (on : Row → Row → Bool) (nr : Nat) (ls rs : List Row) : List Row :=
  ls.flatMap fun l => if (rs.filter (on l)).isEmpty then [l ++ List.replicate nr (new .null)] else (rs.filter (on l)).map (l ++ ·)

/-- The join condition has a truth value on every pair, and `on` says whether it is TRUE; a CROSS join has no condition. -/
def Decides (jt : JoinType) (p : Expr) (on : Row → Row → Bool) (ls rs : List Row) : Prop :=
  ∀ l ∈ ls, ∀ r ∈ rs, if jt = .cross then on l r = true
    else (∃ t, EvalsTo true (joinEnv l r) p t) ∧ (on l r = true ↔ EvalsTo true (joinEnv l r) p .t)

theorem decided_pair {jt : JoinType} {p : Expr} {on : Row → Row → Bool} {ls rs : List Row} (h : Decides jt p on ls rs) {l r : Row} (hl : l ∈ ls) (hr : r ∈ rs) :
    (if jt = .cross then .ok true else pairHolds p l r) = (.ok (on l r) : Except End Bool) := by
  have h := h l hl r hr
  split
  · rename_i hc
    rw [if_pos hc] at h
    rw [h]
  · rename_i hc
    rw [if_neg hc] at h
    obtain ⟨⟨t, v, hv, ht⟩, h2⟩ := h
    have key : on l r = decide (t = .t) := by
      rw [Bool.eq_iff_iff, h2, decide_eq_true_iff]
      constructor
      · rintro ⟨w, hw, tw⟩
        rw [hv] at hw
        cases hw
        rw [ht] at tw
        cases tw
        rfl
      · rintro rfl
        exact ⟨v, hv, ht⟩
    simp only [pairHolds, hv, key]
    unfold truth at ht
    split at ht
    · rename_i h; rw [h]; cases ht; rfl
    · rename_i h; rw [h]; cases ht; rfl
    · rename_i h; rw [h]; cases ht; rfl
    · cases ht

/-- Reading the right side for one left row: the rows given out, whether there was a match, and what is recorded. -/
def scanned (on : Row → Row → Bool) (jt : JoinType) (a : Row) : List Row → Bool → Saved → List Row × Bool × Saved
  | [], found, S => ([], found, S)
  | b :: bs, found, S =>
    if on a b then
      let t := scanned on jt a bs true ((S.add jt b).mark jt b)
      ((a ++ b) :: t.1, t.2)
    else scanned on jt a bs found (S.add jt b)

section
variable {σ τ : Type} {jt : JoinType} {p : Expr} {nl nr : Nat} {left : Machine σ Row} {right : Machine τ Row} {r0 : τ} {on : Row → Row → Bool}

theorem scan_yields {r : τ} {rs : List Row} {e' : End} (hr : Yields right r rs e') (he' : e' = .done) {a : Row}
    (hd : ∀ b ∈ rs, (if jt = .cross then .ok true else pairHolds p a b) = (.ok (on a b) : Except End Bool)) {l : σ} {found : Bool} {S : Saved} {ys : List Row} {e : End}
    (h : Yields (nestedLoop jt p nl nr left right r0) (.after l a (scanned on jt a rs found S).2.1 (scanned on jt a rs found S).2.2) ys e) :
    Yields (nestedLoop jt p nl nr left right r0) (.scan l a found r S) ((scanned on jt a rs found S).1 ++ ys) e := by
  induction hr generalizing found S with
  | @emit s b s' xs e'' h1 h2 ih =>
    have hb := hd b List.mem_cons_self
    have hd := fun b hb => hd b (List.mem_cons_of_mem _ hb)
    cases ho : on a b with
    | true =>
      simp only [scanned, ho, if_true] at h ⊢
      rw [ho] at hb
      exact .emit (by simp only [nestedLoop, h1]; rw [hb]) (ih he' hd h)
    | false =>
      simp only [scanned, ho, Bool.false_eq_true, if_false] at h ⊢
      rw [ho] at hb
      exact .cont (by simp only [nestedLoop, h1]; rw [hb]) (ih he' hd h)
  | @cont s s' xs e'' h1 h2 ih => exact .cont (by simp only [nestedLoop, h1]) (ih he' hd h)
  | @stop s e'' h1 =>
    subst he'
    exact .cont (by simp only [nestedLoop, h1]; rfl) h

theorem scanned_out {a : Row} (bs : List Row) (found : Bool) (S : Saved) : (scanned on jt a bs found S).1 = (bs.filter (on a)).map (a ++ ·) ∧
    (scanned on jt a bs found S).2.1 = (found || bs.any (on a)) := by
  induction bs generalizing found S with
  | nil => simp [scanned]
  | cons b bs ih =>
    simp only [scanned]
    split
    · rename_i h
      simp [h, ih]
    · rename_i h
      simp [h, ih]

theorem scanned_saved (hj : jt.keepsRight = false) {a : Row} (bs : List Row) (found : Bool) (S : Saved) : (scanned on jt a bs found S).2.2 = S := by
  induction bs generalizing found S with
  | nil => simp [scanned]
  | cons b bs ih =>
    simp only [scanned]
    split <;> simp [ih, Saved.add, Saved.mark, hj]

/-- What is given out and recorded for one left row. -/
def afterLeft (jt : JoinType) (nr : Nat) (a : Row) (found : Bool) (S : Saved) : List Row × Saved :=
  if found then ([], S) else match jt with
    | .left => ([a ++ nulls nr], S)
    | .full => ([], { S with unmatchedLeft := S.unmatchedLeft ++ [a] })
    | _ => ([], S)

theorem after_yields {l : σ} {a : Row} {found : Bool} {S : Saved} {ys : List Row} {e : End}
    (h : Yields (nestedLoop jt p nl nr left right r0) (.fetch l (afterLeft jt nr a found S).2) ys e) :
    Yields (nestedLoop jt p nl nr left right r0) (.after l a found S) ((afterLeft jt nr a found S).1 ++ ys) e := by
  unfold afterLeft at *
  cases found with
  | true => exact .cont rfl h
  | false =>
    cases jt with
    | left => exact .emit rfl h
    | _ => exact .cont rfl h

/-- All left rows: the rows given out and what is recorded. -/
def joined (on : Row → Row → Bool) (jt : JoinType) (nr : Nat) (rs : List Row) : List Row → Saved → List Row × Saved
  | [], S => ([], S)
  | a :: as, S =>
    let t := scanned on jt a rs false S
    let u := afterLeft jt nr a t.2.1 t.2.2
    let v := joined on jt nr rs as u.2
    (t.1 ++ (u.1 ++ v.1), v.2)

/-- Where the join goes when the left side has ended with `e`. -/
theorem fetch_yields {l : σ} {ls rs : List Row} {e : End} (hl : Yields left l ls e) (hr : Yields right r0 rs .done) (hd : Decides jt p on ls rs) {S : Saved}
    {ys : List Row} {e' : End}
    (h : ∀ l', left l' = .stop e → Yields (nestedLoop jt p nl nr left right r0) (.fetch l' (joined on jt nr rs ls S).2) ys e') :
    Yields (nestedLoop jt p nl nr left right r0) (.fetch l S) ((joined on jt nr rs ls S).1 ++ ys) e' := by
  induction hl generalizing S with
  | @emit s a s' xs e h1 h2 ih =>
    have hd' : Decides jt p on xs rs := fun l hl => hd l (List.mem_cons_of_mem _ hl)
    have h3 := ih hd' (S := (afterLeft jt nr a (scanned on jt a rs false S).2.1 (scanned on jt a rs false S).2.2).2) (fun l' hl' => h l' hl')
    have h4 := after_yields h3
    have h5 := scan_yields hr rfl (fun b hb => decided_pair hd List.mem_cons_self hb) h4
    simp only [joined, List.append_assoc]
    exact .cont (by simp only [nestedLoop, h1]) h5
  | @cont s s' xs e h1 h2 ih => exact .cont (by simp only [nestedLoop, h1]) (ih hd h)
  | @stop s e h1 => exact h s h1

theorem joined_simple (hj : jt = .inner ∨ jt = .cross) (rs ls : List Row) (S : Saved) : (joined on jt nr rs ls S).1 = pairs on ls rs := by
  induction ls generalizing S with
  | nil => rfl
  | cons a ls ih =>
    have hu : ∀ found S, (afterLeft jt nr a found S).1 = [] := by
      rcases hj with rfl | rfl <;> · intro found S; unfold afterLeft; split <;> rfl
    simp only [joined, hu, ih, (scanned_out rs false S).1, pairs, List.flatMap_cons, List.nil_append]

theorem joined_left (rs ls : List Row) (S : Saved) : (joined on .left nr rs ls S).1 = leftJoin on nr ls rs := by
  induction ls generalizing S with
  | nil => rfl
  | cons a ls ih =>
    simp only [joined, ih, leftJoin, List.flatMap_cons, (scanned_out rs false S).1, (scanned_out rs false S).2, ← List.append_assoc]
    congr 1
    unfold afterLeft
    cases h : rs.any (on a) with
    | true =>
      have : (rs.filter (on a)).isEmpty = false := by
        obtain ⟨b, hb, ho⟩ := List.any_eq_true.1 h
        rw [List.isEmpty_eq_false_iff_exists_mem]
        exact ⟨b, List.mem_filter.2 ⟨hb, ho⟩⟩
      simp [this]
    | false =>
      have : rs.filter (on a) = [] := by
        rw [List.filter_eq_nil_iff]
        intro b hb ho
        have := List.any_eq_true.2 ⟨b, hb, ho⟩
        rw [h] at this
        cases this
      simp [this, nulls]

/-- INNER and CROSS joins, over any two inputs: exactly the joined rows of all matching pairs, one for each pair (duplicates included), in the order of the left
rows and for each of them in that of the right rows. -/
theorem C43_inner_cross {l : σ} {ls rs : List Row} {e : End} (hj : jt = .inner ∨ jt = .cross) (hl : Yields left l ls e) (hr : Yields right r0 rs .done)
    (hd : Decides jt p on ls rs) : Yields (nestedLoop jt p nl nr left right r0) (.fetch l ⟨[], [], []⟩) (pairs on ls rs) e := by
  have hk : jt.keepsRight = false := by rcases hj with rfl | rfl <;> rfl
  have := fetch_yields (nl := nl) (nr := nr) hl hr hd (S := ⟨[], [], []⟩) (ys := []) (e' := e) (fun l' h => .stop (by
    simp only [nestedLoop, h, hk]
    cases e <;> rfl))
  rwa [List.append_nil, joined_simple hj] at this

/-- LEFT joins: the matches of each left row, or the row padded with NULLs. -/
theorem C43_left {l : σ} {ls rs : List Row} {e : End} (hl : Yields left l ls e) (hr : Yields right r0 rs .done) (hd : Decides .left p on ls rs) :
    Yields (nestedLoop .left p nl nr left right r0) (.fetch l ⟨[], [], []⟩) (leftJoin on nr ls rs) e := by
  have := fetch_yields (nl := nl) (nr := nr) hl hr hd (S := ⟨[], [], []⟩) (ys := []) (e' := e) (fun l' h => .stop (by
    simp only [nestedLoop, h]
    cases e <;> rfl))
  rwa [List.append_nil, joined_left] at this

/-- As multisets, the LEFT join is the INNER join and the unmatched left rows. -/
theorem C43_left_perm (ls rs : List Row) : (leftJoin on nr ls rs).Perm (pairs on ls rs ++ (unmatchedL on ls rs).map (· ++ List.replicate nr (new .null))) := by
  induction ls with
  | nil => exact List.Perm.refl _
  | cons a ls ih =>
    simp only [leftJoin, pairs, unmatchedL, List.flatMap_cons, List.filter_cons]
    simp only [leftJoin, pairs, unmatchedL] at ih
    cases h : rs.all fun r => !on a r with
    | true =>
      have : rs.filter (on a) = [] := by
        rw [List.filter_eq_nil_iff]
        intro b hb ho
        have := List.all_eq_true.1 h b hb
        rw [ho] at this
        cases this
      simp only [this, List.isEmpty_nil, if_true, List.map_nil, List.nil_append, List.map_cons, List.singleton_append]
      exact (List.Perm.cons _ ih).trans List.perm_middle.symm
    | false =>
      have : (rs.filter (on a)).isEmpty = false := by
        rw [List.isEmpty_eq_false_iff_exists_mem]
        rw [List.all_eq_false] at h
        obtain ⟨b, hb, ho⟩ := h
        exact ⟨b, List.mem_filter.2 ⟨hb, by simpa using ho⟩⟩
      simp only [this, Bool.false_eq_true, if_false, List.append_assoc]
      exact ih.append_left _

/-! ## RIGHT and FULL -/

theorem findIdx_mid {α : Type} {q : α → Bool} {pre rest : List α} {b : α} (h : ∀ x ∈ pre, q x = false) (hb : q b = true) :
    (pre ++ b :: rest).findIdx? q = some pre.length := by
  induction pre with
  | nil => simp [List.findIdx?_cons, hb]
  | cons a pre ih =>
    have := h a List.mem_cons_self
    simp [List.findIdx?_cons, this, ih fun x hx => h x (List.mem_cons_of_mem _ hx)]

theorem valuesEq_refl' (r : Row) : valuesEq r r = true := (valuesEq_iff r r).2 rfl

theorem scanned_right (hk : jt.keepsRight = true) {a : Row} (bs : List Row) (pre : List Row) (found : Bool) (S : Saved)
    (hd : (pre ++ bs).Pairwise fun x y => valuesEq x y = false) (hS : S.all = pre ∨ S.all = pre ++ bs) :
    (scanned on jt a bs found S).2.2.all = pre ++ bs ∧ (scanned on jt a bs found S).2.2.unmatchedLeft = S.unmatchedLeft ∧
    ∀ i, i ∈ (scanned on jt a bs found S).2.2.matched ↔ i ∈ S.matched ∨ ∃ k b, bs[k]? = some b ∧ i = pre.length + k ∧ on a b = true := by
  induction bs generalizing pre found S with
  | nil =>
    simp only [List.append_nil, or_self] at hS
    simp [scanned, hS]
  | cons b bs ih =>
    have hne : ∀ x ∈ pre, valuesEq x b = false := fun x hx => (List.pairwise_append.1 hd).2.2 x hx b List.mem_cons_self
    have hd' : ((pre ++ [b]) ++ bs).Pairwise fun x y => valuesEq x y = false := by simpa using hd
    -- after recording `b`
    have hadd : (S.add jt b).matched = S.matched ∧ (S.add jt b).unmatchedLeft = S.unmatchedLeft ∧
        ((S.add jt b).all = pre ++ [b] ∨ (S.add jt b).all = (pre ++ [b]) ++ bs) := by
      rcases hS with hS | hS
      · have hany : S.all.any (valuesEq · b) = false := by
          rw [hS, List.any_eq_false]
          intro x hx
          rw [hne x hx]
          simp
        have : S.add jt b = { S with all := S.all ++ [b] } := by unfold Saved.add; rw [if_pos ⟨hk, hany⟩]
        rw [this]
        exact ⟨rfl, rfl, .inl (by rw [hS])⟩
      · have hany : S.all.any (valuesEq · b) = true := by
          rw [hS, List.any_eq_true]
          exact ⟨b, by simp, valuesEq_refl' b⟩
        have : S.add jt b = S := by unfold Saved.add; rw [if_neg (by rw [hany]; simp)]
        rw [this]
        exact ⟨rfl, rfl, .inr (by rw [hS]; simp)⟩
    obtain ⟨m1, m2, m3⟩ := hadd
    have hidx : (S.add jt b).all.findIdx? (valuesEq · b) = some pre.length := by
      rcases m3 with m3 | m3
      · rw [m3]
        exact findIdx_mid hne (valuesEq_refl' b)
      · rw [m3, List.append_assoc]
        exact findIdx_mid hne (valuesEq_refl' b)
    have shift : ∀ i, (∃ k c, (b :: bs)[k]? = some c ∧ i = pre.length + k ∧ on a c = true) ↔
        (i = pre.length ∧ on a b = true) ∨ ∃ k c, bs[k]? = some c ∧ i = (pre ++ [b]).length + k ∧ on a c = true := by
      intro i
      constructor
      · rintro ⟨k, c, h1, h2, h3⟩
        cases k with
        | zero => simp at h1; subst h1; exact .inl ⟨by omega, h3⟩
        | succ k => exact .inr ⟨k, c, by simpa using h1, by simp; omega, h3⟩
      · rintro (⟨h1, h2⟩ | ⟨k, c, h1, h2, h3⟩)
        · exact ⟨0, b, rfl, by omega, h2⟩
        · exact ⟨k + 1, c, by simpa using h1, by simp at h2; omega, h3⟩
    cases ho : on a b with
    | true =>
      simp only [scanned, ho, if_true]
      have hmark : ((S.add jt b).mark jt b) = { S.add jt b with matched := pre.length :: (S.add jt b).matched } := by
        simp only [Saved.mark, hk, if_true, hidx]
      obtain ⟨g1, g2, g3⟩ := ih (pre ++ [b]) true ((S.add jt b).mark jt b) hd' (by rw [hmark]; exact m3)
      refine ⟨by simpa using g1, by rw [g2, hmark]; exact m2, fun i => ?_⟩
      rw [g3, shift, hmark]
      simp only [List.mem_cons, m1, ho, and_true]
      constructor
      · rintro ((h | h) | h)
        · exact .inr (.inl h)
        · exact .inl h
        · exact .inr (.inr h)
      · rintro (h | h | h)
        · exact .inl (.inr h)
        · exact .inl (.inl h)
        · exact .inr h
    | false =>
      simp only [scanned, ho, Bool.false_eq_true, if_false]
      obtain ⟨g1, g2, g3⟩ := ih (pre ++ [b]) found (S.add jt b) hd' m3
      refine ⟨by simpa using g1, by rw [g2]; exact m2, fun i => ?_⟩
      rw [g3, shift, m1]
      simp [ho]

theorem joined_outer (hj : jt = .right ∨ jt = .full) (rs ls : List Row) (S : Saved) (hd : rs.Pairwise fun x y => valuesEq x y = false)
    (hS : (S.all = [] ∧ ls ≠ []) ∨ S.all = rs) :
    (joined on jt nr rs ls S).1 = pairs on ls rs ∧ (joined on jt nr rs ls S).2.all = rs ∧
    (joined on jt nr rs ls S).2.unmatchedLeft = S.unmatchedLeft ++ (if jt = .full then unmatchedL on ls rs else []) ∧
    ∀ i, i ∈ (joined on jt nr rs ls S).2.matched ↔ i ∈ S.matched ∨ ∃ a ∈ ls, ∃ b, rs[i]? = some b ∧ on a b = true := by
  have hk : jt.keepsRight = true := by rcases hj with rfl | rfl <;> rfl
  induction ls generalizing S with
  | nil =>
    rcases hS with ⟨-, h⟩ | h
    · exact absurd rfl h
    · simp [joined, pairs, unmatchedL, h]
  | cons a ls ih =>
    obtain ⟨h1, h2, h3⟩ := scanned_right (on := on) (a := a) hk rs [] false S (by simpa using hd) (by
      rcases hS with ⟨h, -⟩ | h
      · exact .inl h
      · exact .inr (by simpa using h))
    simp only [List.nil_append, List.length_nil, Nat.zero_add] at h1 h3
    have hu : ∀ found T, (afterLeft jt nr a found T).1 = [] ∧ (afterLeft jt nr a found T).2.all = T.all ∧ (afterLeft jt nr a found T).2.matched = T.matched ∧
        (afterLeft jt nr a found T).2.unmatchedLeft = T.unmatchedLeft ++ (if jt = .full ∧ found = false then [a] else []) := by
      intro found T
      unfold afterLeft
      rcases hj with rfl | rfl <;> cases found <;> simp
    simp only [joined]
    obtain ⟨u1, u2, u3, u4⟩ := hu (scanned on jt a rs false S).2.1 (scanned on jt a rs false S).2.2
    obtain ⟨g1, g2, g3, g4⟩ := ih (afterLeft jt nr a (scanned on jt a rs false S).2.1 (scanned on jt a rs false S).2.2).2 (.inr (by rw [u2, h1]))
    refine ⟨?_, g2, ?_, fun i => ?_⟩
    · rw [g1, u1, (scanned_out rs false S).1]
      simp [pairs]
    · rw [g3, u4, h2, (scanned_out rs false S).2]
      simp only [unmatchedL, List.filter_cons, Bool.false_or, List.append_assoc]
      congr 1
      have hall : (rs.all fun r => !on a r) = !rs.any (on a) := by rw [List.not_any_eq_all_not]
      rcases hj with rfl | rfl
      · simp
      · rw [hall]
        cases rs.any (on a) <;> simp
    · rw [g4, u3, h3]
      simp only [List.mem_cons]
      constructor
      · rintro ((h | ⟨k, b, hb, rfl, ho⟩) | ⟨x, hx, h⟩)
        · exact .inl h
        · exact .inr ⟨a, .inl rfl, b, hb, ho⟩
        · exact .inr ⟨x, .inr hx, h⟩
      · rintro (h | ⟨x, rfl | hx, b, hb, ho⟩)
        · exact .inl (.inl h)
        · exact .inl (.inr ⟨i, b, hb, rfl, ho⟩)
        · exact .inr ⟨x, hx, b, hb, ho⟩

theorem unmatchedRight_eq {T : Saved} {rs ls : List Row} (h : T.all = rs) (hm : ∀ i, i ∈ T.matched ↔ ∃ a ∈ ls, ∃ b, rs[i]? = some b ∧ on a b = true) :
    T.unmatchedRight = unmatchedR on ls rs := by
  unfold Saved.unmatchedRight unmatchedR
  rw [h]
  have : rs.zipIdx.filter (fun x => !T.matched.contains x.2) = rs.zipIdx.filter ((fun r => ls.all fun l => !on l r) ∘ Prod.fst) := by
    apply List.filter_congr
    rintro ⟨r, i⟩ hx
    have hi : rs[i]? = some r := List.mem_zipIdx_iff_getElem?.1 hx
    simp only [Function.comp_apply]
    rw [Bool.eq_iff_iff, Bool.not_eq_true', List.all_eq_true]
    rw [← Bool.not_eq_true, List.contains_iff_mem, hm]
    constructor
    · intro h l hl
      cases ho : on l r with
      | false => rfl
      | true => exact absurd ⟨l, hl, r, hi, ho⟩ h
    · rintro h ⟨a, ha, b, hb, ho⟩
      rw [hi] at hb
      cases hb
      have := h a ha
      rw [ho] at this
      cases this
  rw [this, ← List.filter_map, List.zipIdx_map_fst]

theorem unL_yields (rows : List Row) :
    Yields (nestedLoop jt p nl nr left right r0) (.unmatchedLeft rows) (rows.map (· ++ nulls nr)) .done := by
  induction rows with
  | nil => exact .stop rfl
  | cons a rows ih => exact .emit rfl ih

theorem unR_yields (rows : List Row) (S : Saved) : Yields (nestedLoop jt p nl nr left right r0) (.unmatchedRight rows S)
    (rows.map (nulls nl ++ ·) ++ if jt = .full then S.unmatchedLeft.map (· ++ nulls nr) else []) .done := by
  induction rows with
  | nil =>
    by_cases h : jt = .full
    · rw [if_pos h]
      exact .cont (by simp only [nestedLoop, h, if_true]) (unL_yields _)
    · rw [if_neg h]
      exact .stop (by simp only [nestedLoop, h, if_false])
  | cons a rows ih => exact .emit rfl ih

/-- RIGHT and FULL joins when there is a left row and no two right rows are equal: the matching pairs, then the unmatched right rows padded with NULLs, then for
FULL the unmatched left rows padded with NULLs. -/
theorem C43_outer_partial {l : σ} {ls rs : List Row} (hj : jt = .right ∨ jt = .full) (hl : Yields left l ls .done) (hr : Yields right r0 rs .done)
    (hd : Decides jt p on ls rs) (hne : ls ≠ []) (hdis : rs.Pairwise fun x y => valuesEq x y = false) :
    Yields (nestedLoop jt p nl nr left right r0) (.fetch l ⟨[], [], []⟩) (pairs on ls rs ++
      ((unmatchedR on ls rs).map (List.replicate nl (new .null) ++ ·) ++
        if jt = .full then (unmatchedL on ls rs).map (· ++ List.replicate nr (new .null)) else [])) .done := by
  have hk : jt.keepsRight = true := by rcases hj with rfl | rfl <;> rfl
  obtain ⟨g1, g2, g3, g4⟩ := joined_outer (on := on) (nr := nr) hj rs ls ⟨[], [], []⟩ hdis (.inl ⟨rfl, hne⟩)
  have hu := unmatchedRight_eq (on := on) (ls := ls) g2 (fun i => by rw [g4]; simp)
  have := fetch_yields (nl := nl) (nr := nr) hl hr hd (S := ⟨[], [], []⟩)
    (ys := (unmatchedR on ls rs).map (nulls nl ++ ·) ++ if jt = .full then (unmatchedL on ls rs).map (· ++ nulls nr) else []) (e' := .done) (fun l' h => by
      refine .cont (s' := .unmatchedRight (joined on jt nr rs ls ⟨[], [], []⟩).2.unmatchedRight (joined on jt nr rs ls ⟨[], [], []⟩).2)
        (by simp only [nestedLoop, h, hk, if_true]) ?_
      have := unR_yields (jt := jt) (p := p) (nl := nl) (nr := nr) (left := left) (right := right) (r0 := r0)
        (joined on jt nr rs ls ⟨[], [], []⟩).2.unmatchedRight (joined on jt nr rs ls ⟨[], [], []⟩).2
      rw [hu, g3] at this
      rw [hu]
      rcases hj with rfl | rfl <;> simpa using this)
  rw [g1] at this
  exact this

end

/-! ## Witnesses -/

/-- The condition `left.0 = right.0`. -/
def exOn : Expr := .cmp .eq (.col 0 0) (.col 1 1)

/-- The condition is NULL for the second left row, TRUE for the first left and right rows, FALSE otherwise. -/
def exL : List Row := [[intVal 3 1], [newTyped .null 3]]
def exR : List Row := [[intVal 3 1], [intVal 3 2]]
def exOnB (l r : Row) : Bool := valuesEq l r

theorem ex_decides (jt : JoinType) (h : jt ≠ .cross) : Decides jt exOn exOnB exL exR := by
  intro l hl r hr
  rw [if_neg h]
  simp only [exL, exR, List.mem_cons, List.not_mem_nil, or_false] at hl hr
  have mk : ∀ (l r : Row) (t : Tri) (v : Value), eval true (joinEnv l r) exOn = .ok v → truth v = some t → exOnB l r = decide (t = .t) →
      (∃ t, EvalsTo true (joinEnv l r) exOn t) ∧ (exOnB l r = true ↔ EvalsTo true (joinEnv l r) exOn .t) := by
    intro l r t v h1 h2 h3
    refine ⟨⟨t, v, h1, h2⟩, ?_⟩
    rw [h3, decide_eq_true_iff]
    constructor
    · rintro rfl
      exact ⟨v, h1, h2⟩
    · rintro ⟨w, hw, tw⟩
      rw [h1] at hw
      cases hw
      rw [h2] at tw
      cases tw
      rfl
  rcases hl with rfl | rfl <;> rcases hr with rfl | rfl
  · exact mk _ _ .t _ rfl (by decide) (by decide)
  · exact mk _ _ .f _ rfl (by decide) (by decide)
  · exact mk _ _ .n _ rfl (by decide) (by decide)
  · exact mk _ _ .n _ rfl (by decide) (by decide)

example : Yields (nestedLoop .left exOn 1 1 source source exR) (.fetch exL ⟨[], [], []⟩)
    [[intVal 3 1, intVal 3 1], [newTyped .null 3, new .null]] .done :=
  C43_left (on := exOnB) (source_yields exL) (source_yields exR) (ex_decides .left (by decide))

example : Yields (nestedLoop .full exOn 1 1 source source exR) (.fetch exL ⟨[], [], []⟩)
    [[intVal 3 1, intVal 3 1], [new .null, intVal 3 2], [newTyped .null 3, new .null]] .done :=
  C43_outer_partial (on := exOnB) (.inr rfl) (source_yields exL) (source_yields exR) (ex_decides .full (by decide)) (by decide)
    (by simp [exR, List.pairwise_cons]; decide)

/-- A RIGHT join with no left row gives nothing, although every right row is unmatched. -/
theorem C43_right_empty_fails : ∃ rs : List Row, unmatchedR exOnB [] rs ≠ [] ∧
    Yields (nestedLoop .right exOn 1 1 source source rs) (.fetch [] ⟨[], [], []⟩) [] .done :=
  ⟨exR, by simp [unmatchedR, exR], .cont rfl (.stop rfl)⟩

/-- A RIGHT join gives two equal unmatched right rows only once. -/
theorem C43_right_duplicate_fails : ∃ ls rs : List Row, ∃ row : Row, unmatchedR exOnB ls rs = [row, row] ∧
    Yields (nestedLoop .right exOn 1 1 source source rs) (.fetch ls ⟨[], [], []⟩) [nulls 1 ++ row] .done :=
  ⟨[[intVal 3 1]], [[intVal 3 2], [intVal 3 2]], [intVal 3 2], rfl,
    .cont rfl (.cont rfl (.cont rfl (.cont rfl (.cont rfl (.cont rfl (.emit rfl (.stop rfl)))))))⟩

end Verif.Exec

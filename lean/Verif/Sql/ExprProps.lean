import Verif.Sql.Expr
import Verif.Sql.ArithProps

/-!
# C33: three-valued logic; C34: IN, ANY, ALL; C37: COALESCE, CASE, IS DISTINCT, BETWEEN

Specification vocabulary: truth values are ordered FALSE < NULL < TRUE (`Tri.rank`). AND is the minimum, OR the maximum, NOT reverses the
order. `orAll` and `andAll` are OR and AND of a list. `truth v` is the truth value a SQL value is, if it is one. A `Form` is a formula over
numbered leaves.
-/

namespace Verif.Sql

open Verif.Wire Verif.Bytes

/-! ## Specification -/

/-- FALSE < NULL < TRUE. -/
def Tri.rank : Tri → Nat | .f => 0 | .n => 1 | .t => 2
def Tri.min (a b : Tri) : Tri := if a.rank ≤ b.rank then a else b
def Tri.max (a b : Tri) : Tri := if a.rank ≤ b.rank then b else a
def Tri.opp : Tri → Tri | .f => .t | .n => .n | .t => .f

/-- OR and AND of a list. -/
def orAll (ts : List Tri) : Tri := ts.foldr Tri.max .f
def andAll (ts : List Tri) : Tri := ts.foldr Tri.min .t

/-- The truth value a value is. -/
def truth (v : Value) : Option Tri := match val v with
  | .boolean true => some .t
  | .boolean false => some .f
  | .null => some .n
  | _ => none

/-- The expression evaluates to the truth value `x`. -/
def EvalsTo (j : Bool) (ρ : Env) (e : Expr) (x : Tri) : Prop := ∃ v, eval j ρ e = .ok v ∧ truth v = some x

/-- A formula over numbered leaves. -/
inductive Form where
  | leaf (n : Nat)
  | and (a b : Form)
  | or (a b : Form)
  | not (a : Form)

/-- Its truth value, from those of the leaves. -/
def Form.value (σ : Nat → Tri) : Form → Tri
  | .leaf n => σ n
  | .and a b => (a.value σ).min (b.value σ)
  | .or a b => (a.value σ).max (b.value σ)
  | .not a => (a.value σ).opp

/-- The SQL expression that writes it, given those for the leaves. -/
def Form.expr (ℓ : Nat → Expr) : Form → Expr
  | .leaf n => ℓ n
  | .and a b => .and (a.expr ℓ) (b.expr ℓ)
  | .or a b => .or (a.expr ℓ) (b.expr ℓ)
  | .not a => .not (a.expr ℓ)

/-! ## C33 -/

theorem truth_ofTri (x : Tri) : truth (ofTri x) = some x := by cases x <;> rfl
theorem bool_truth {v : Value} {x : Tri} (h : truth v = some x) : boolAsTri v = x := by
  unfold truth at h
  unfold boolAsTri
  split at h <;> simp_all
theorem and_min (x y : Tri) : performAnd x y = x.min y := by cases x <;> cases y <;> rfl
theorem or_max (x y : Tri) : performOr x y = x.max y := by cases x <;> cases y <;> rfl
theorem not_opp {v : Value} {x : Tri} (h : truth v = some x) : ∃ w, notValue v = .ok w ∧ truth w = some x.opp := by
  unfold truth at h
  unfold notValue isNull
  split at h <;> simp_all <;> subst h <;> exact rfl

/-- A formula of any shape and size evaluates to its truth value, whatever its leaves evaluate to. -/
theorem C33_formula (j : Bool) (ρ : Env) (ℓ : Nat → Expr) (σ : Nat → Tri) (h : ∀ n, EvalsTo j ρ (ℓ n) (σ n)) (F : Form) :
    EvalsTo j ρ (F.expr ℓ) (F.value σ) := by
  induction F with
  | leaf n => exact h n
  | and a b iha ihb =>
    obtain ⟨v, hv, tv⟩ := iha
    obtain ⟨w, hw, tw⟩ := ihb
    exact ⟨ofTri (performAnd (boolAsTri v) (boolAsTri w)), by simp only [Form.expr, eval, hv, hw, Res.bind],
      by rw [truth_ofTri, bool_truth tv, bool_truth tw, and_min]; rfl⟩
  | or a b iha ihb =>
    obtain ⟨v, hv, tv⟩ := iha
    obtain ⟨w, hw, tw⟩ := ihb
    exact ⟨ofTri (performOr (boolAsTri v) (boolAsTri w)), by simp only [Form.expr, eval, hv, hw, Res.bind],
      by rw [truth_ofTri, bool_truth tv, bool_truth tw, or_max]; rfl⟩
  | not a iha =>
    obtain ⟨v, hv, tv⟩ := iha
    obtain ⟨w, hw, tw⟩ := not_opp tv
    exact ⟨w, by simp only [Form.expr, eval, hv, Res.bind, hw], tw⟩

/-- The truth tables, and the laws of logic that follow from them: two formulas with the same truth value under every assignment
evaluate alike. -/
theorem C33_tables : (∀ x, Tri.min .f x = .f ∧ Tri.min .t x = x ∧ Tri.max .t x = .t ∧ Tri.max .f x = x) ∧ Tri.min .n .n = .n ∧ Tri.max .n .n = .n ∧
    Tri.opp .t = .f ∧ Tri.opp .f = .t ∧ Tri.opp .n = .n := by
  refine ⟨fun x => ?_, rfl, rfl, rfl, rfl, rfl⟩
  cases x <;> exact ⟨rfl, rfl, rfl, rfl⟩

theorem C33_laws (j : Bool) (ρ : Env) {a b c : Expr} {x y z : Tri} (ha : EvalsTo j ρ a x) (hb : EvalsTo j ρ b y) (hc : EvalsTo j ρ c z) :
    (∃ u, EvalsTo j ρ (.not (.and a b)) u ∧ EvalsTo j ρ (.or (.not a) (.not b)) u) ∧
    (∃ u, EvalsTo j ρ (.not (.or a b)) u ∧ EvalsTo j ρ (.and (.not a) (.not b)) u) ∧
    (∃ u, EvalsTo j ρ (.and a b) u ∧ EvalsTo j ρ (.and b a) u) ∧
    (∃ u, EvalsTo j ρ (.or a b) u ∧ EvalsTo j ρ (.or b a) u) ∧
    (∃ u, EvalsTo j ρ (.and a (.and b c)) u ∧ EvalsTo j ρ (.and (.and a b) c) u) ∧
    (∃ u, EvalsTo j ρ (.or a (.or b c)) u ∧ EvalsTo j ρ (.or (.or a b) c) u) ∧
    (∃ u, EvalsTo j ρ (.and a (.or b c)) u ∧ EvalsTo j ρ (.or (.and a b) (.and a c)) u) ∧
    (∃ u, EvalsTo j ρ (.or a (.and b c)) u ∧ EvalsTo j ρ (.and (.or a b) (.or a c)) u) ∧
    EvalsTo j ρ (.not (.not a)) x := by
  let ℓ : Nat → Expr := fun n => match n with | 0 => a | 1 => b | _ => c
  let σ : Nat → Tri := fun n => match n with | 0 => x | 1 => y | _ => z
  have h : ∀ n, EvalsTo j ρ (ℓ n) (σ n) := fun n => match n with | 0 => ha | 1 => hb | _ + 2 => hc
  have key : ∀ F G : Form, F.value σ = G.value σ → ∃ u, EvalsTo j ρ (F.expr ℓ) u ∧ EvalsTo j ρ (G.expr ℓ) u := fun F G e =>
    ⟨_, C33_formula j ρ ℓ σ h F, e ▸ C33_formula j ρ ℓ σ h G⟩
  have one : ∀ F : Form, F.value σ = x → EvalsTo j ρ (F.expr ℓ) x := fun F e => e ▸ C33_formula j ρ ℓ σ h F
  let A := Form.leaf 0; let B := Form.leaf 1; let C := Form.leaf 2
  refine ⟨key (.not (.and A B)) (.or (.not A) (.not B)) ?_, key (.not (.or A B)) (.and (.not A) (.not B)) ?_, key (.and A B) (.and B A) ?_,
    key (.or A B) (.or B A) ?_, key (.and A (.and B C)) (.and (.and A B) C) ?_, key (.or A (.or B C)) (.or (.or A B) C) ?_,
    key (.and A (.or B C)) (.or (.and A B) (.and A C)) ?_, key (.or A (.and B C)) (.and (.or A B) (.or A C)) ?_, one (.not (.not A)) ?_⟩ <;>
    (show (_ : Tri) = _; simp only [Form.value, A, B, C, σ]; cases x <;> cases y <;> cases z <;> rfl)

/-- IS TRUE, IS FALSE, IS UNKNOWN and their negations turn a truth value into a definite one. -/
theorem C33_is (j : Bool) (ρ : Env) {a : Expr} {x : Tri} (h : EvalsTo j ρ a x) (neg : Bool) :
    EvalsTo j ρ (.is .isTrue neg a) (.of (neg ^^ decide (x = .t))) ∧ EvalsTo j ρ (.is .isFalse neg a) (.of (neg ^^ decide (x = .f))) ∧
    EvalsTo j ρ (.is .isUnknown neg a) (.of (neg ^^ decide (x = .n))) := by
  obtain ⟨v, hv, tv⟩ := h
  have hb : ∀ b, truth (new (.boolean b)) = some (.of b) := by decide
  simp only [EvalsTo, eval, hv, Res.bind, isCheck, isNull]
  unfold truth at tv
  split at tv <;> simp_all <;> subst tv <;> cases neg <;> exact ⟨rfl, rfl, rfl⟩

-- NOT (NULL AND TRUE) OR FALSE is NULL; the columns hold NULL, TRUE.
example : EvalsTo false (rowEnv [newTyped .null 0, new (.boolean true)]) (.or (.not (.and (.col 0 0) (.col 0 1))) (.lit (new (.boolean false)))) .n :=
  ⟨_, rfl, rfl⟩

/-! ## C34 -/

theorem max_comm (x y : Tri) : x.max y = y.max x := by cases x <;> cases y <;> rfl
theorem min_comm (x y : Tri) : x.min y = y.min x := by cases x <;> cases y <;> rfl
theorem max_assoc (x y z : Tri) : (x.max y).max z = x.max (y.max z) := by cases x <;> cases y <;> cases z <;> rfl
theorem min_assoc (x y z : Tri) : (x.min y).min z = x.min (y.min z) := by cases x <;> cases y <;> cases z <;> rfl

theorem C34_or_order {ts us : List Tri} (h : ts.Perm us) : orAll ts = orAll us ∧ andAll ts = andAll us := by
  induction h with
  | nil => exact ⟨rfl, rfl⟩
  | cons x _ ih => exact ⟨congrArg (Tri.max x) ih.1, congrArg (Tri.min x) ih.2⟩
  | swap x y l =>
    refine ⟨?_, ?_⟩
    · show Tri.max y (Tri.max x (orAll l)) = Tri.max x (Tri.max y (orAll l))
      rw [← max_assoc, max_comm y x, max_assoc]
    · show Tri.min y (Tri.min x (andAll l)) = Tri.min x (Tri.min y (andAll l))
      rw [← min_assoc, min_comm y x, min_assoc]
  | trans _ _ a b => exact ⟨a.1.trans b.1, a.2.trans b.2⟩

theorem any_or (op : CmpOp) (x : Value) (vs : List Value) (nul : Bool) :
    anyLoop op x nul vs = (if nul then Tri.n else .f).max (orAll (vs.map (compareOp op x))) := by
  induction vs generalizing nul with
  | nil => cases nul <;> rfl
  | cons v vs ih =>
    show (match compareOp op x v with | .t => Tri.t | .n => anyLoop op x true vs | .f => anyLoop op x nul vs) =
      (if nul then Tri.n else .f).max ((compareOp op x v).max (orAll (vs.map (compareOp op x))))
    cases compareOp op x v with
    | t => cases nul <;> cases orAll (vs.map (compareOp op x)) <;> rfl
    | n => dsimp only; rw [ih]; cases nul <;> cases orAll (vs.map (compareOp op x)) <;> rfl
    | f => dsimp only; rw [ih]; cases nul <;> cases orAll (vs.map (compareOp op x)) <;> rfl

theorem of_max (x : Tri) : Tri.f.max x = x := by cases x <;> rfl

/-- `x op ANY (vs)` is the OR of the comparisons of `x` with the elements. -/
theorem C34_any (j : Bool) (ρ : Env) (op : CmpOp) {a l : Expr} {x y : Value} {vs : List Value} (ha : eval j ρ a = .ok x) (hl : eval j ρ l = .ok y)
    (hy : val y = .vector vs) : EvalsTo j ρ (.any op a l) (orAll (vs.map (compareOp op x))) :=
  ⟨ofTri (anyLoop op x false vs), by simp only [eval, ha, hl, Res.bind, anyValue, hy], by rw [truth_ofTri, any_or]; exact congrArg some (of_max _)⟩

theorem all_and (op : CmpOp) (x : Value) (vs : List Value) :
    (allLoop op x vs = .t ↔ andAll (vs.map (compareOp op x)) = .t) ∧ (allLoop op x vs = .f → andAll (vs.map (compareOp op x)) = .f) ∧
    ((∀ v ∈ vs, compareOp op x v ≠ .n) → allLoop op x vs = andAll (vs.map (compareOp op x))) := by
  induction vs with
  | nil => exact ⟨Iff.rfl, fun h => (nomatch h), fun _ => rfl⟩
  | cons v vs ih =>
    have hc : andAll ((v :: vs).map (compareOp op x)) = (compareOp op x v).min (andAll (vs.map (compareOp op x))) := rfl
    rw [hc, allLoop]
    cases h : compareOp op x v with
    | t =>
      refine ⟨?_, ?_, fun hv => ?_⟩
      · dsimp only; rw [ih.1]; cases andAll (vs.map (compareOp op x)) <;> decide
      · dsimp only; intro h; rw [ih.2.1 h]; rfl
      · dsimp only; rw [ih.2.2 fun w hw => hv w (List.mem_cons_of_mem _ hw)]; cases andAll (vs.map (compareOp op x)) <;> rfl
    | f => dsimp only; cases andAll (vs.map (compareOp op x)) <;> exact ⟨by decide, fun _ => rfl, fun _ => rfl⟩
    | n =>
      refine ⟨?_, fun h => (nomatch h), fun hv => absurd h (hv v (List.mem_cons_self ..))⟩
      dsimp only; cases andAll (vs.map (compareOp op x)) <;> decide

/-- `x op ALL (vs)` is TRUE exactly when the AND of the comparisons is, it is FALSE only when the AND is, and it is the AND when no
comparison is NULL. -/
theorem C34_all_partial (j : Bool) (ρ : Env) (op : CmpOp) {a l : Expr} {x y : Value} {vs : List Value} (ha : eval j ρ a = .ok x)
    (hl : eval j ρ l = .ok y) (hy : val y = .vector vs) :
    ∃ u, EvalsTo j ρ (.all op a l) u ∧ (u = .t ↔ andAll (vs.map (compareOp op x)) = .t) ∧ (u = .f → andAll (vs.map (compareOp op x)) = .f) ∧
      ((∀ v ∈ vs, compareOp op x v ≠ .n) → u = andAll (vs.map (compareOp op x))) :=
  ⟨allLoop op x vs, ⟨ofTri (allLoop op x vs), by simp only [eval, ha, hl, Res.bind, allValue, hy], truth_ofTri _⟩, all_and op x vs⟩

/-- `1 = ALL (NULL, 2)` is NULL although it should be FALSE, as `1 = ALL (2, NULL)` is: the result depends on the order of the list. -/
theorem C34_all_fails : ∃ (x : Value) (vs ws : List Value), vs.Perm ws ∧ allLoop .eq x vs = .n ∧ allLoop .eq x ws = .f ∧
    andAll (vs.map (compareOp .eq x)) = .f :=
  ⟨new (.integer 1), [new .null, new (.integer 2)], [new (.integer 2), new .null], .swap .., by decide +kernel, by decide +kernel, by decide +kernel⟩

theorem toInt_bounds (f : Fmt) {l h : Int} (h0 : l ≤ 0) (h1 : 0 ≤ h) (x : Nat) : l ≤ f.toInt l h x ∧ f.toInt l h x ≤ h := by
  unfold Fmt.toInt
  split
  · exact ⟨h0, h1⟩
  split
  · split <;> omega
  · dsimp only; omega

theorem ofInt_inj {i k : Int} (hi : i.natAbs < 2 ^ 53) (hk : k.natAbs < 2 ^ 53) : f64.cmp (f64.ofInt i) (f64.ofInt k) = some .eq ↔ i = k := by
  rw [Fmt.cmp_exact (Fmt.nan_ofInt ..) (Fmt.nan_ofInt ..), Fmt.exact_ofInt64 hi, Fmt.exact_ofInt64 hk, Option.some_inj, Int.compare_eq_eq]
  exact ⟨fun h => Int.eq_of_mul_eq_mul_right (by decide +kernel) h, fun h => by rw [h]⟩

/-- A value of an Integer column that is not NULL is a 32-bit number. -/
def Int32 (x : Value) : Prop := ∀ i, val x = .integer i → lo 3 ≤ i ∧ i ≤ hi 3

theorem ite_cmp' {p : Prop} [Decidable p] {x v w : Value} (h : p → compareOp .eq x w = compareOp .eq x v) :
    compareOp .eq x (if p then w else v) = compareOp .eq x v := by
  by_cases hp : p
  · rw [if_pos hp, h hp]
  · rw [if_neg hp]

theorem ite_cmp {p : Prop} [Decidable p] {x v w : Value} (h : compareOp .eq x w = compareOp .eq x v) :
    compareOp .eq x (if p then w else v) = compareOp .eq x v := ite_cmp' fun _ => h

/-- Converting an element does not change the comparison. -/
theorem conv_eq {x v : Value} (hx : Typed x) (hn : isNull x = false) (h32 : Int32 x) :
    compareOp .eq x (convIn (ty x) v) = compareOp .eq x v := by
  by_cases ht : ty x = 3
  · have hi : ∃ i, val x = .integer i := by
      rcases hx with h | h
      · rw [hn] at h; cases h
      · rw [ht] at h
        revert h
        cases val x <;> simp [tag]
    obtain ⟨i, hi⟩ := hi
    obtain ⟨i1, i2⟩ := h32 i hi
    have i3 : i.natAbs < 2 ^ 53 := by simp only [lo, Verif.Sql.hi] at i1 i2; omega
    obtain ⟨vx, s, m, t, fs⟩ := x
    obtain ⟨vv, s', m', t', fs'⟩ := v
    simp only [val] at hi
    simp only [ty] at ht
    subst hi ht
    show compareOp .eq _ (convIn 3 _) = _
    unfold convIn
    simp only [ty, val]
    split
    · split
      · refine ite_cmp ?_
        simp [compareOp, isNull, isSeq, val, new, newTyped, num, tag, CmpOp.ordering, sameType, ty, valEq, atoms, numCmp, CmpOp.holds, Tri.of]
      · refine ite_cmp ?_
        simp [compareOp, isNull, isSeq, val, new, newTyped, num, tag, CmpOp.ordering, sameType, ty, valEq, atoms, numCmp, CmpOp.holds, Tri.of]
      · refine ite_cmp ?_
        simp [compareOp, isNull, isSeq, val, new, newTyped, num, tag, CmpOp.ordering, sameType, ty, valEq, atoms, numCmp, CmpOp.holds, Tri.of]
      · rename_i x
        refine ite_cmp' fun hd => ?_
        have hb := toInt_bounds f64 (l := lo 3) (h := Verif.Sql.hi 3) (by decide) (by decide) x
        generalize f64.toInt (lo 3) (Verif.Sql.hi 3) x = k at hd hb
        have k3 : k.natAbs < 2 ^ 53 := by simp only [lo, Verif.Sql.hi] at hb; omega
        have e := cmp_eq_right hd.2 (f64.ofInt i)
        have e2 := ofInt_inj i3 k3
        rw [← e] at e2
        simp [compareOp, isNull, isSeq, val, new, newTyped, num, tag, CmpOp.ordering, sameType, ty, valEq, atoms, numCmp, CmpOp.holds, Tri.of, e2]
      · rfl
    · rfl
  · unfold convIn
    rw [if_neg fun h => ht h.1]

theorem null_or {x : Value} {vs : List Value} (hx : isNull x = true) (hv : vs ≠ []) : orAll (vs.map (compareOp .eq x)) = .n := by
  induction vs with
  | nil => exact absurd rfl hv
  | cons v vs ih =>
    show Tri.max (compareOp .eq x v) (orAll (vs.map (compareOp .eq x))) = .n
    rw [C38_null_compare .eq (.inl hx)]
    cases vs with
    | nil => rfl
    | cons w ws => rw [ih (by simp)]; rfl

theorem in_or {x : Value} (hx : Typed x) (hn : isNull x = false) (h32 : Int32 x) (vs : List Value) (nul : Bool) :
    inLoop x nul vs = (if nul then Tri.n else .f).max (orAll (vs.map (compareOp .eq x))) := by
  induction vs generalizing nul with
  | nil => cases nul <;> rfl
  | cons v vs ih =>
    have e : orAll ((v :: vs).map (compareOp .eq x)) = (compareOp .eq x v).max (orAll (vs.map (compareOp .eq x))) := rfl
    rw [e, inLoop]
    split
    · rename_i h
      rw [ih, C38_null_compare .eq (.inr h)]
      cases nul <;> cases orAll (vs.map (compareOp .eq x)) <;> rfl
    · rw [conv_eq hx hn h32]
      cases compareOp .eq x v <;> dsimp only <;> (try rw [ih]) <;> cases nul <;> cases orAll (vs.map (compareOp .eq x)) <;> rfl

theorem inCheck_or {x : Value} (hx : Typed x) (h32 : Int32 x) {vs : List Value} (hv : vs ≠ [] ∨ isNull x = false) :
    inCheck x vs = orAll (vs.map (compareOp .eq x)) := by
  unfold inCheck
  split
  · rename_i h
    rcases hv with hv | hv
    · exact (null_or h hv).symm
    · rw [h] at hv; cases hv
  · rename_i h
    rw [in_or hx (by simpa using h) h32]
    exact of_max _

/-- `x IN (vs)` is the OR of the comparisons of `x` with the elements and `x NOT IN (vs)` its negation, except for NULL and an empty list. -/
theorem C34_in_partial (j : Bool) (ρ : Env) {a l : Expr} {x y : Value} {vs : List Value} (ha : eval j ρ a = .ok x)
    (hl : eval j ρ l = .ok y) (hy : val y = .vector vs) (hx : Typed x) (h32 : Int32 x) (hv : vs ≠ [] ∨ isNull x = false) :
    EvalsTo j ρ (.inList false a l) (orAll (vs.map (compareOp .eq x))) ∧ EvalsTo j ρ (.inList true a l) (orAll (vs.map (compareOp .eq x))).opp := by
  refine ⟨⟨inValue false x y, by simp only [eval, ha, hl, Res.bind], ?_⟩, ⟨inValue true x y, by simp only [eval, ha, hl, Res.bind], ?_⟩⟩ <;>
    (simp only [inValue, hy, truth_ofTri]; rw [inCheck_or hx h32 hv])
  · rfl
  · cases orAll (vs.map (compareOp .eq x)) <;> rfl

-- 5 IN (1, NULL, 5.0) is TRUE, 5 NOT IN (1, NULL) is NULL.
example : EvalsTo false (rowEnv []) (.inList false (.lit (new (.integer 5))) (.lit (new (.vector [new (.tinyInt 1), new .null, new (.decimal 0x4014000000000000)])))) .t ∧
    EvalsTo false (rowEnv []) (.inList true (.lit (new (.integer 5))) (.lit (new (.vector [new (.tinyInt 1), new .null])))) .n :=
  ⟨⟨ofTri .t, by rw [← show inValue false (new (.integer 5)) (new (.vector [new (.tinyInt 1), new .null, new (.decimal 0x4014000000000000)])) = ofTri .t from rfl]; rfl, rfl⟩,
    ⟨_, rfl, rfl⟩⟩

/-- `NULL IN ()`, as from an empty array, is NULL, not FALSE. -/
theorem C34_in_empty_fails : inCheck (new .null) [] = .n ∧ orAll (([] : List Value).map (compareOp .eq (new .null))) = .f := ⟨rfl, rfl⟩

/-- The parser evaluates an IN list only if its items are literals: it turns any other item into NULL, so that `x IN (e)` is never TRUE,
even for `x IN (x)`. -/
theorem C34_in_items_fails (j : Bool) (ρ : Env) (t : Nat) {e : Expr} (he : ∀ v, e ≠ .lit v) {x : Value} (hx : eval j ρ e = .ok x) :
    EvalsTo j ρ (parseIn false t e [e]) .n := by
  have hi : inItem t e = new .null := by
    cases e <;> first | rfl | exact absurd rfl (he _)
  refine ⟨ofTri .n, ?_, rfl⟩
  simp only [parseIn, eval, hx, Res.bind, List.map, hi]
  cases hn : isNull x <;> simp [inValue, inCheck, inLoop, hn, val, new, newTyped, isNull]

/-- With literal items, `x IN (items)` as the parser builds it is the OR of the comparisons. -/
theorem C34_in_parsed_partial (j : Bool) (ρ : Env) {a : Expr} {x : Value} {vs : List Value} (ha : eval j ρ a = .ok x) (hx : Typed x) (h32 : Int32 x)
    (hv : vs ≠ []) : EvalsTo j ρ (parseIn false (ty x) a (vs.map .lit)) (orAll (vs.map (compareOp .eq x))) := by
  have h := (C34_in_partial j ρ (l := .lit (new (.vector ((vs.map Expr.lit).map (inItem (ty x)))))) ha rfl rfl hx h32 (.inl (by simpa using hv))).1
  have e : ((vs.map Expr.lit).map (inItem (ty x))).map (compareOp .eq x) = vs.map (compareOp .eq x) := by
    simp only [List.map_map]
    apply List.map_congr_left
    intro v _
    cases hn : isNull x
    · exact conv_eq hx hn h32
    · show compareOp .eq x (convIn (ty x) v) = compareOp .eq x v
      rw [C38_null_compare .eq (.inl hn), C38_null_compare .eq (.inl hn)]
  rwa [e] at h

end Verif.Sql

import Verif.Sql.ExprProps

/-!
# C37: COALESCE, CASE, IS DISTINCT, BETWEEN
# C69: a comparison of numbers compares the numbers
# C70: a condition means the same in a join as on the joined row

Specification vocabulary: that of C33; `CmpOp.rel`, `Fits`, `Fmt.exact` from C38 and C66. `Placed L e` says that the columns of `e` are
numbered as in the joined row with the `L` columns of the left side first.
-/

namespace Verif.Sql

open Verif.Wire Verif.Bytes

/-! ## C37 -/

/-- COALESCE gives its first argument that is not NULL, without evaluating the later ones. -/
theorem C37_coalesce (j : Bool) (ρ : Env) {pre post : List Expr} {e : Expr} {v : Value}
    (hp : ∀ a ∈ pre, ∃ w, eval j ρ a = .ok w ∧ isNull w = true) (he : eval j ρ e = .ok v) (hv : isNull v = false) :
    eval j ρ (.coalesce (.of (pre ++ e :: post))) = .ok v := by
  show evalCoalesce j ρ (.of (pre ++ e :: post)) = .ok v
  induction pre with
  | nil => simp only [List.nil_append, Exprs.of, evalCoalesce, he, Res.bind, hv, Bool.false_eq_true, if_false]
  | cons a as ih =>
    obtain ⟨w, hw, nw⟩ := hp a (List.mem_cons_self ..)
    simp only [List.cons_append, Exprs.of, evalCoalesce, hw, Res.bind, nw, if_true]
    exact ih fun b hb => hp b (List.mem_cons_of_mem _ hb)

/-- When all arguments are NULL, COALESCE is NULL. -/
theorem C37_coalesce_null (j : Bool) (ρ : Env) {es : List Expr} (h : ∀ a ∈ es, ∃ w, eval j ρ a = .ok w ∧ isNull w = true) :
    eval j ρ (.coalesce (.of es)) = .ok (new .null) := by
  show evalCoalesce j ρ (.of es) = .ok (new .null)
  induction es with
  | nil => rfl
  | cons a as ih =>
    obtain ⟨w, hw, nw⟩ := h a (List.mem_cons_self ..)
    simp only [Exprs.of, evalCoalesce, hw, Res.bind, nw, if_true]
    exact ih fun b hb => h b (List.mem_cons_of_mem _ hb)

theorem truth_bool {v : Value} {b : Bool} (h : truth v = some (.of b)) : val v = .boolean b := by
  unfold truth at h
  split at h <;> cases b <;> simp_all [Tri.of]

/-- CASE gives the branch of the first condition that is TRUE, if those before it are FALSE. -/
theorem C37_case_partial (j : Bool) (ρ : Env) {pre post : List (Expr × Expr)} {c t e : Expr} (hp : ∀ a ∈ pre, EvalsTo j ρ a.1 .f) (hc : EvalsTo j ρ c .t) :
    eval j ρ (.caseWhen (.of e (pre ++ (c, t) :: post))) = eval j ρ t := by
  show evalArms j ρ none (.of e (pre ++ (c, t) :: post)) = eval j ρ t
  induction pre with
  | nil =>
    obtain ⟨v, hv, tv⟩ := hc
    simp only [List.nil_append, Arms.of, evalArms, hv, Res.bind, truth_bool (b := true) tv, if_true]
  | cons a as ih =>
    obtain ⟨v, hv, tv⟩ := hp a (List.mem_cons_self ..)
    simp only [List.cons_append, Arms.of, evalArms, hv, Res.bind, truth_bool (b := false) tv, Bool.false_eq_true, if_false]
    exact ih fun b hb => hp b (List.mem_cons_of_mem _ hb)

/-- When all conditions are FALSE, CASE gives the ELSE. -/
theorem C37_case_else_partial (j : Bool) (ρ : Env) {arms : List (Expr × Expr)} {e : Expr} (hp : ∀ a ∈ arms, EvalsTo j ρ a.1 .f) :
    eval j ρ (.caseWhen (.of e arms)) = eval j ρ e := by
  show evalArms j ρ none (.of e arms) = eval j ρ e
  induction arms with
  | nil => rfl
  | cons a as ih =>
    obtain ⟨v, hv, tv⟩ := hp a (List.mem_cons_self ..)
    simp only [Arms.of, evalArms, hv, Res.bind, truth_bool (b := false) tv, Bool.false_eq_true, if_false]
    exact ih fun b hb => hp b (List.mem_cons_of_mem _ hb)

/-- A condition that is NULL makes the whole CASE an error; it should count as not true. -/
theorem C37_case_null_fails (j : Bool) (ρ : Env) {c t e : Expr} (post : List (Expr × Expr)) (hc : EvalsTo j ρ c .n) :
    eval j ρ (.caseWhen (.of e ((c, t) :: post))) = .err := by
  obtain ⟨v, hv, tv⟩ := hc
  have hn : val v = .null := by unfold truth at tv; split at tv <;> simp_all
  simp only [Arms.of, eval, evalArms, hv, Res.bind, hn]

-- CASE WHEN x > 5 THEN 'big' WHEN x > 2 THEN 'mid' ELSE 'small' END on x = 3 is 'mid'; on x = NULL it is an error.
example : eval false (rowEnv [new (.integer 3)]) (.caseWhen (.of (.lit (new (.varLen (lit "small"))))
      [(.cmp .gt (.col 0 0) (.lit (new (.integer 5))), .lit (new (.varLen (lit "big")))), (.cmp .gt (.col 0 0) (.lit (new (.integer 2))), .lit (new (.varLen (lit "mid"))))])) =
      .ok (new (.varLen (lit "mid"))) ∧
    eval false (rowEnv [new .null]) (.caseWhen (.of (.lit (new (.varLen (lit "small")))) [(.cmp .gt (.col 0 0) (.lit (new (.integer 5))), .lit (new (.varLen (lit "big"))))])) = .err :=
  ⟨rfl, rfl⟩

theorem of_t (c : Bool) : Tri.of c = .t ↔ c = true := by cases c <;> decide

/-- Two values of one type that are not NULL, not structs and contain no NaN: `==` is SQL equality. -/
theorem same_type_eq {a b : Value} (ha : Typed a) (hb : Typed b) (na : isNull a = false) (nb : isNull b = false) (ht : ty a = ty b)
    (hs : val a ≠ .struct) (fa : nanFree a = true) (fb : nanFree b = true) : valueEq a b = true ↔ compareOp .eq a b = .t := by
  obtain ⟨v, s, m, t, fs⟩ := a
  obtain ⟨w, s', m', t', fs'⟩ := b
  simp only [Typed, na, nb, Bool.false_eq_true, false_or, ty, val] at ha hb ht hs
  subst ht
  rw [ha] at hb
  have hc : ∀ {f : Fmt} (g : f.Good) {x y : Nat}, f.nan x = false → f.nan y = false → (f.canon x = f.canon y ↔ f.cmp x y = some .eq) := by
    intro f g x y hx hy
    rw [Fmt.canon_eq g, Fmt.cmp_eq, Fmt.key_eq]
    simp [hx, hy]
  cases v <;> cases w <;> simp only [tag] at hb <;> (try (exact absurd hb (by decide))) <;>
    simp_all [valueEq, compareOp, isNull, isSeq, val, num, tag, CmpOp.ordering, sameType, ty, numCmp, CmpOp.holds, of_t, nanFree, valEq]
  · exact hc Fmt.good64 fa fb
  · exact hc Fmt.good32 fa fb
  · exact and_congr (hc Fmt.good64 fa.1 fb.1) (hc Fmt.good64 fa.2 fb.2)

/-- A simple CASE takes the first WHEN value equal to the operand, if all are of the operand's type, not NULL, not structs and not NaN. -/
theorem C37_case_of_partial (j : Bool) (ρ : Env) {pre post : List (Expr × Expr)} {b c t e : Expr} {x w : Value} (hb : eval j ρ b = .ok x) (hc : eval j ρ c = .ok w)
    (hx : Typed x ∧ isNull x = false ∧ val x ≠ .struct ∧ nanFree x = true)
    (hp : ∀ a ∈ pre, ∃ y, eval j ρ a.1 = .ok y ∧ Typed y ∧ isNull y = false ∧ ty y = ty x ∧ nanFree y = true ∧ compareOp .eq x y = .f)
    (hw : Typed w ∧ isNull w = false ∧ ty w = ty x ∧ nanFree w = true ∧ compareOp .eq x w = .t) :
    eval j ρ (.caseOf b (.of e (pre ++ (c, t) :: post))) = eval j ρ t := by
  simp only [eval, hb, Res.bind]
  obtain ⟨tx, nx, sx, fx⟩ := hx
  induction pre with
  | nil =>
    have := (same_type_eq tx hw.1 nx hw.2.1 hw.2.2.1.symm sx fx hw.2.2.2.1).2 hw.2.2.2.2
    simp only [List.nil_append, Arms.of, evalArms, hc, Res.bind, this, if_true]
  | cons a as ih =>
    obtain ⟨y, hy, ty', ny, tt, fy, cy⟩ := hp a (List.mem_cons_self ..)
    have : valueEq x y = false := by
      rw [← Bool.not_eq_true, same_type_eq tx ty' nx ny tt.symm sx fx fy, cy]; decide
    simp only [List.cons_append, Arms.of, evalArms, hy, Res.bind, this, Bool.false_eq_true, if_false]
    exact ih fun b hb => hp b (List.mem_cons_of_mem _ hb)

/-- `CASE x WHEN 1 THEN ...` never matches an Integer column: the literal 1 is a TinyInt. And `WHEN NULL` matches NULL. -/
theorem C37_case_of_fails (t e : Expr) (i : Int) : (∀ n k, numberLit n = some k → (n : Int) ≤ hi 2 →
      eval false (rowEnv [new (.integer i)]) (.caseOf (.col 0 0) (.of e [(k, t)])) = eval false (rowEnv [new (.integer i)]) e) ∧
    eval false (rowEnv [new .null]) (.caseOf (.col 0 0) (.of e [(.lit (new .null), t)])) = eval false (rowEnv [new .null]) t := by
  refine ⟨fun n k hk hn => ?_, rfl⟩
  unfold numberLit at hk
  split at hk
  · cases hk; rfl
  · cases hk; rfl

/-- The expression for IS [NOT] DISTINCT FROM: NULL is distinct from everything but NULL; two values of one type are distinct when they are
not equal. -/
theorem C37_distinct_partial (n : Bool) {x y : Value} :
    (isNull x = true → isNull y = true → truth (isDistinct n x y) = some (.of n)) ∧
    (isNull x ≠ isNull y → truth (isDistinct n x y) = some (.of !n)) ∧
    (Typed x → Typed y → isNull x = false → isNull y = false → ty x = ty y → val x ≠ .struct → nanFree x = true → nanFree y = true →
      truth (isDistinct n x y) = some (if n then compareOp .eq x y else (compareOp .eq x y).opp)) := by
  have hb : ∀ b, truth (new (.boolean b)) = some (.of b) := by decide
  refine ⟨fun hx hy => ?_, fun h => ?_, fun tx ty' nx ny tt sx fx fy => ?_⟩
  · simp only [isDistinct, hx, hy, hb]; cases n <;> rfl
  · cases hx : isNull x <;> cases hy : isNull y <;> simp_all [isDistinct] <;> cases n <;> rfl
  · have e := same_type_eq tx ty' nx ny tt sx fx fy
    have h2 : compareOp .eq x y = .of (valueEq x y) := by
      cases hv : valueEq x y
      · have : compareOp .eq x y ≠ .t := fun h => by rw [e.2 h] at hv; cases hv
        have hn : compareOp .eq x y ≠ .n := by
          rw [compareOp, nx, ny]
          simp only [CmpOp.ordering, Bool.false_and, Bool.or_self, Bool.false_eq_true, if_false]
          have hof : ∀ b, Tri.of b ≠ .n := by decide
          have hst : sameType .eq x y ≠ .n := by unfold sameType; split <;> exact hof _
          split
          · split
            · exact hof _
            · exact hst
          · exact hst
        revert this hn
        cases compareOp .eq x y <;> simp [Tri.of]
      · exact e.1 hv
    simp only [isDistinct, nx, ny, hb, h2]
    cases n <;> cases valueEq x y <;> rfl

/-- The parser exchanges the two: `a IS DISTINCT FROM b` evaluates to what `a IS NOT DISTINCT FROM b` should, and the other way round. So
`NULL IS DISTINCT FROM NULL` and `x IS DISTINCT FROM x` are TRUE. -/
theorem C37_distinct_fails (j : Bool) (ρ : Env) {a : Expr} {x : Value} (ha : eval j ρ a = .ok x) :
    EvalsTo j ρ (parseDistinct false a a) .t ∧ EvalsTo j ρ (parseDistinct true a a) .f := by
  simp only [EvalsTo, parseDistinct, eval, ha, Res.bind, isDistinct, valueEq_refl]
  cases isNull x <;> exact ⟨⟨_, rfl, rfl⟩, ⟨_, rfl, rfl⟩⟩

/-- Also, an Integer 1 is distinct from a TinyInt 1, the type of the literal `1`. -/
theorem C37_distinct_types_fails (i : Int) : truth (isDistinct false (new (.integer i)) (new (.tinyInt i))) = some .t ∧
    compareOp .eq (new (.integer i)) (new (.tinyInt i)) = .t :=
  ⟨rfl, by rw [C38_int_compare .eq (.inr (.inr (.inl rfl))) (.inl rfl)]; simp [CmpOp.rel, Tri.of]⟩

/-- BETWEEN is the AND of the two comparisons, NOT BETWEEN the OR of the two opposite ones. -/
theorem C37_between (j : Bool) (ρ : Env) {x l h : Expr} {u w u' w' : Tri} (h1 : EvalsTo j ρ (.cmp .ge x l) u) (h2 : EvalsTo j ρ (.cmp .le x h) w)
    (h3 : EvalsTo j ρ (.cmp .lt x l) u') (h4 : EvalsTo j ρ (.cmp .gt x h) w') :
    EvalsTo j ρ (parseBetween false x l h) (u.min w) ∧ EvalsTo j ρ (parseBetween true x l h) (u'.max w') := by
  have a := C33_formula j ρ (fun n => match n with | 0 => .cmp .ge x l | _ => .cmp .le x h) (fun n => match n with | 0 => u | _ => w)
    (fun n => match n with | 0 => h1 | _ + 1 => h2) (.and (.leaf 0) (.leaf 1))
  have b := C33_formula j ρ (fun n => match n with | 0 => .cmp .lt x l | _ => .cmp .gt x h) (fun n => match n with | 0 => u' | _ => w')
    (fun n => match n with | 0 => h3 | _ + 1 => h4) (.or (.leaf 0) (.leaf 1))
  exact ⟨a, b⟩

/-- The separate BETWEEN expression, which the parser does not build, is FALSE for NULL instead of NULL, and compares types before values:
5 as Integer is not between 1 and 9 as BigInt. -/
theorem C37_between_expr_fails : truth (betweenValue false (new .null) (new (.integer 1)) (new (.integer 9))) = some .f ∧
    truth (betweenValue false (new (.integer 5)) (new (.bigInt 1)) (new (.bigInt 9))) = some .f := by decide +kernel

/-! ## C69 -/

/-- `comparison` of two integers of any widths is the comparison of the numbers. -/
theorem C69_int (op : CmpOp) {s t : Nat} {i k : Int} (hi : Fits s i) (hk : Fits t k) :
    comparison op (intVal s i) (intVal t k) = .ok (ofTri (.of (op.rel i k))) := by
  have isInt : ∀ {s : Nat} {i : Int}, 1 ≤ s → s ≤ 4 → IsInt (intVal s i) i := by
    intro s i h1 h4
    have : s = 1 ∨ s = 2 ∨ s = 3 ∨ s = 4 := by omega
    rcases this with rfl | rfl | rfl | rfl
    · exact .inl rfl
    · exact .inr (.inl rfl)
    · exact .inr (.inr (.inl rfl))
    · exact .inr (.inr (.inr rfl))
  have hty : ∀ {s : Nat} {i : Int}, ty (intVal s i) = s := rfl
  have hnull : ∀ {s : Nat} {i : Int}, 1 ≤ s → s ≤ 4 → isNull (intVal s i) = false := by
    intro s i h1 h4
    have : s = 1 ∨ s = 2 ∨ s = 3 ∨ s = 4 := by omega
    rcases this with rfl | rfl | rfl | rfl <;> rfl
  obtain ⟨s1, s4, li, ui⟩ := hi
  obtain ⟨t1, t4, lk, uk⟩ := hk
  have int := fun (s' t' : Nat) (a : 1 ≤ s') (b : s' ≤ 4) (c : 1 ≤ t') (d : t' ≤ 4) =>
    C38_int_compare op (isInt (i := i) a b) (isInt (i := k) c d)
  have c1 := C39_cast (t := t) ⟨s1, s4, li, ui⟩ ⟨t1, t4⟩
  have c2 := C39_cast (t := s) ⟨t1, t4, lk, uk⟩ ⟨s1, s4⟩
  unfold comparison
  rw [hnull s1 s4, hnull t1 t4, hty, hty]
  simp only [Bool.or_self, Bool.false_eq_true, if_false]
  split
  · by_cases ft : Fits t i
    · rw [c1.1 ft]
      exact congrArg (Res.ok ∘ ofTri) (int t t t1 t4 t1 t4)
    · have fs : Fits s k := by
        have hs : s = 1 ∨ s = 2 ∨ s = 3 ∨ s = 4 := by omega
        have ht : t = 1 ∨ t = 2 ∨ t = 3 ∨ t = 4 := by omega
        rcases hs with rfl | rfl | rfl | rfl <;> rcases ht with rfl | rfl | rfl | rfl <;> simp only [Fits, lo, hi] at * <;> omega
      rw [c1.2 ft, c2.1 fs]
      exact congrArg (Res.ok ∘ ofTri) (int s s s1 s4 s1 s4)
  · exact congrArg (Res.ok ∘ ofTri) (int s t s1 s4 t1 t4)

/-- With an integer of at most 53 bits on the left and a `Decimal` on the right it is the comparison of the numbers. -/
theorem C69_int_decimal_partial (op : CmpOp) {s : Nat} {i : Int} {x : Nat} (hs : Fits s i) (hi : i.natAbs < 2 ^ 53) (hx : f64.nan x = false) :
    comparison op (intVal s i) (new (.decimal x)) = .ok (ofTri (.of (op.rel (i * f64.unit) (f64.exact x)))) := by
  have e := Fmt.exact_ofInt64 hi
  have n := Fmt.nan_ofInt f64 i
  rw [← e]
  have hc : castTo (intVal s i) 5 = .ok (newTyped (.decimal (f64.ofInt i)) 5) := by
    rcases fits_cases hs with ⟨rfl, _, _⟩ | ⟨rfl, _, _⟩ | ⟨rfl, _, _⟩ | ⟨rfl, _, _⟩ <;> rfl
  have hn : isNull (intVal s i) = false := by
    rcases fits_cases hs with ⟨rfl, _, _⟩ | ⟨rfl, _, _⟩ | ⟨rfl, _, _⟩ | ⟨rfl, _, _⟩ <;> rfl
  have ht : ty (intVal s i) ≠ 5 := by
    rcases fits_cases hs with ⟨rfl, _, _⟩ | ⟨rfl, _, _⟩ | ⟨rfl, _, _⟩ | ⟨rfl, _, _⟩ <;> simp [intVal, newTyped, ty]
  have hd : compareOp op (newTyped (.decimal (f64.ofInt i)) 5) (new (.decimal x)) = .of (op.rel (f64.exact (f64.ofInt i)) (f64.exact x)) := by
    rw [← holds_cmp n hx]
    cases op <;> simp [compareOp, newTyped, new, isNull, isSeq, val, num, tag, sameType, ty, valEq, valCmp, CmpOp.holds, CmpOp.ordering, bne]
  unfold comparison
  rw [hn, show isNull (new (.decimal x)) = false from rfl, show ty (new (.decimal x)) = 5 from rfl, if_pos ht, hc]
  simp only [Bool.or_self, Bool.false_eq_true, if_false, hd]

/-- With the `Decimal` on the left it is truncated to the type of the integer first: `3.7 = 3` is TRUE, while `3 = 3.7` is FALSE, and
`200.5 > 127` is FALSE, 127 being a TinyInt. -/
theorem C69_decimal_int_fails : comparison .eq (new (.decimal 0x400d99999999999a)) (new (.tinyInt 3)) = .ok (ofTri .t) ∧
    comparison .eq (new (.tinyInt 3)) (new (.decimal 0x400d99999999999a)) = .ok (ofTri .f) ∧
    comparison .gt (new (.decimal 0x4069100000000000)) (new (.tinyInt 127)) = .ok (ofTri .f) := by
  refine ⟨?_, ?_, ?_⟩
  · show Res.ok (ofTri (compareOp .eq (intVal 1 (f64.toInt (lo 1) (hi 1) 0x400d99999999999a)) (new (.tinyInt 3)))) = _
    rw [show f64.toInt (lo 1) (hi 1) 0x400d99999999999a = 3 by decide +kernel]; rfl
  · show Res.ok (ofTri (compareOp .eq (newTyped (.decimal (f64.ofInt 3)) 5) (new (.decimal 0x400d99999999999a)))) = _
    rw [show f64.ofInt 3 = 0x4008000000000000 by decide +kernel]; rfl
  · show Res.ok (ofTri (compareOp .gt (intVal 1 (f64.toInt (lo 1) (hi 1) 0x4069100000000000)) (new (.tinyInt 127)))) = _
    rw [show f64.toInt (lo 1) (hi 1) 0x4069100000000000 = 127 by decide +kernel]; rfl

/-- A number and a string are compared as the right operand says: `9 < '10'` is FALSE, as strings, and `'9' < 10` TRUE, as numbers. -/
theorem C69_string_fails : comparison .lt (new (.integer 9)) (new (.varLen (lit "10"))) = .ok (ofTri .f) ∧
    comparison .lt (new (.varLen (lit "9"))) (new (.integer 10)) = .ok (ofTri .t) := by
  refine ⟨?_, ?_⟩
  · show Res.ok (ofTri (compareOp .lt (strVal 11 (intStr 9)) (new (.varLen (lit "10"))))) = _
    rw [show compareOp .lt (strVal 11 (intStr 9)) (new (.varLen (lit "10"))) = .f by decide +kernel]
  · have : parseInt (lo 3) (hi 3) (lit "9") = some 9 := by decide +kernel
    have hc : castTo (new (.varLen (lit "9"))) (ty (new (.integer 10))) = .ok (intVal 3 9) := by
      show castStr (lit "9") 3 = _
      simp only [castStr, this]; rfl
    rw [comparison, if_neg (by decide), if_pos (by decide), hc]; rfl

-- 300 as SmallInt against 7 as TinyInt; 2^40 as BigInt against 2.5.
example : Fits 2 300 ∧ Fits 1 7 ∧ Fits 4 (2 ^ 40) ∧ (2 ^ 40 : Int).natAbs < 2 ^ 53 ∧ f64.nan 0x4004000000000000 = false ∧
    CmpOp.gt.rel ((2 ^ 40 : Int) * f64.unit) (f64.exact 0x4004000000000000) = true := by
  refine ⟨?_, ?_, ?_, by decide, by decide, by decide +kernel⟩ <;> simp [Fits, lo, hi]

/-! ## C70 -/

mutual
/-- The columns are numbered as in the joined row, the `L` columns of the left side first, and there is no arithmetic, `%` or `||`. -/
def Placed (L : Nat) : Expr → Prop
  | .col side i => (side = 0 ∧ i < L) ∨ (side = 1 ∧ L ≤ i)
  | .lit _ => True
  | .arith _ _ _ | .modulo _ _ | .concat _ _ => False
  | .cmp _ a b => Placed L a ∧ Placed L b
  | .and a b => Placed L a ∧ Placed L b
  | .or a b => Placed L a ∧ Placed L b
  | .not a => Placed L a
  | .neg a => Placed L a
  | .is _ _ a => Placed L a
  | .distinct _ a b => Placed L a ∧ Placed L b
  | .between _ a l h => Placed L a ∧ Placed L l ∧ Placed L h
  | .coalesce es => PlacedAll L es
  | .caseWhen arms => PlacedArms L arms
  | .caseOf b arms => Placed L b ∧ PlacedArms L arms
  | .inList _ a l => Placed L a ∧ Placed L l
  | .any _ a l => Placed L a ∧ Placed L l
  | .all _ a l => Placed L a ∧ Placed L l
  | .array es => PlacedAll L es
def PlacedAll (L : Nat) : Exprs → Prop
  | .nil => True
  | .cons e es => Placed L e ∧ PlacedAll L es
def PlacedArms (L : Nat) : Arms → Prop
  | .els e => Placed L e
  | .when c t rest => Placed L c ∧ Placed L t ∧ PlacedArms L rest
end

mutual
/-- Evaluated on a pair of rows, as a join condition, such an expression gives what it gives on the joined row, as a WHERE condition after
the join. -/
theorem C70_join_partial (l r : List Value) : ∀ e : Expr, Placed l.length e → eval true (joinEnv l r) e = eval false (rowEnv (l ++ r)) e
  | .col side i, h => by
    rcases h with ⟨rfl, h⟩ | ⟨rfl, h⟩
    · simp only [eval, joinEnv, rowEnv, List.getElem?_append_left h]
    · simp only [eval, joinEnv, rowEnv, if_pos h, List.getElem?_append_right h]
  | .lit _, _ => rfl
  | .cmp _ a b, h => by simp only [eval, C70_join_partial l r a h.1, C70_join_partial l r b h.2]
  | .and a b, h => by simp only [eval, C70_join_partial l r a h.1, C70_join_partial l r b h.2]
  | .or a b, h => by simp only [eval, C70_join_partial l r a h.1, C70_join_partial l r b h.2]
  | .not a, h => by simp only [eval, C70_join_partial l r a h]
  | .neg a, h => by simp only [eval, C70_join_partial l r a h]
  | .is _ _ a, h => by simp only [eval, C70_join_partial l r a h]
  | .distinct _ a b, h => by simp only [eval, C70_join_partial l r a h.1, C70_join_partial l r b h.2]
  | .between _ a b c, h => by simp only [eval, C70_join_partial l r a h.1, C70_join_partial l r b h.2.1, C70_join_partial l r c h.2.2]
  | .coalesce es, h => by simp only [eval, join_coalesce l r es h]
  | .caseWhen arms, h => by simp only [eval, join_arms l r none arms h]
  | .caseOf b arms, h => by simp only [eval, C70_join_partial l r b h.1, fun x => join_arms l r (some x) arms h.2]
  | .inList _ a b, h => by simp only [eval, C70_join_partial l r a h.1, C70_join_partial l r b h.2]
  | .any _ a b, h => by simp only [eval, C70_join_partial l r a h.1, C70_join_partial l r b h.2]
  | .all _ a b, h => by simp only [eval, C70_join_partial l r a h.1, C70_join_partial l r b h.2]
  | .array es, h => by simp only [eval, join_array l r [] es h]
theorem join_coalesce (l r : List Value) : ∀ es : Exprs, PlacedAll l.length es → evalCoalesce true (joinEnv l r) es = evalCoalesce false (rowEnv (l ++ r)) es
  | .nil, _ => rfl
  | .cons e es, h => by simp only [evalCoalesce, C70_join_partial l r e h.1, join_coalesce l r es h.2]
theorem join_arms (l r : List Value) (base : Option Value) : ∀ arms : Arms, PlacedArms l.length arms →
    evalArms true (joinEnv l r) base arms = evalArms false (rowEnv (l ++ r)) base arms
  | .els e, h => by simp only [evalArms]; exact C70_join_partial l r e h
  | .when c t rest, h => by simp only [evalArms, C70_join_partial l r c h.1, C70_join_partial l r t h.2.1, join_arms l r base rest h.2.2]
theorem join_array (l r : List Value) (acc : List Value) : ∀ es : Exprs, PlacedAll l.length es →
    evalArray true (joinEnv l r) acc es = evalArray false (rowEnv (l ++ r)) acc es
  | .nil, _ => rfl
  | .cons e es, h => by simp only [evalArray, C70_join_partial l r e h.1, fun a => join_array l r a es h.2]
end

-- The condition l.0 = r.0 OR l.1 IN (1, 2) over two columns on the left and one on the right.
example : Placed 2 (.or (.cmp .eq (.col 0 0) (.col 1 2)) (.inList false (.col 0 1) (.lit (new (.vector [new (.integer 1), new (.integer 2)]))))) :=
  ⟨⟨.inl ⟨rfl, by decide⟩, .inr ⟨rfl, by decide⟩⟩, .inl ⟨rfl, by decide⟩, trivial⟩

/-- `%` in a join condition evaluates its operands again on a row of two columns: `l.1 % 2` with `l.1 = 7` and `l.0 = 4` is not 1, because
the column 1 of that row is the right operand 2. -/
theorem C70_modulo_fails : eval true (joinEnv [new (.integer 4), new (.integer 7)] []) (.modulo (.col 0 1) (.lit (new (.integer 2)))) = .ok (new (.integer 0)) ∧
    eval false (rowEnv [new (.integer 4), new (.integer 7)]) (.modulo (.col 0 1) (.lit (new (.integer 2)))) = .ok (new (.integer 1)) := ⟨rfl, rfl⟩

/-- A `Decimal` minus an Integer is the Integer minus the `Decimal` in a join condition, and adding two SmallInts is an error there. -/
theorem C70_arith_fails : (∃ l : List Value, ∃ v w, eval true (joinEnv l []) (.arith .sub (.col 0 0) (.col 0 1)) = .ok v ∧
      eval false (rowEnv l) (.arith .sub (.col 0 0) (.col 0 1)) = .ok w ∧ compareOp .eq w v = .f) ∧
    ∀ i k : Int, eval true (joinEnv [new (.smallInt i), new (.smallInt k)] []) (.arith .add (.col 0 0) (.col 0 1)) = .err := by
  refine ⟨?_, fun _ _ => rfl⟩
  obtain ⟨a, b, v, w, _, _, h1, h2, h3⟩ := C66_join_fails
  refine ⟨[a, b], w, v, ?_, ?_, ?_⟩
  · simp only [eval, joinEnv, List.getElem?_cons_zero, List.getElem?_cons_succ, Res.bind, if_true, h2, ArR.res]
  · simp only [eval, rowEnv, List.getElem?_cons_zero, List.getElem?_cons_succ, Res.bind, Bool.false_eq_true, if_false, h1, ArR.res]
  · exact h3

end Verif.Sql

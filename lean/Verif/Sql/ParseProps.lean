import Verif.Sql.ParseSpec
import Verif.Sql.ExprProps2

/-!
# C124: an expression means what SQL says, and its value has the type the parser gives it
-/

namespace Verif.Sql

open Verif.Wire Verif.Bytes

theorem bind_ok {α β : Type} {r : PR α} {k : α → PR β} {y : β} (h : r.bind k = .ok y) : ∃ x, r = .ok x ∧ k x = .ok y := by
  cases r with
  | ok x => exact ⟨x, rfl, h⟩
  | err => cases h
  | out => cases h

theorem res_bind_ok {r : Res} {k : Value → Res} {y : Value} (h : r.bind k = .ok y) : ∃ x, r = .ok x ∧ k x = .ok y := by
  cases r with
  | ok x => exact ⟨x, rfl, h⟩
  | _ => cases h

theorem rep_null {t : Nat} {v : Value} (h : isNull v = true) : Rep t .null v := h

theorem rep_20 {s : SV} {v : Value} (h : Rep 20 s v) : s = .null := by
  cases s with
  | null => rfl
  | int i => exact absurd h.1.2.1 (by decide)
  | bool b => exact absurd h.1 (by decide)
  | str b => exact absurd h.1 (by decide)

theorem int_null {t : Nat} {i : Int} : isNull (intVal t i) = false := by
  unfold intVal isNull newTyped
  dsimp only [val]
  split <;> rename_i h <;> split at h <;> simp_all

theorem rep_isNull {t : Nat} {s : SV} {v : Value} (h : Rep t s v) : isNull v = true ↔ s = .null := by
  cases s with
  | null => exact ⟨fun _ => rfl, fun _ => h⟩
  | int i => rw [h.2, int_null]; simp
  | bool b => rw [h.2]; simp [isNull, new, newTyped, val]
  | str b => rw [h.2]; simp [isNull, new, newTyped, val]

/-- A type of the family, or the type of NULL. -/
def InFam (t : Nat) (f : Fam) : Prop := t = 20 ∨ famOf t = some f

theorem fam_num {t : Nat} (h : famOf t = some .num) : 1 ≤ t ∧ t ≤ 4 := by
  unfold famOf at h; split at h <;> simp_all
theorem fam_bool {t : Nat} (h : famOf t = some .bool) : t = 0 := by
  unfold famOf at h; split at h <;> simp_all
theorem fam_str {t : Nat} (h : famOf t = some .str) : t = 11 := by
  unfold famOf at h; split at h <;> simp_all
theorem fam_of_num {t : Nat} (h : 1 ≤ t ∧ t ≤ 4) : famOf t = some .num := by
  have : t = 1 ∨ t = 2 ∨ t = 3 ∨ t = 4 := by omega
  rcases this with rfl | rfl | rfl | rfl <;> rfl

/-- Two types of one family are the same, or both are integer types. -/
theorem fam_comparable {s t : Nat} {f : Fam} (hs : famOf s = some f) (ht : famOf t = some f) : comparable s t = true := by
  cases f with
  | num => have := fam_num hs; have := fam_num ht; simp [comparable, numeric]; omega
  | bool => rw [fam_bool hs, fam_bool ht]; rfl
  | str => rw [fam_str hs, fam_str ht]; rfl

/-- The truth value of a tri, as a value of SQL. -/
def Tri.sv : Tri → SV
  | .t => .bool true
  | .f => .bool false
  | .n => .null

theorem rep_tri (x : Tri) : Rep 0 x.sv (ofTri x) := by cases x <;> simp [Rep, Tri.sv, ofTri, new, newTyped, isNull, val]

theorem rep_tri_inv {s : SV} {v : Value} (h : Rep 0 s v) : ∃ x : Tri, s = x.sv ∧ boolAsTri v = x ∧ truth v = some x := by
  cases s with
  | null =>
    refine ⟨.n, rfl, ?_⟩
    have h : isNull v = true := h
    unfold isNull at h
    split at h
    · rename_i hv; simp [boolAsTri, truth, hv]
    · cases h
  | int i => exact absurd h.1.1 (by decide)
  | bool b =>
    rw [h.2]
    cases b
    · exact ⟨.f, rfl, rfl, rfl⟩
    · exact ⟨.t, rfl, rfl, rfl⟩
  | str b => exact absurd h.1 (by decide)

theorem sv_of (b : Bool) : (Tri.of b).sv = .bool b := by cases b <;> rfl

/-! ## Comparisons -/

theorem lex_atoms (s t : List Byte) : lexCmp (s.map fun b => (b.val : Int)) (t.map fun b => (b.val : Int)) =
    if before s t then .lt else if s = t then .eq else .gt := by
  induction s generalizing t with
  | nil => cases t <;> simp [lexCmp, before]
  | cons a s ih =>
    cases t with
    | nil => simp [lexCmp, before]
    | cons b t =>
      simp only [List.map_cons, lexCmp, before, List.cons.injEq]
      by_cases h : a = b
      · subst h
        simp [ih, Int.compare_eq_eq]
      · have hv : a.val ≠ b.val := fun e => h (Fin.ext e)
        rw [if_neg h]
        by_cases hl : a.val < b.val
        · rw [Int.compare_eq_lt.2 (by omega)]; simp [hl]
        · rw [Int.compare_eq_gt.2 (by omega)]; simp [hl, h]

theorem before_irrefl (s : List Byte) : before s s = false := by
  induction s with
  | nil => rfl
  | cons a s ih => simpa [before] using ih

theorem before_swap (s t : List Byte) : before t s = (!before s t && !decide (s = t)) := by
  induction s generalizing t with
  | nil => cases t <;> simp [before]
  | cons a s ih =>
    cases t with
    | nil => simp [before]
    | cons b t =>
      by_cases h : a = b
      · subst h; simp [before, ih]
      · have hv : a.val ≠ b.val := fun e => h (Fin.ext e)
        simp only [before, if_neg h, if_neg (Ne.symm h), List.cons.injEq, h, false_and, decide_false, Bool.not_false, Bool.and_true]
        by_cases hl : a.val < b.val
        · simp [hl]; omega
        · simp [hl]; omega

theorem bytes_inj {s t : List Byte} (h : s.map (fun b => (b.val : Int)) = t.map fun b => (b.val : Int)) : s = t := by
  have e := lex_atoms s t
  rw [h, lex_atoms t t, before_irrefl] at e
  simp only [Bool.false_eq_true, if_false, if_true] at e
  split at e
  · cases e
  · split at e
    · assumption
    · cases e

theorem str_compare (op : CmpOp) (s t : List Byte) : compareOp op (new (.varLen s)) (new (.varLen t)) = .of (op.onStr s t) := by
  have e := lex_atoms s t
  have b := before_swap s t
  have hv : (s.map (fun b => (b.val : Int)) == t.map fun b => (b.val : Int)) = decide (s = t) := by
    rw [Bool.eq_iff_iff]
    simp only [beq_iff_eq, decide_eq_true_eq]
    exact ⟨bytes_inj, fun h => by rw [h]⟩
  have hi : before s t = true → s ≠ t := fun h e => by rw [e, before_irrefl] at h; cases h
  have hq : valEq (.varLen s) (.varLen t) = decide (s = t) := by
    show (tag (.varLen s) == tag (.varLen t) && (s.map (fun b => (b.val : Int)) == t.map fun b => (b.val : Int))) = _
    rw [hv]; rfl
  have hc : valCmp (.varLen s) (.varLen t) = some (if before s t then .lt else if s = t then .eq else .gt) := by
    rw [← e]; rfl
  have h0 : compareOp op (new (.varLen s)) (new (.varLen t)) = sameType op (new (.varLen s)) (new (.varLen t)) := by
    cases op <;> rfl
  rw [h0]
  unfold sameType
  simp only [new, newTyped, ty, val, tag, hq, hc]
  cases op <;> simp only [ne_eq, not_true_eq_false, if_false, CmpOp.onStr, CmpOp.holds, b] <;> by_cases hb : before s t = true <;> by_cases he : s = t <;>
    simp_all [Tri.of]

theorem bool_compare (op : CmpOp) (a b : Bool) : compareOp op (new (.boolean a)) (new (.boolean b)) = .of (op.rel (if a then 1 else 0) (if b then 1 else 0)) := by
  cases op <;> cases a <;> cases b <;> decide +kernel

theorem comparison_null (op : CmpOp) {v w : Value} (h : isNull v = true ∨ isNull w = true) : comparison op v w = .ok (ofTri .n) := by
  unfold comparison
  rw [if_pos (by rcases h with h | h <;> simp [h])]

theorem infam_int {t : Nat} {f : Fam} {i : Int} (h : InFam t f) (hi : Fits t i) : f = .num := by
  rcases h with rfl | h
  · exact absurd hi.2.1 (by decide)
  · rw [fam_of_num ⟨hi.1, hi.2.1⟩] at h; exact (Option.some.inj h).symm

theorem infam_rep {t : Nat} {f : Fam} {s : SV} {v : Value} (h : InFam t f) (r : Rep t s v) :
    s = .null ∨ (f = .num ∧ ∃ i, s = .int i) ∨ (f = .bool ∧ ∃ b, s = .bool b) ∨ (f = .str ∧ ∃ b, s = .str b) := by
  cases s with
  | null => exact .inl rfl
  | int i => exact .inr (.inl ⟨infam_int h r.1, i, rfl⟩)
  | bool b =>
    rcases h with rfl | h
    · exact absurd r.1 (by decide)
    · rw [r.1] at h; exact .inr (.inr (.inl ⟨(Option.some.inj h).symm, b, rfl⟩))
  | str b =>
    rcases h with rfl | h
    · exact absurd r.1 (by decide)
    · rw [r.1] at h; exact .inr (.inr (.inr ⟨(Option.some.inj h).symm, b, rfl⟩))

/-- Comparing values of one family is SQL's comparison. -/
theorem cmp_rep (op : CmpOp) {s t : Nat} {f : Fam} {x y : SV} {v w : Value} (hs : InFam s f) (ht : InFam t f) (hx : Rep s x v) (hy : Rep t y w) :
    ∃ u : Tri, x.cmp op y = some u.sv ∧ comparison op v w = .ok (ofTri u) := by
  by_cases nx : x = .null
  · subst nx; exact ⟨.n, rfl, comparison_null op (.inl hx)⟩
  by_cases ny : y = .null
  · subst ny
    refine ⟨.n, ?_, comparison_null op (.inr hy)⟩
    cases x <;> rfl
  rcases infam_rep hs hx with h | ⟨hf, i, rfl⟩ | ⟨hf, i, rfl⟩ | ⟨hf, i, rfl⟩
  · exact absurd h nx
  all_goals
    rcases infam_rep ht hy with h | ⟨hg, j, rfl⟩ | ⟨hg, j, rfl⟩ | ⟨hg, j, rfl⟩
  · exact absurd h ny
  · rw [hx.2, hy.2]
    exact ⟨_, by rw [sv_of]; rfl, C69_int op hx.1 hy.1⟩
  · rw [hf] at hg; cases hg
  · rw [hf] at hg; cases hg
  · exact absurd h ny
  · rw [hf] at hg; cases hg
  · rw [hx.2, hy.2]
    exact ⟨_, by rw [sv_of]; rfl, congrArg (fun u => Res.ok (ofTri u)) (bool_compare op i j)⟩
  · rw [hf] at hg; cases hg
  · exact absurd h ny
  · rw [hf] at hg; cases hg
  · rw [hf] at hg; cases hg
  · rw [hx.2, hy.2]
    exact ⟨_, by rw [sv_of]; rfl, congrArg (fun u => Res.ok (ofTri u)) (str_compare op i j)⟩

/-- Membership tests use the comparison without the casts: for one family it is the same. -/
theorem eq_rep {s t : Nat} {f : Fam} {x y : SV} {v w : Value} (hs : InFam s f) (ht : InFam t f) (hx : Rep s x v) (hy : Rep t y w) :
    x.cmp .eq y = some (compareOp .eq v w).sv := by
  by_cases nx : x = .null
  · subst nx; rw [C38_null_compare .eq (.inl hx)]; rfl
  by_cases ny : y = .null
  · subst ny
    rw [C38_null_compare .eq (.inr hy)]
    cases x <;> rfl
  rcases infam_rep hs hx with h | ⟨hf, i, rfl⟩ | ⟨hf, i, rfl⟩ | ⟨hf, i, rfl⟩
  · exact absurd h nx
  all_goals
    rcases infam_rep ht hy with h | ⟨hg, j, rfl⟩ | ⟨hg, j, rfl⟩ | ⟨hg, j, rfl⟩
  · exact absurd h ny
  · rw [hx.2, hy.2]
    have isInt : ∀ {s : Nat} {i : Int}, Fits s i → IsInt (intVal s i) i := by
      intro s i h
      rcases fits_cases h with ⟨rfl, _⟩ | ⟨rfl, _⟩ | ⟨rfl, _⟩ | ⟨rfl, _⟩
      · exact .inl rfl
      · exact .inr (.inl rfl)
      · exact .inr (.inr (.inl rfl))
      · exact .inr (.inr (.inr rfl))
    rw [C38_int_compare .eq (isInt hx.1) (isInt hy.1), sv_of]; rfl
  · rw [hf] at hg; cases hg
  · rw [hf] at hg; cases hg
  · exact absurd h ny
  · rw [hf] at hg; cases hg
  · rw [hx.2, hy.2, bool_compare, sv_of]; rfl
  · rw [hf] at hg; cases hg
  · exact absurd h ny
  · rw [hf] at hg; cases hg
  · rw [hf] at hg; cases hg
  · rw [hx.2, hy.2, str_compare, sv_of]; rfl

/-! ## Types -/

theorem number_lit {n : Nat} {v : Value} (h : numberLit n = some (.lit v)) : ∃ t, Fits t n ∧ v = intVal t n ∧ ty v = t ∧
    t = if n < 2 ^ 7 then 1 else if n < 2 ^ 15 then 2 else if n < 2 ^ 31 then 3 else 4 := by
  unfold numberLit at h
  split at h
  · rename_i h1
    simp only [hi] at h1
    cases h
    refine ⟨1, ⟨by decide, by decide, by simp only [lo]; omega, h1⟩, rfl, rfl, ?_⟩
    rw [if_pos (by omega)]
  split at h
  · rename_i h1 h2
    simp only [hi] at h1 h2
    cases h
    refine ⟨2, ⟨by decide, by decide, by simp only [lo]; omega, h2⟩, rfl, rfl, ?_⟩
    rw [if_neg (by omega), if_pos (by omega)]
  split at h
  · rename_i h1 h2 h3
    simp only [hi] at h1 h2 h3
    cases h
    refine ⟨3, ⟨by decide, by decide, by simp only [lo]; omega, h3⟩, rfl, rfl, ?_⟩
    rw [if_neg (by omega), if_neg (by omega), if_pos (by omega)]
  split at h
  · rename_i h1 h2 h3 h4
    simp only [hi] at h1 h2 h3 h4
    cases h
    refine ⟨4, ⟨by decide, by decide, by simp only [lo]; omega, h4⟩, rfl, rfl, ?_⟩
    rw [if_neg (by omega), if_neg (by omega), if_neg (by omega)]
  · cases h

theorem parse_num {ts : List Nat} {n : Nat} {e : Expr} {t : Nat} (h : parse ts (.num n) = .ok (e, t)) : e = .lit (intVal t n) ∧ Fits t n ∧ t = exprTy ts (.num n) := by
  simp only [parse] at h
  split at h
  · rename_i v hv
    obtain ⟨u, hu, rfl, ht, e⟩ := number_lit hv
    cases h
    rw [ht]
    exact ⟨rfl, hu, e⟩
  · cases h

theorem parse_cmp_ok {op : CmpOp} {a b x : Expr × Nat} (h : parseCmp op a b = .ok x) : ∃ a' b', x = (.cmp op a' b', 0) ∧
    ((a' = a.1 ∧ b' = b.1 ∧ comparable a.2 b.2 = true) ∨
     (a' = a.1 ∧ ∃ v w, b.1 = .lit v ∧ castTo v a.2 = .ok w ∧ b' = .lit w ∧ comparable a.2 b.2 = false) ∨
     (b' = b.1 ∧ ∃ v w, a.1 = .lit v ∧ castTo v b.2 = .ok w ∧ a' = .lit w ∧ comparable a.2 b.2 = false)) := by
  have hc : ∀ {v : Value} {t : Nat} {e : Expr}, castLit v t = .ok e → ∃ w, castTo v t = .ok w ∧ e = .lit w := by
    intro v t e h
    unfold castLit at h
    split at h
    · rename_i w hw; cases h; exact ⟨w, hw, rfl⟩
    · cases h
    · cases h
  unfold parseCmp at h
  split at h
  · rename_i hq; cases h; exact ⟨_, _, rfl, .inl ⟨rfl, rfl, hq⟩⟩
  · rename_i hq
    split at h
    · rename_i v hv
      obtain ⟨b', hb, he⟩ := bind_ok h
      obtain ⟨w, hw, rfl⟩ := hc hb
      cases he
      exact ⟨_, _, rfl, .inr (.inl ⟨rfl, v, w, hv, hw, rfl, by simpa using hq⟩)⟩
    · split at h
      · rename_i v hv
        obtain ⟨b', hb, he⟩ := bind_ok h
        obtain ⟨w, hw, rfl⟩ := hc hb
        cases he
        exact ⟨_, _, rfl, .inr (.inr ⟨rfl, v, w, hv, hw, rfl, by simpa using hq⟩)⟩
      · cases h

theorem case_ty {t u : Nat} {ts : List Nat} (h : caseTy (t :: ts) = some u) : u = t ∧ ∀ s ∈ ts, s = t := by
  simp only [caseTy] at h
  split at h
  · rename_i ha
    cases h
    refine ⟨rfl, fun s hs => by simpa using List.all_eq_true.1 ha s hs⟩
  · cases h

theorem parse_case {ts : List Nat} {arms : AstArms} {e : Expr} {u : Nat} (h : parse ts (.caseWhen arms) = .ok (e, u)) :
    ∃ c t rest c' t' rest' us, arms = .when c t rest ∧ parse ts c = .ok c' ∧ parse ts t = .ok (t', u) ∧ parseArms ts rest = .ok (rest', us) ∧
      e = .caseWhen (.when c'.1 t' rest') ∧ ∀ s ∈ us, s = u := by
  simp only [parse] at h
  obtain ⟨⟨as, us⟩, ha, hk⟩ := bind_ok h
  cases arms with
  | fin => simp only [parseArms] at ha; cases ha; cases hk
  | els a =>
    simp only [parseArms] at ha
    obtain ⟨x, _, hx⟩ := bind_ok ha
    cases hx; cases hk
  | when c t rest =>
    simp only [parseArms] at ha
    obtain ⟨x, hx, ha⟩ := bind_ok ha
    obtain ⟨y, hy, ha⟩ := bind_ok ha
    obtain ⟨⟨z, zs⟩, hz, ha⟩ := bind_ok ha
    cases ha
    dsimp only at hk
    cases h2 : caseTy (y.2 :: zs) with
    | none => rw [h2] at hk; cases hk
    | some u' =>
      rw [h2] at hk
      cases hk
      obtain ⟨e1, e2⟩ := case_ty h2
      subst e1
      exact ⟨c, t, rest, x, y.1, z, zs, rfl, hx, hy, hz, rfl, e2⟩

/-- The type is one of the family, and is that of the specification. -/
theorem parse_ty (ts : List Nat) : ∀ (a : Ast) {f : Fam} {e : Expr} {t : Nat}, WT ts a f → parse ts a = .ok (e, t) → InFam t f ∧ t = exprTy ts a
  | .col i, f, e, t, hw, h => by
    obtain ⟨u, hu, hf⟩ := hw
    simp only [parse, hu] at h
    cases h
    refine ⟨.inr hf, ?_⟩
    simp only [exprTy, hu]; rfl
  | .num n, f, e, t, hw, h => by
    obtain ⟨_, h1, h2⟩ := parse_num h
    have hw : f = .num := hw
    rw [hw]
    exact ⟨.inr (fam_of_num ⟨h1.1, h1.2.1⟩), h2⟩
  | .str s, f, e, t, hw, h => by
    have hw : f = .str := hw
    simp only [parse] at h
    cases h; rw [hw]; exact ⟨.inr rfl, by simp [exprTy]⟩
  | .bool b, f, e, t, hw, h => by
    have hw : f = .bool := hw
    simp only [parse] at h
    cases h; rw [hw]; exact ⟨.inr rfl, by simp [exprTy]⟩
  | .null, f, e, t, hw, h => by
    simp only [parse] at h
    cases h; exact ⟨.inl rfl, by simp [exprTy]⟩
  | .arith op a b, f, e, t, hw, h => by
    obtain ⟨rfl, ha, hb⟩ := hw
    simp only [parse] at h
    obtain ⟨x, hx, h⟩ := bind_ok h
    obtain ⟨y, hy, h⟩ := bind_ok h
    split at h
    · rename_i hn
      cases h
      obtain ⟨fx, ex⟩ := parse_ty ts a ha hx
      obtain ⟨fy, ey⟩ := parse_ty ts b hb hy
      have hn : numeric x.2 = true ∧ numeric y.2 = true := by simpa using hn
      have nx : 1 ≤ x.2 ∧ x.2 ≤ 4 := by
        rcases fx with e | e
        · rw [e] at hn; exact absurd hn.1 (by decide)
        · exact fam_num e
      have ny : 1 ≤ y.2 ∧ y.2 ≤ 4 := by
        rcases fy with e | e
        · rw [e] at hn; exact absurd hn.2 (by decide)
        · exact fam_num e
      rw [arithTy, if_pos ⟨nx.2, ny.2⟩]
      refine ⟨.inr (fam_of_num (by omega)), ?_⟩
      simp only [exprTy, ← ex, ← ey]
    · cases h
  | .concat a b, f, e, t, hw, h => by
    obtain ⟨rfl, ha, hb⟩ := hw
    simp only [parse] at h
    obtain ⟨x, hx, h⟩ := bind_ok h
    obtain ⟨y, hy, h⟩ := bind_ok h
    split at h
    · cases h; exact ⟨.inr rfl, by simp [exprTy]⟩
    · cases h
  | .cmp op a b, f, e, t, hw, h => by
    obtain ⟨rfl, _⟩ := hw
    simp only [parse] at h
    obtain ⟨x, hx, h⟩ := bind_ok h
    obtain ⟨y, hy, h⟩ := bind_ok h
    obtain ⟨a', b', he, _⟩ := parse_cmp_ok h
    cases he
    exact ⟨.inr rfl, by simp [exprTy]⟩
  | .and a b, f, e, t, hw, h => by
    obtain ⟨rfl, _⟩ := hw
    simp only [parse] at h
    obtain ⟨x, hx, h⟩ := bind_ok h
    obtain ⟨y, hy, h⟩ := bind_ok h
    split at h
    · cases h; exact ⟨.inr rfl, by simp [exprTy]⟩
    · cases h
  | .or a b, f, e, t, hw, h => by
    obtain ⟨rfl, _⟩ := hw
    simp only [parse] at h
    obtain ⟨x, hx, h⟩ := bind_ok h
    obtain ⟨y, hy, h⟩ := bind_ok h
    split at h
    · cases h; exact ⟨.inr rfl, by simp [exprTy]⟩
    · cases h
  | .not a, f, e, t, hw, h => by
    obtain ⟨rfl, _⟩ := hw
    simp only [parse] at h
    obtain ⟨x, hx, h⟩ := bind_ok h
    split at h
    · cases h; exact ⟨.inr rfl, by simp [exprTy]⟩
    · cases h
  | .neg a, f, e, t, hw, h => by
    obtain ⟨rfl, ha⟩ := hw
    simp only [parse] at h
    obtain ⟨x, hx, h⟩ := bind_ok h
    obtain ⟨fx, ex⟩ := parse_ty ts a ha hx
    split at h
    · rename_i hq
      cases h; exact ⟨.inr rfl, by simp [exprTy, ← ex, hq]⟩
    · rename_i hq
      split at h
      · cases h
        refine ⟨fx, ?_⟩
        simp only [exprTy, ← ex, if_neg hq]
      · cases h
  | .is c n a, f, e, t, hw, h => by
    obtain ⟨rfl, _⟩ := hw
    simp only [parse] at h
    obtain ⟨x, hx, h⟩ := bind_ok h
    cases h; exact ⟨.inr rfl, by simp [exprTy]⟩
  | .between n a l u, f, e, t, hw, h => by
    obtain ⟨rfl, _⟩ := hw
    simp only [parse] at h
    obtain ⟨x, hx, h⟩ := bind_ok h
    obtain ⟨y, hy, h⟩ := bind_ok h
    obtain ⟨z, hz, h⟩ := bind_ok h
    cases h; exact ⟨.inr rfl, by simp [exprTy]⟩
  | .inList n a items, f, e, t, hw, h => by
    obtain ⟨rfl, _⟩ := hw
    simp only [parse] at h
    obtain ⟨x, hx, h⟩ := bind_ok h
    obtain ⟨y, hy, h⟩ := bind_ok h
    cases h; exact ⟨.inr rfl, by simp [exprTy]⟩
  | .caseWhen .fin, f, e, t, hw, h => by obtain ⟨_, _, _, _, _, _, _, e, _⟩ := parse_case h; cases e
  | .caseWhen (.els _), f, e, t, hw, h => by obtain ⟨_, _, _, _, _, _, _, e, _⟩ := parse_case h; cases e
  | .caseWhen (.when c r rest), f, e, t, hw, h => by
    obtain ⟨c1, t1, rest1, c', t', rest', us, e1, hc, ht, hr, he, hu⟩ := parse_case h
    cases e1
    obtain ⟨_, ht', _⟩ := hw
    obtain ⟨f1, e1⟩ := parse_ty ts r ht' ht
    exact ⟨f1, e1⟩

/-! ## Values -/

theorem sv_and (x y : Tri) : x.sv.and y.sv = some (performAnd x y).sv := by cases x <;> cases y <;> rfl
theorem sv_or (x y : Tri) : x.sv.or y.sv = some (performOr x y).sv := by cases x <;> cases y <;> rfl
theorem sv_not (x : Tri) : x.sv.not = some x.opp.sv := by cases x <;> rfl

theorem cmp_lt (x y : SV) : x.cmp .lt y = (x.cmp .ge y).bind SV.not := by
  cases x <;> cases y <;> simp only [SV.cmp, Option.bind, SV.not]
  · rename_i i j
    simp only [CmpOp.rel, ge_iff_le, gt_iff_lt, Option.some.injEq, SV.bool.injEq]
    by_cases h : j ≤ i <;> simp [h] <;> omega
  · rename_i a b; cases a <;> cases b <;> rfl
  · rename_i s t
    simp only [CmpOp.onStr, before_swap s t]
    have hi : before s t = true → s ≠ t := fun h e => by rw [e, before_irrefl] at h; cases h
    by_cases hb : before s t = true <;> by_cases he : s = t <;> simp_all

theorem cmp_gt (x y : SV) : x.cmp .gt y = (x.cmp .le y).bind SV.not := by
  cases x <;> cases y <;> simp only [SV.cmp, Option.bind, SV.not]
  · rename_i i j
    simp only [CmpOp.rel, ge_iff_le, gt_iff_lt, Option.some.injEq, SV.bool.injEq]
    by_cases h : i ≤ j <;> simp [h] <;> omega
  · rename_i a b; cases a <;> cases b <;> rfl
  · rename_i s t
    simp only [CmpOp.onStr, before_swap s t]
    by_cases hb : before s t = true <;> by_cases he : s = t <;> simp_all

/-- The items of an IN list are the values of its literals. -/
theorem items_rep (ts : List Nat) (row : List SV) {f : Fam} {s : Nat} {x : SV} {v : Value} (hs : InFam s f) (hx : Rep s x v) : ∀ (as : Asts) {es : List Expr}, WTs ts as f →
    AllLits as → parseItems ts as = .ok es →
    ∃ ws : List Value, es = ws.map .lit ∧ (ws = [] ↔ as = .nil) ∧ denIn row x as = some (orAll (ws.map (compareOp .eq v))).sv
  | .nil, es, _, _, h => by
    simp only [parseItems] at h
    cases h
    exact ⟨[], rfl, ⟨fun _ => rfl, fun _ => rfl⟩, rfl⟩
  | .cons a as, es, hw, hl, h => by
    simp only [parseItems] at h
    obtain ⟨⟨e, t⟩, he, h⟩ := bind_ok h
    obtain ⟨es', hes, h⟩ := bind_ok h
    cases h
    obtain ⟨ws, rfl, _, hd⟩ := items_rep ts row hs hx as hw.2 hl.2 hes
    obtain ⟨ht, -⟩ := parse_ty ts a hw.1 he
    have key : ∃ w y, e = .lit w ∧ den row a = some y ∧ Rep t y w := by
      have hla := hl.1
      cases a <;> simp only [Ast.isLit, Bool.false_eq_true] at hla
      · rename_i n
        obtain ⟨h1, h2, _⟩ := parse_num he
        exact ⟨_, .int n, h1, by simp [den], h2, rfl⟩
      · rename_i s'
        simp only [parse] at he; cases he
        exact ⟨_, .str s', rfl, by simp [den], rfl, rfl⟩
      · rename_i b
        simp only [parse] at he; cases he
        exact ⟨_, .bool b, rfl, by simp [den], rfl, rfl⟩
      · simp only [parse] at he; cases he
        exact ⟨_, .null, rfl, by simp [den], rfl⟩
    obtain ⟨w, y, rfl, hy, ry⟩ := key
    refine ⟨w :: ws, rfl, by simp, ?_⟩
    have hq := eq_rep hs ht hx ry
    simp only [denIn, hy, hd, hq, Option.bind_some, sv_or, or_max]
    rfl

theorem rep_typed {t : Nat} {s : SV} {v : Value} (h : Rep t s v) : Typed v ∧ Int32 v ∧ (s ≠ .null → ty v = t) := by
  cases s with
  | null =>
    have h : isNull v = true := h
    refine ⟨.inl h, ?_, fun h => absurd rfl h⟩
    intro i hi; unfold isNull at h; rw [hi] at h; cases h
  | int i =>
    obtain ⟨hf, rfl⟩ := h
    rcases fits_cases hf with ⟨rfl, h⟩ | ⟨rfl, h⟩ | ⟨rfl, h⟩ | ⟨rfl, h⟩
    · exact ⟨.inr rfl, fun k hk => (by cases hk), fun _ => rfl⟩
    · exact ⟨.inr rfl, fun k hk => (by cases hk), fun _ => rfl⟩
    · exact ⟨.inr rfl, fun k hk => (by cases hk; exact ⟨hf.2.2.1, hf.2.2.2⟩), fun _ => rfl⟩
    · exact ⟨.inr rfl, fun k hk => (by cases hk), fun _ => rfl⟩
  | bool b => obtain ⟨rfl, rfl⟩ := h; exact ⟨.inr rfl, fun k hk => (by cases hk), fun _ => rfl⟩
  | str b => obtain ⟨rfl, rfl⟩ := h; exact ⟨.inr rfl, fun k hk => (by cases hk), fun _ => rfl⟩

theorem in_rep (ts : List Nat) (row : List SV) {f : Fam} {s : Nat} {x : SV} {v : Value} (hs : InFam s f) (hx : Rep s x v) {as : Asts} {es : List Expr} (hw : WTs ts as f)
    (hn : as ≠ .nil) (hl : AllLits as) (h : parseItems ts as = .ok es) :
    denIn row x as = some (inCheck v (es.map (inItem s))).sv := by
  obtain ⟨ws, rfl, hnil, hd⟩ := items_rep ts row hs hx as hw hl h
  rw [hd]
  obtain ⟨h1, h2, h3⟩ := rep_typed hx
  have hne : ws ≠ [] := fun e => hn (hnil.1 e)
  rw [inCheck_or h1 h2 (.inl (by simpa using hne))]
  congr 3
  simp only [List.map_map]
  apply List.map_congr_left
  intro w _
  show _ = compareOp .eq v (convIn s w)
  by_cases nx : x = .null
  · subst nx; rw [C38_null_compare .eq (.inl hx), C38_null_compare .eq (.inl hx)]
  · rw [← h3 nx, conv_eq h1 _ h2]
    have := rep_isNull hx
    cases hq : isNull v
    · rfl
    · exact absurd (this.1 hq) nx

theorem fits_neg {t : Nat} {i : Int} (h : Fits t i) (hn : -i ≤ hi t) : Fits t (-i) := by
  refine ⟨h.1, h.2.1, ?_, hn⟩
  rcases fits_cases h with ⟨rfl, h⟩ | ⟨rfl, h⟩ | ⟨rfl, h⟩ | ⟨rfl, h⟩ <;> simp only [lo, hi] at * <;> omega

/-- `-` on a value that is a number or NULL. -/
theorem negate_rep {s : Nat} {x : SV} {v w : Value} (hs : InFam s .num) (hx : Rep s x v) :
    (negate v).res = .ok w ↔ ((x = .null ∧ w = new .null) ∨ ∃ i, x = .int i ∧ Fits s (-i) ∧ w = intVal s (-i)) := by
  rcases infam_rep hs hx with rfl | ⟨_, i, rfl⟩ | ⟨h, _⟩ | ⟨h, _⟩
  · have hx : isNull v = true := hx
    have : val v = .null := by unfold isNull at hx; split at hx; assumption; cases hx
    simp only [negate, this, PanicR.res]
    constructor
    · intro h; cases h; exact .inl ⟨trivial, rfl⟩
    · rintro (⟨_, rfl⟩ | ⟨i, h, _⟩)
      · rfl
      · cases h
  · obtain ⟨hf, rfl⟩ := hx
    constructor
    · intro h
      by_cases hn : -i ≤ hi s
      · have := fits_neg hf hn
        rw [C66_negate_partial hf this] at h
        cases h
        exact .inr ⟨i, rfl, this, rfl⟩
      · exfalso
        rcases fits_cases hf with ⟨rfl, _⟩ | ⟨rfl, _⟩ | ⟨rfl, _⟩ | ⟨rfl, _⟩ <;> simp only [negate, intVal, newTyped, val, if_neg hn, PanicR.res] at h <;> cases h
    · rintro (⟨h, _⟩ | ⟨j, h, hn, rfl⟩)
      · cases h
      · cases h
        rw [C66_negate_partial hf hn]; rfl
  · cases h
  · cases h

theorem arith_rep (op : ArOp) {s t : Nat} {x y : SV} {v w r : Value} (hs : InFam s .num) (ht : InFam t .num) (hx : Rep s x v) (hy : Rep t y w) :
    (arith op v w).res = .ok r ↔ ∃ i j k, x = .int i ∧ y = .int j ∧ op.math i j = some k ∧ Fits (max s t) k ∧ r = intVal (max s t) k := by
  have hn : isNull v = true ∨ isNull w = true → (arith op v w).res ≠ .ok r := by
    intro h e; rw [C66_null_fails op h] at e; cases e
  rcases infam_rep hs hx with rfl | ⟨_, i, rfl⟩ | ⟨h, _⟩ | ⟨h, _⟩
  · refine ⟨fun h => absurd h (hn (.inl hx)), ?_⟩
    rintro ⟨i, j, k, h, _⟩; cases h
  · rcases infam_rep ht hy with rfl | ⟨_, j, rfl⟩ | ⟨h, _⟩ | ⟨h, _⟩
    · refine ⟨fun h => absurd h (hn (.inr hy)), ?_⟩
      rintro ⟨i, j, k, _, h, _⟩; cases h
    · obtain ⟨hf, rfl⟩ := hx
      obtain ⟨hg, rfl⟩ := hy
      obtain ⟨h1, h2, h3⟩ := C66_exact op hf hg
      constructor
      · intro h
        cases hm : op.math i j with
        | none => rw [h3 hm] at h; cases h
        | some k =>
          by_cases fk : Fits (max s t) k
          · rw [h1 k hm fk] at h; cases h
            exact ⟨i, j, k, rfl, rfl, hm, fk, rfl⟩
          · rw [h2 k hm fk] at h; cases h
      · rintro ⟨i', j', k, e1, e2, hm, fk, rfl⟩
        cases e1; cases e2
        rw [h1 k hm fk]; rfl
    · cases h
    · cases h
  · cases h
  · cases h

theorem concat_rep {s t : Nat} {x y : SV} {v w r : Value} (hs : InFam s .str) (ht : InFam t .str) (hx : Rep s x v) (hy : Rep t y w) :
    concatValue v w = .ok r ↔ ∃ p q, x = .str p ∧ y = .str q ∧ r = new (.varLen (p ++ q)) := by
  have hnull : ∀ {v : Value}, isNull v = true → val v = .null := by
    intro v hv; unfold isNull at hv; split at hv; assumption; cases hv
  rcases infam_rep hs hx with rfl | ⟨h, _⟩ | ⟨h, _⟩ | ⟨_, p, rfl⟩
  · simp only [concatValue, hnull hx]
    constructor
    · intro h; cases h
    · rintro ⟨_, _, h, _⟩; cases h
  · cases h
  · cases h
  · rcases infam_rep ht hy with rfl | ⟨h, _⟩ | ⟨h, _⟩ | ⟨_, q, rfl⟩
    · obtain ⟨rfl, rfl⟩ := hx
      simp only [concatValue, hnull hy]
      constructor
      · intro h; cases h
      · rintro ⟨_, _, _, h, _⟩; cases h
    · cases h
    · cases h
    · obtain ⟨rfl, rfl⟩ := hx
      obtain ⟨rfl, rfl⟩ := hy
      constructor
      · intro h; cases h; exact ⟨p, q, rfl, rfl, rfl⟩
      · rintro ⟨p', q', h1, h2, rfl⟩; cases h1; cases h2; rfl

theorem is_rep (c : Check) (n : Bool) {s : Nat} {f : Fam} {x : SV} {v : Value} (hf : c ≠ .isNull → f = .bool) (hs : InFam s f) (hx : Rep s x v) :
    ∃ b, x.is c = some b ∧ isCheck c n v = .ok (new (.boolean (if n then !b else b))) := by
  have hnull : isNull v = true → val v = .null := by
    intro hv; unfold isNull at hv; split at hv; assumption; cases hv
  by_cases nx : x = .null
  · subst nx
    have hx : isNull v = true := hx
    cases c <;> simp only [SV.is, isCheck, hnull hx, hx] <;> cases n <;> simp
  · have hv : isNull v = false := by
      cases h : isNull v
      · rfl
      · exact absurd ((rep_isNull hx).1 h) nx
    by_cases hc : c = .isNull
    · subst hc
      simp only [SV.is, isCheck, hv]
      refine ⟨false, by simpa using nx, ?_⟩
      cases n <;> rfl
    · rcases infam_rep hs hx with h | ⟨h, _⟩ | ⟨_, b, rfl⟩ | ⟨h, _⟩
      · exact absurd h nx
      · rw [hf hc] at h; cases h
      · obtain ⟨rfl, rfl⟩ := hx
        cases c <;> simp only [SV.is, isCheck, new, newTyped, val, isNull] <;> cases n <;> cases b <;> simp at hc ⊢
      · rw [hf hc] at h; cases h

theorem row_at {ts : List Nat} {row : List SV} {vs : List Value} (hr : RowOf ts row vs) {i t : Nat} (h : ts[i]? = some t) :
    ∃ s v, row[i]? = some s ∧ vs[i]? = some v ∧ Rep t s v := by
  obtain ⟨h1, h2, h3⟩ := hr
  have hi : i < ts.length := by
    rcases Nat.lt_or_ge i ts.length with h' | h'
    · exact h'
    · rw [List.getElem?_eq_none h'] at h; cases h
  have e1 := List.getElem?_eq_getElem (l := row) (i := i) (by omega)
  have e2 := List.getElem?_eq_getElem (l := vs) (i := i) (by omega)
  exact ⟨_, _, e1, e2, h3 i t _ _ h e1 e2⟩

theorem rep_bool {s : SV} {v : Value} (h : Rep 0 s v) {m : Bool} (hv : val v = .boolean m) : s = .bool m := by
  cases s with
  | null => have h : isNull v = true := h; unfold isNull at h; rw [hv] at h; cases h
  | int i => exact absurd h.1.1 (by decide)
  | bool b => rw [h.2] at hv; cases hv; rfl
  | str b => exact absurd h.1 (by decide)

/-- The operands of a comparison, after the cast the parser may have applied. -/
theorem cmp_operands {op : CmpOp} {f : Fam} {a b x : Expr × Nat} (h : parseCmp op a b = .ok x) (ha : InFam a.2 f) (hb : InFam b.2 f) (ρ : Env) :
    ∃ a' b', x = (.cmp op a' b', 0) ∧
      (∀ {v w}, eval false ρ a' = .ok v → eval false ρ b' = .ok w → ∃ v' w', eval false ρ a.1 = .ok v' ∧ eval false ρ b.1 = .ok w' ∧
        ∀ {p q}, Rep a.2 p v' → Rep b.2 q w' → comparison op v w = comparison op v' w') ∧
      (∀ {v w}, eval false ρ a.1 = .ok v → eval false ρ b.1 = .ok w → ∃ v' w', eval false ρ a' = .ok v' ∧ eval false ρ b' = .ok w') := by
  obtain ⟨a', b', rfl, hk⟩ := parse_cmp_ok h
  clear h
  refine ⟨a', b', rfl, ?_⟩
  have nullcast : ∀ {v w : Value} {t : Nat}, isNull v = true → castTo v t = .ok w → isNull w = true := by
    intro v w t hv hc
    unfold castTo at hc
    split at hc
    · cases hc; exact hv
    · cases hc; rfl
  have one : comparable a.2 b.2 = false → a.2 = 20 ∨ b.2 = 20 := by
    intro hn
    rcases ha with ha | ha
    · exact .inl ha
    rcases hb with hb | hb
    · exact .inr hb
    rw [fam_comparable ha hb] at hn; cases hn
  rcases hk with ⟨rfl, rfl, _⟩ | ⟨rfl, u, w, hu, hc, rfl, hn⟩ | ⟨rfl, u, w, hu, hc, rfl, hn⟩
  · exact ⟨fun h1 h2 => ⟨_, _, h1, h2, fun _ _ => rfl⟩, fun h1 h2 => ⟨_, _, h1, h2⟩⟩
  · rw [hu]
    refine ⟨fun {v w'} h1 h2 => ?_, fun {v w'} h1 h2 => ⟨_, _, h1, rfl⟩⟩
    simp only [eval] at h2
    cases h2
    refine ⟨v, u, h1, rfl, fun {p q} hp hq => ?_⟩
    rcases one hn with e | e
    · rw [e] at hp
      have := rep_20 hp
      subst this
      rw [comparison_null op (.inl hp), comparison_null op (.inl hp)]
    · rw [e] at hq
      have := rep_20 hq
      subst this
      rw [comparison_null op (.inr hq), comparison_null op (.inr (nullcast hq hc))]
  · rw [hu]
    refine ⟨fun {v w'} h1 h2 => ?_, fun {v w'} h1 h2 => ⟨_, _, rfl, h2⟩⟩
    simp only [eval] at h1
    cases h1
    refine ⟨u, w', rfl, h2, fun {p q} hp hq => ?_⟩
    rcases one hn with e | e
    · rw [e] at hp
      have := rep_20 hp
      subst this
      rw [comparison_null op (.inl hp), comparison_null op (.inl (nullcast hp hc))]
    · rw [e] at hq
      have := rep_20 hq
      subst this
      rw [comparison_null op (.inr hq), comparison_null op (.inr hq)]

theorem between_rep (n : Bool) {s t u : Nat} {f : Fam} {x y z : SV} {v w k : Value} (hs : InFam s f) (ht : InFam t f) (hu : InFam u f) (hx : Rep s x v) (hy : Rep t y w)
    (hz : Rep u z k) {ρ : Env} {a l h : Expr} (ha : eval false ρ a = .ok v) (hl : eval false ρ l = .ok w) (hh : eval false ρ h = .ok k) :
    ∃ r : Tri, ((x.cmp .ge y).bind fun p => (x.cmp .le z).bind fun q => (p.and q).bind fun r => if n then r.not else some r) = some r.sv ∧
      eval false ρ (parseBetween n a l h) = .ok (ofTri r) := by
  have hb : ∀ u, boolAsTri (ofTri u) = u := by intro u; cases u <;> rfl
  cases n with
  | false =>
    obtain ⟨p, p1, p2⟩ := cmp_rep .ge hs ht hx hy
    obtain ⟨q, q1, q2⟩ := cmp_rep .le hs hu hx hz
    refine ⟨performAnd p q, ?_, ?_⟩
    · simp only [p1, q1, Option.bind_some, sv_and]; rfl
    · simp only [parseBetween, eval, ha, hl, hh, Res.bind, p2, q2, hb, Bool.false_eq_true, if_false]
  | true =>
    obtain ⟨p, p1, p2⟩ := cmp_rep .lt hs ht hx hy
    obtain ⟨q, q1, q2⟩ := cmp_rep .gt hs hu hx hz
    obtain ⟨p', p1', _⟩ := cmp_rep .ge hs ht hx hy
    obtain ⟨q', q1', _⟩ := cmp_rep .le hs hu hx hz
    have inj : ∀ {a b : Tri}, a.sv = b.sv → a = b := by intro a b; cases a <;> cases b <;> simp [Tri.sv]
    have e1 : p = p'.opp := inj (Option.some.inj (by rw [← p1, cmp_lt, p1', Option.bind_some, sv_not]))
    have e2 : q = q'.opp := inj (Option.some.inj (by rw [← q1, cmp_gt, q1', Option.bind_some, sv_not]))
    refine ⟨performOr p q, ?_, ?_⟩
    · simp only [p1', q1', Option.bind_some, sv_and, if_true, sv_not, e1, e2]
      cases p' <;> cases q' <;> rfl
    · simp only [parseBetween, eval, ha, hl, hh, Res.bind, p2, q2, hb, if_true]

mutual
theorem value_rep {ts : List Nat} {row : List SV} {vs : List Value} (hr : RowOf ts row vs) : ∀ (a : Ast) {f : Fam} {e : Expr} {t : Nat} {v : Value}, WT ts a f → LitItems a →
    parse ts a = .ok (e, t) → eval false (rowEnv vs) e = .ok v → (∃ s, den row a = some s ∧ Rep t s v) ∧ Safe ts row a
  | .col i, f, e, t, v, hw, hl, h, hv => by
    obtain ⟨u, hu, hf⟩ := hw
    obtain ⟨s, w, h1, h2, h3⟩ := row_at hr hu
    simp only [parse, hu] at h
    cases h
    simp only [eval, rowEnv, h2] at hv
    cases hv
    exact ⟨⟨s, by simpa only [den] using h1, h3⟩, by simp [Safe]⟩
  | .num n, f, e, t, v, hw, hl, h, hv => by
    obtain ⟨rfl, h1, _⟩ := parse_num h
    simp only [eval] at hv
    cases hv
    exact ⟨⟨.int n, by simp only [den], h1, rfl⟩, by simp [Safe]⟩
  | .str b, f, e, t, v, hw, hl, h, hv => by
    simp only [parse] at h; cases h
    simp only [eval] at hv; cases hv
    exact ⟨⟨.str b, by simp only [den], rfl, rfl⟩, by simp [Safe]⟩
  | .bool b, f, e, t, v, hw, hl, h, hv => by
    simp only [parse] at h; cases h
    simp only [eval] at hv; cases hv
    exact ⟨⟨.bool b, by simp only [den], rfl, rfl⟩, by simp [Safe]⟩
  | .null, f, e, t, v, hw, hl, h, hv => by
    simp only [parse] at h; cases h
    simp only [eval] at hv; cases hv
    exact ⟨⟨.null, by simp only [den], rfl⟩, by simp [Safe]⟩
  | .arith op a b, f, e, t, v, hw, hl, h, hv => by
    obtain ⟨rfl, ha, hb⟩ := hw
    simp only [parse] at h
    obtain ⟨x, hx, h⟩ := bind_ok h
    obtain ⟨y, hy, h⟩ := bind_ok h
    split at h
    · rename_i hn
      have hn : numeric x.2 = true ∧ numeric y.2 = true := by simpa using hn
      cases h
      simp only [eval, Bool.false_eq_true, if_false] at hv
      obtain ⟨p, hp, hv⟩ := res_bind_ok hv
      obtain ⟨q, hq, hv⟩ := res_bind_ok hv
      obtain ⟨⟨s1, d1, r1⟩, S1⟩ := value_rep hr a ha hl.1 hx hp
      obtain ⟨⟨s2, d2, r2⟩, S2⟩ := value_rep hr b hb hl.2 hy hq
      obtain ⟨f1, t1⟩ := parse_ty ts a ha hx
      obtain ⟨f2, t2⟩ := parse_ty ts b hb hy
      obtain ⟨i, j, k, rfl, rfl, hm, hk, rfl⟩ := (arith_rep op f1 f2 r1 r2).1 hv
      have e : arithTy x.2 y.2 = max x.2 y.2 := by
        rw [arithTy, if_pos ⟨r1.1.2.1, r2.1.2.1⟩]
      rw [e]
      refine ⟨⟨.int k, ?_, hk, rfl⟩, S1, S2, i, j, k, d1, d2, hm, by rw [← t1, ← t2]; exact hk⟩
      simp only [den, d1, d2, Option.bind_some, SV.arith, hm, Option.map_some]
    · cases h
  | .concat a b, f, e, t, v, hw, hl, h, hv => by
    obtain ⟨rfl, ha, hb⟩ := hw
    simp only [parse] at h
    obtain ⟨x, hx, h⟩ := bind_ok h
    obtain ⟨y, hy, h⟩ := bind_ok h
    split at h
    · cases h
      simp only [eval, Bool.false_eq_true, if_false] at hv
      obtain ⟨p, hp, hv⟩ := res_bind_ok hv
      obtain ⟨q, hq, hv⟩ := res_bind_ok hv
      obtain ⟨⟨s1, d1, r1⟩, S1⟩ := value_rep hr a ha hl.1 hx hp
      obtain ⟨⟨s2, d2, r2⟩, S2⟩ := value_rep hr b hb hl.2 hy hq
      obtain ⟨f1, t1⟩ := parse_ty ts a ha hx
      obtain ⟨f2, t2⟩ := parse_ty ts b hb hy
      obtain ⟨i, j, rfl, rfl, rfl⟩ := (concat_rep f1 f2 r1 r2).1 hv
      refine ⟨⟨.str (i ++ j), ?_, rfl, rfl⟩, S1, S2, i, j, d1, d2⟩
      simp only [den, d1, d2, Option.bind_some, SV.concat]
    · cases h
  | .cmp op a b, f, e, t, v, hw, hl, h, hv => by
    obtain ⟨rfl, g, ha, hb⟩ := hw
    simp only [parse] at h
    obtain ⟨x, hx, h⟩ := bind_ok h
    obtain ⟨y, hy, h⟩ := bind_ok h
    obtain ⟨f1, t1⟩ := parse_ty ts a ha hx
    obtain ⟨f2, t2⟩ := parse_ty ts b hb hy
    obtain ⟨a', b', he, hops, _⟩ := cmp_operands h f1 f2 (rowEnv vs)
    cases he
    simp only [eval] at hv
    obtain ⟨p, hp, hv⟩ := res_bind_ok hv
    obtain ⟨q, hq, hv⟩ := res_bind_ok hv
    obtain ⟨p', q', hp', hq', hc⟩ := hops hp hq
    obtain ⟨⟨s1, d1, r1⟩, S1⟩ := value_rep hr a ha hl.1 hx hp'
    obtain ⟨⟨s2, d2, r2⟩, S2⟩ := value_rep hr b hb hl.2 hy hq'
    rw [hc r1 r2] at hv
    obtain ⟨u, hu, hk⟩ := cmp_rep op f1 f2 r1 r2
    rw [hk] at hv
    cases hv
    refine ⟨⟨u.sv, ?_, rep_tri u⟩, S1, S2⟩
    simp only [den, d1, d2, Option.bind_some, hu]
  | .and a b, f, e, t, v, hw, hl, h, hv => by
    obtain ⟨rfl, ha, hb⟩ := hw
    simp only [parse] at h
    obtain ⟨x, hx, h⟩ := bind_ok h
    obtain ⟨y, hy, h⟩ := bind_ok h
    split at h
    · rename_i hn
      cases h
      simp only [eval] at hv
      obtain ⟨p, hp, hv⟩ := res_bind_ok hv
      obtain ⟨q, hq, hv⟩ := res_bind_ok hv
      obtain ⟨⟨s1, d1, r1⟩, S1⟩ := value_rep hr a ha hl.1 hx hp
      obtain ⟨⟨s2, d2, r2⟩, S2⟩ := value_rep hr b hb hl.2 hy hq
      rw [hn.1] at r1
      rw [hn.2] at r2
      obtain ⟨u, rfl, hu, _⟩ := rep_tri_inv r1
      obtain ⟨w, rfl, hw, _⟩ := rep_tri_inv r2
      cases hv
      rw [hu, hw]
      refine ⟨⟨_, ?_, rep_tri _⟩, S1, S2⟩
      simp only [den, d1, d2, Option.bind_some, sv_and]
    · cases h
  | .or a b, f, e, t, v, hw, hl, h, hv => by
    obtain ⟨rfl, ha, hb⟩ := hw
    simp only [parse] at h
    obtain ⟨x, hx, h⟩ := bind_ok h
    obtain ⟨y, hy, h⟩ := bind_ok h
    split at h
    · rename_i hn
      cases h
      simp only [eval] at hv
      obtain ⟨p, hp, hv⟩ := res_bind_ok hv
      obtain ⟨q, hq, hv⟩ := res_bind_ok hv
      obtain ⟨⟨s1, d1, r1⟩, S1⟩ := value_rep hr a ha hl.1 hx hp
      obtain ⟨⟨s2, d2, r2⟩, S2⟩ := value_rep hr b hb hl.2 hy hq
      rw [hn.1] at r1
      rw [hn.2] at r2
      obtain ⟨u, rfl, hu, _⟩ := rep_tri_inv r1
      obtain ⟨w, rfl, hw, _⟩ := rep_tri_inv r2
      cases hv
      rw [hu, hw]
      refine ⟨⟨_, ?_, rep_tri _⟩, S1, S2⟩
      simp only [den, d1, d2, Option.bind_some, sv_or]
    · cases h
  | .not a, f, e, t, v, hw, hl, h, hv => by
    obtain ⟨rfl, ha⟩ := hw
    simp only [parse] at h
    obtain ⟨x, hx, h⟩ := bind_ok h
    split at h
    · rename_i hn
      cases h
      simp only [eval] at hv
      obtain ⟨p, hp, hv⟩ := res_bind_ok hv
      obtain ⟨⟨s1, d1, r1⟩, S1⟩ := value_rep hr a ha hl hx hp
      have r1' : Rep 0 s1 p := by
        rcases hn with hn | hn
        · rwa [hn] at r1
        · rw [hn] at r1
          have := rep_20 r1
          subst this; exact r1
      obtain ⟨u, rfl, _, hu⟩ := rep_tri_inv r1'
      obtain ⟨w, hw, tw⟩ := not_opp hu
      rw [hw] at hv
      cases hv
      refine ⟨⟨u.opp.sv, ?_, ?_⟩, S1⟩
      · simp only [den, d1, Option.bind_some, sv_not]
      · unfold notValue at hw
        split at hw
        · rename_i h0
          cases hw
          have : u = .n := by
            unfold isNull at h0; unfold truth at hu; split at h0 <;> simp_all
          subst this; rfl
        · split at hw
          · rename_i b hb
            cases hw
            unfold truth at hu
            rw [hb] at hu
            cases b <;> cases hu <;> exact ⟨rfl, rfl⟩
          · cases hw
    · cases h
  | .neg a, f, e, t, v, hw, hl, h, hv => by
    obtain ⟨rfl, ha⟩ := hw
    simp only [parse] at h
    obtain ⟨x, hx, h⟩ := bind_ok h
    obtain ⟨f1, t1⟩ := parse_ty ts a ha hx
    have hev : e = .neg x.1 ∧ (x.2 = t ∨ x.2 = 20) := by
      split at h
      · rename_i hq; cases h; exact ⟨rfl, .inr hq⟩
      · split at h
        · cases h; exact ⟨rfl, .inl rfl⟩
        · cases h
    obtain ⟨rfl, ht⟩ := hev
    simp only [eval] at hv
    obtain ⟨p, hp, hv⟩ := res_bind_ok hv
    obtain ⟨⟨s1, d1, r1⟩, S1⟩ := value_rep hr a ha hl hx hp
    rcases (negate_rep f1 r1).1 hv with ⟨rfl, rfl⟩ | ⟨i, rfl, hf, rfl⟩
    · refine ⟨⟨.null, ?_, rfl⟩, S1, .inl d1⟩
      simp only [den, d1, Option.bind_some, SV.neg]
    · have : x.2 = t := by
        rcases ht with ht | ht
        · exact ht
        · rw [ht] at hf; exact absurd hf.2.1 (by decide)
      subst this
      refine ⟨⟨.int (-i), ?_, hf, rfl⟩, S1, .inr ⟨i, d1, by rw [← t1]; exact hf⟩⟩
      simp only [den, d1, Option.bind_some, SV.neg]
  | .is c n a, f, e, t, v, hw, hl, h, hv => by
    obtain ⟨rfl, g, hg, ha⟩ := hw
    simp only [parse] at h
    obtain ⟨x, hx, h⟩ := bind_ok h
    cases h
    simp only [eval] at hv
    obtain ⟨p, hp, hv⟩ := res_bind_ok hv
    obtain ⟨⟨s1, d1, r1⟩, S1⟩ := value_rep hr a ha hl hx hp
    obtain ⟨b, hb, hc⟩ := is_rep c n hg (parse_ty ts a ha hx).1 r1
    rw [hc] at hv
    cases hv
    refine ⟨⟨.bool (if n then !b else b), ?_, rfl, rfl⟩, S1⟩
    simp only [den, d1, Option.bind_some, hb, Option.map_some]
  | .between n a l u, f, e, t, v, hw, hl, h, hv => by
    obtain ⟨rfl, g, ha, hb, hc⟩ := hw
    simp only [parse] at h
    obtain ⟨x, hx, h⟩ := bind_ok h
    obtain ⟨y, hy, h⟩ := bind_ok h
    obtain ⟨z, hz, h⟩ := bind_ok h
    cases h
    have hev : ∃ p q k, eval false (rowEnv vs) x.1 = .ok p ∧ eval false (rowEnv vs) y.1 = .ok q ∧ eval false (rowEnv vs) z.1 = .ok k := by
      unfold parseBetween at hv
      split at hv <;> simp only [eval] at hv
      all_goals
        obtain ⟨_, h1, hv⟩ := res_bind_ok hv
        obtain ⟨_, h2, _⟩ := res_bind_ok hv
        obtain ⟨p, hp, h1⟩ := res_bind_ok h1
        obtain ⟨q, hq, _⟩ := res_bind_ok h1
        obtain ⟨_, _, h2⟩ := res_bind_ok h2
        obtain ⟨k, hk, _⟩ := res_bind_ok h2
        exact ⟨p, q, k, hp, hq, hk⟩
    obtain ⟨p, q, k, hp, hq, hk⟩ := hev
    obtain ⟨⟨s1, d1, r1⟩, S1⟩ := value_rep hr a ha hl.1 hx hp
    obtain ⟨⟨s2, d2, r2⟩, S2⟩ := value_rep hr l hb hl.2.1 hy hq
    obtain ⟨⟨s3, d3, r3⟩, S3⟩ := value_rep hr u hc hl.2.2 hz hk
    obtain ⟨r, e1, e2⟩ := between_rep n (parse_ty ts a ha hx).1 (parse_ty ts l hb hy).1 (parse_ty ts u hc hz).1 r1 r2 r3 hp hq hk
    rw [e2] at hv
    cases hv
    refine ⟨⟨r.sv, ?_, rep_tri r⟩, S1, S2, S3⟩
    simp only [den, d1, d2, d3, Option.bind_some]
    exact e1
  | .inList n a items, f, e, t, v, hw, hl, h, hv => by
    obtain ⟨rfl, g, ha, hi⟩ := hw
    simp only [parse] at h
    obtain ⟨x, hx, h⟩ := bind_ok h
    obtain ⟨y, hy, h⟩ := bind_ok h
    cases h
    simp only [parseIn, eval] at hv
    obtain ⟨p, hp, hv⟩ := res_bind_ok hv
    obtain ⟨⟨s1, d1, r1⟩, S1⟩ := value_rep hr a ha hl.1 hx hp
    have hin := in_rep ts row (parse_ty ts a ha hx).1 r1 hi hl.2.1 hl.2.2 hy
    simp only [Res.bind] at hv
    cases hv
    refine ⟨⟨(if n then (inCheck p (y.map (inItem x.2))).opp else inCheck p (y.map (inItem x.2))).sv, ?_, ?_⟩, S1⟩
    · simp only [den, d1, Option.bind_some, hin]
      cases n
      · rfl
      · simp only [if_true, sv_not]
    · have : inValue n p (new (.vector (y.map (inItem x.2)))) = ofTri (if n then (inCheck p (y.map (inItem x.2))).opp else inCheck p (y.map (inItem x.2))) := by
        cases n
        · rfl
        · show ofTri (match inCheck p (y.map (inItem x.2)) with | .t => .f | .f => .t | .n => .n) = _
          cases inCheck p (y.map (inItem x.2)) <;> rfl
      rw [this]
      exact rep_tri _
  | .caseWhen arms, f, e, t, v, hw, hl, h, hv => by
    obtain ⟨c, r, rest, c', r', rest', us, ha, hc, ht, hrest, rfl, hu⟩ := parse_case h
    have hp : parseArms ts arms = .ok (.when c'.1 r' rest', t :: us) := by
      simp only [ha, parseArms, hc, ht, hrest, PR.bind]
    simp only [eval] at hv
    exact value_arms hr arms hw hl hp (by intro s hs; rcases List.mem_cons.1 hs with h | h; exact h; exact hu s h) hv
termination_by structural a => a

theorem value_arms {ts : List Nat} {row : List SV} {vs : List Value} (hr : RowOf ts row vs) : ∀ (a : AstArms) {f : Fam} {e : Arms} {us : List Nat} {t : Nat} {v : Value},
    WTArms ts a f → LitArms a → parseArms ts a = .ok (e, us) → (∀ s ∈ us, s = t) → evalArms false (rowEnv vs) none e = .ok v →
    (∃ s, denArms row a = some s ∧ Rep t s v) ∧ SafeArms ts row a
  | .fin, f, e, us, t, v, hw, hl, h, hu, hv => by
    simp only [parseArms] at h; cases h
    simp only [evalArms, eval] at hv; cases hv
    exact ⟨⟨.null, by simp only [denArms], rfl⟩, by simp [SafeArms]⟩
  | .els a, f, e, us, t, v, hw, hl, h, hu, hv => by
    simp only [parseArms] at h
    obtain ⟨x, hx, h⟩ := bind_ok h
    cases h
    simp only [evalArms] at hv
    have : x.2 = t := hu _ (List.mem_singleton.2 rfl)
    subst this
    obtain ⟨⟨s1, d1, r1⟩, S1⟩ := value_rep hr a hw hl hx hv
    exact ⟨⟨s1, by simpa only [denArms] using d1, r1⟩, S1⟩
  | .when c r rest, f, e, us, t, v, hw, hl, h, hu, hv => by
    obtain ⟨hwc, hwr, hwrest⟩ := hw
    obtain ⟨hlc, hlr, hlrest⟩ := hl
    simp only [parseArms] at h
    obtain ⟨x, hx, h⟩ := bind_ok h
    obtain ⟨y, hy, h⟩ := bind_ok h
    obtain ⟨z, hz, h⟩ := bind_ok h
    cases h
    have e1 : y.2 = t := hu _ (List.mem_cons_self ..)
    have e2 : ∀ s ∈ z.2, s = t := fun s hs => hu s (List.mem_cons_of_mem _ hs)
    subst e1
    simp only [evalArms] at hv
    obtain ⟨p, hp, hv⟩ := res_bind_ok hv
    obtain ⟨⟨s1, d1, r1⟩, S1⟩ := value_rep hr c hwc hlc hx hp
    split at hv
    · rename_i m hm
      have hs : s1 = .bool m := by
        rcases (parse_ty ts c hwc hx).1 with h | h
        · rw [h] at r1
          have := rep_20 r1
          subst this
          have r1 : isNull p = true := r1
          unfold isNull at r1; rw [hm] at r1; cases r1
        · rw [fam_bool h] at r1; exact rep_bool r1 hm
      subst hs
      cases m with
      | true =>
        simp only [if_true] at hv
        obtain ⟨⟨s2, d2, r2⟩, S2⟩ := value_rep hr r hwr hlr hy hv
        refine ⟨⟨s2, ?_, r2⟩, S1, .inl ⟨d1, S2⟩⟩
        simp only [denArms, d1, Option.bind_some, if_true, d2]
      | false =>
        simp only [Bool.false_eq_true, if_false] at hv
        obtain ⟨⟨s2, d2, r2⟩, S2⟩ := value_arms hr rest hwrest hlrest hz e2 hv
        refine ⟨⟨s2, ?_, r2⟩, S1, .inr ⟨d1, S2⟩⟩
        simp only [denArms, d1, Option.bind_some]
        rw [if_neg (by simp), d2]
    · cases hv
termination_by structural a => a
end

mutual
theorem eval_safe {ts : List Nat} {row : List SV} {vs : List Value} (hr : RowOf ts row vs) : ∀ (a : Ast) {f : Fam} {e : Expr} {t : Nat}, WT ts a f → LitItems a →
    parse ts a = .ok (e, t) → Safe ts row a → ∃ v, eval false (rowEnv vs) e = .ok v
  | .col i, f, e, t, hw, hl, h, hs => by
    obtain ⟨u, hu, hf⟩ := hw
    obtain ⟨s, w, h1, h2, h3⟩ := row_at hr hu
    simp only [parse, hu] at h
    cases h
    exact ⟨w, by simp only [eval, rowEnv, h2]⟩
  | .num n, f, e, t, hw, hl, h, hs => by
    obtain ⟨rfl, _, _⟩ := parse_num h
    exact ⟨_, by simp only [eval]; rfl⟩
  | .str b, f, e, t, hw, hl, h, hs => by
    simp only [parse] at h; cases h
    exact ⟨_, by simp only [eval]; rfl⟩
  | .bool b, f, e, t, hw, hl, h, hs => by
    simp only [parse] at h; cases h
    exact ⟨_, by simp only [eval]; rfl⟩
  | .null, f, e, t, hw, hl, h, hs => by
    simp only [parse] at h; cases h
    exact ⟨_, by simp only [eval]; rfl⟩
  | .arith op a b, f, e, t, hw, hl, h, hs => by
    obtain ⟨rfl, ha, hb⟩ := hw
    obtain ⟨S1, S2, i, j, k, e1, e2, hm, hk⟩ := hs
    simp only [parse] at h
    obtain ⟨x, hx, h⟩ := bind_ok h
    obtain ⟨y, hy, h⟩ := bind_ok h
    split at h
    · cases h
      obtain ⟨p, hp⟩ := eval_safe hr a ha hl.1 hx S1
      obtain ⟨q, hq⟩ := eval_safe hr b hb hl.2 hy S2
      obtain ⟨⟨s1, d1, r1⟩, _⟩ := value_rep hr a ha hl.1 hx hp
      obtain ⟨⟨s2, d2, r2⟩, _⟩ := value_rep hr b hb hl.2 hy hq
      obtain ⟨f1, t1⟩ := parse_ty ts a ha hx
      obtain ⟨f2, t2⟩ := parse_ty ts b hb hy
      rw [e1] at d1
      rw [e2] at d2
      cases d1; cases d2
      refine ⟨intVal (max x.2 y.2) k, ?_⟩
      simp only [eval, hp, hq, Res.bind, Bool.false_eq_true, if_false]
      exact (arith_rep op f1 f2 r1 r2).2 ⟨i, j, k, rfl, rfl, hm, by rw [t1, t2]; exact hk, rfl⟩
    · cases h
  | .concat a b, f, e, t, hw, hl, h, hs => by
    obtain ⟨rfl, ha, hb⟩ := hw
    obtain ⟨S1, S2, i, j, e1, e2⟩ := hs
    simp only [parse] at h
    obtain ⟨x, hx, h⟩ := bind_ok h
    obtain ⟨y, hy, h⟩ := bind_ok h
    split at h
    · cases h
      obtain ⟨p, hp⟩ := eval_safe hr a ha hl.1 hx S1
      obtain ⟨q, hq⟩ := eval_safe hr b hb hl.2 hy S2
      obtain ⟨⟨s1, d1, r1⟩, _⟩ := value_rep hr a ha hl.1 hx hp
      obtain ⟨⟨s2, d2, r2⟩, _⟩ := value_rep hr b hb hl.2 hy hq
      obtain ⟨f1, t1⟩ := parse_ty ts a ha hx
      obtain ⟨f2, t2⟩ := parse_ty ts b hb hy
      rw [e1] at d1
      rw [e2] at d2
      cases d1; cases d2
      refine ⟨new (.varLen (i ++ j)), ?_⟩
      simp only [eval, hp, hq, Res.bind, Bool.false_eq_true, if_false]
      exact (concat_rep f1 f2 r1 r2).2 ⟨i, j, rfl, rfl, rfl⟩
    · cases h
  | .cmp op a b, f, e, t, hw, hl, h, hs => by
    obtain ⟨rfl, g, ha, hb⟩ := hw
    obtain ⟨S1, S2⟩ := hs
    simp only [parse] at h
    obtain ⟨x, hx, h⟩ := bind_ok h
    obtain ⟨y, hy, h⟩ := bind_ok h
    obtain ⟨f1, t1⟩ := parse_ty ts a ha hx
    obtain ⟨f2, t2⟩ := parse_ty ts b hb hy
    obtain ⟨a', b', he, hops, hops'⟩ := cmp_operands h f1 f2 (rowEnv vs)
    cases he
    obtain ⟨p, hp⟩ := eval_safe hr a ha hl.1 hx S1
    obtain ⟨q, hq⟩ := eval_safe hr b hb hl.2 hy S2
    obtain ⟨⟨s1, d1, r1⟩, _⟩ := value_rep hr a ha hl.1 hx hp
    obtain ⟨⟨s2, d2, r2⟩, _⟩ := value_rep hr b hb hl.2 hy hq
    obtain ⟨p', q', hp', hq'⟩ := hops' hp hq
    obtain ⟨p2, q2, hp2, hq2, hc⟩ := hops hp' hq'
    rw [hp] at hp2
    rw [hq] at hq2
    cases hp2; cases hq2
    obtain ⟨u, hu, hk⟩ := cmp_rep op f1 f2 r1 r2
    refine ⟨ofTri u, ?_⟩
    simp only [eval, hp', hq', Res.bind]
    exact (hc r1 r2).trans hk
  | .and a b, f, e, t, hw, hl, h, hs => by
    obtain ⟨rfl, ha, hb⟩ := hw
    obtain ⟨S1, S2⟩ := hs
    simp only [parse] at h
    obtain ⟨x, hx, h⟩ := bind_ok h
    obtain ⟨y, hy, h⟩ := bind_ok h
    split at h
    · cases h
      obtain ⟨p, hp⟩ := eval_safe hr a ha hl.1 hx S1
      obtain ⟨q, hq⟩ := eval_safe hr b hb hl.2 hy S2
      exact ⟨_, by simp only [eval, hp, hq, Res.bind]; rfl⟩
    · cases h
  | .or a b, f, e, t, hw, hl, h, hs => by
    obtain ⟨rfl, ha, hb⟩ := hw
    obtain ⟨S1, S2⟩ := hs
    simp only [parse] at h
    obtain ⟨x, hx, h⟩ := bind_ok h
    obtain ⟨y, hy, h⟩ := bind_ok h
    split at h
    · cases h
      obtain ⟨p, hp⟩ := eval_safe hr a ha hl.1 hx S1
      obtain ⟨q, hq⟩ := eval_safe hr b hb hl.2 hy S2
      exact ⟨_, by simp only [eval, hp, hq, Res.bind]; rfl⟩
    · cases h
  | .not a, f, e, t, hw, hl, h, hs => by
    obtain ⟨rfl, ha⟩ := hw
    simp only [parse] at h
    obtain ⟨x, hx, h⟩ := bind_ok h
    split at h
    · rename_i hn
      cases h
      obtain ⟨p, hp⟩ := eval_safe hr a ha hl hx hs
      obtain ⟨⟨s1, d1, r1⟩, _⟩ := value_rep hr a ha hl hx hp
      have r1' : Rep 0 s1 p := by
        rcases hn with hn | hn
        · rwa [hn] at r1
        · rw [hn] at r1
          have := rep_20 r1
          subst this; exact r1
      obtain ⟨u, rfl, _, hu⟩ := rep_tri_inv r1'
      obtain ⟨w, hw, tw⟩ := not_opp hu
      exact ⟨w, by simp only [eval, hp, Res.bind, hw]⟩
    · cases h
  | .neg a, f, e, t, hw, hl, h, hs => by
    obtain ⟨rfl, ha⟩ := hw
    obtain ⟨S1, hd⟩ := hs
    simp only [parse] at h
    obtain ⟨x, hx, h⟩ := bind_ok h
    obtain ⟨f1, t1⟩ := parse_ty ts a ha hx
    have hev : e = .neg x.1 := by
      split at h
      · cases h; rfl
      · split at h
        · cases h; rfl
        · cases h
    subst hev
    obtain ⟨p, hp⟩ := eval_safe hr a ha hl hx S1
    obtain ⟨⟨s1, d1, r1⟩, _⟩ := value_rep hr a ha hl hx hp
    rcases hd with hd | ⟨i, hd, hf⟩
    · rw [hd] at d1
      cases d1
      refine ⟨new .null, ?_⟩
      simp only [eval, hp, Res.bind]
      exact (negate_rep f1 r1).2 (.inl ⟨rfl, rfl⟩)
    · rw [hd] at d1
      cases d1
      refine ⟨intVal x.2 (-i), ?_⟩
      simp only [eval, hp, Res.bind]
      exact (negate_rep f1 r1).2 (.inr ⟨i, rfl, by rw [t1]; exact hf, rfl⟩)
  | .is c n a, f, e, t, hw, hl, h, hs => by
    obtain ⟨rfl, g, hg, ha⟩ := hw
    simp only [parse] at h
    obtain ⟨x, hx, h⟩ := bind_ok h
    cases h
    obtain ⟨p, hp⟩ := eval_safe hr a ha hl hx hs
    obtain ⟨⟨s1, d1, r1⟩, _⟩ := value_rep hr a ha hl hx hp
    obtain ⟨b, hb, hc⟩ := is_rep c n hg (parse_ty ts a ha hx).1 r1
    exact ⟨_, by simp only [eval, hp, Res.bind, hc]; rfl⟩
  | .between n a l u, f, e, t, hw, hl, h, hs => by
    obtain ⟨rfl, g, ha, hb, hc⟩ := hw
    obtain ⟨S1, S2, S3⟩ := hs
    simp only [parse] at h
    obtain ⟨x, hx, h⟩ := bind_ok h
    obtain ⟨y, hy, h⟩ := bind_ok h
    obtain ⟨z, hz, h⟩ := bind_ok h
    cases h
    obtain ⟨p, hp⟩ := eval_safe hr a ha hl.1 hx S1
    obtain ⟨q, hq⟩ := eval_safe hr l hb hl.2.1 hy S2
    obtain ⟨k, hk⟩ := eval_safe hr u hc hl.2.2 hz S3
    obtain ⟨⟨s1, d1, r1⟩, _⟩ := value_rep hr a ha hl.1 hx hp
    obtain ⟨⟨s2, d2, r2⟩, _⟩ := value_rep hr l hb hl.2.1 hy hq
    obtain ⟨⟨s3, d3, r3⟩, _⟩ := value_rep hr u hc hl.2.2 hz hk
    obtain ⟨r, e1, e2⟩ := between_rep n (parse_ty ts a ha hx).1 (parse_ty ts l hb hy).1 (parse_ty ts u hc hz).1 r1 r2 r3 hp hq hk
    exact ⟨_, e2⟩
  | .inList n a items, f, e, t, hw, hl, h, hs => by
    obtain ⟨rfl, g, ha, hi⟩ := hw
    simp only [parse] at h
    obtain ⟨x, hx, h⟩ := bind_ok h
    obtain ⟨y, hy, h⟩ := bind_ok h
    cases h
    obtain ⟨p, hp⟩ := eval_safe hr a ha hl.1 hx hs
    exact ⟨_, by simp only [parseIn, eval, hp, Res.bind]; rfl⟩
  | .caseWhen arms, f, e, t, hw, hl, h, hs => by
    obtain ⟨c, r, rest, c', r', rest', us, ha, hc, ht, hrest, rfl, hu⟩ := parse_case h
    have hp : parseArms ts arms = .ok (.when c'.1 r' rest', t :: us) := by
      simp only [ha, parseArms, hc, ht, hrest, PR.bind]
    obtain ⟨v, hv⟩ := safe_arms hr arms hw hl hp hs
    exact ⟨v, by simp only [eval]; exact hv⟩
termination_by structural a => a

theorem safe_arms {ts : List Nat} {row : List SV} {vs : List Value} (hr : RowOf ts row vs) : ∀ (a : AstArms) {f : Fam} {e : Arms} {us : List Nat},
    WTArms ts a f → LitArms a → parseArms ts a = .ok (e, us) → SafeArms ts row a → ∃ v, evalArms false (rowEnv vs) none e = .ok v
  | .fin, f, e, us, hw, hl, h, hs => by
    simp only [parseArms] at h; cases h
    exact ⟨_, by simp only [evalArms, eval]; rfl⟩
  | .els a, f, e, us, hw, hl, h, hs => by
    simp only [parseArms] at h
    obtain ⟨x, hx, h⟩ := bind_ok h
    cases h
    obtain ⟨v, hv⟩ := eval_safe hr a hw hl hx hs
    exact ⟨v, by simp only [evalArms]; exact hv⟩
  | .when c r rest, f, e, us, hw, hl, h, hs => by
    obtain ⟨hwc, hwr, hwrest⟩ := hw
    obtain ⟨hlc, hlr, hlrest⟩ := hl
    obtain ⟨S1, hd⟩ := hs
    simp only [parseArms] at h
    obtain ⟨x, hx, h⟩ := bind_ok h
    obtain ⟨y, hy, h⟩ := bind_ok h
    obtain ⟨z, hz, h⟩ := bind_ok h
    cases h
    obtain ⟨p, hp⟩ := eval_safe hr c hwc hlc hx S1
    obtain ⟨⟨s1, d1, r1⟩, _⟩ := value_rep hr c hwc hlc hx hp
    rcases hd with ⟨hd, S2⟩ | ⟨hd, S2⟩
    · rw [hd] at d1
      cases d1
      obtain ⟨v, hv⟩ := eval_safe hr r hwr hlr hy S2
      exact ⟨v, by simp only [evalArms, hp, Res.bind, r1.2, new, newTyped, val, if_true, hv]⟩
    · rw [hd] at d1
      cases d1
      obtain ⟨v, hv⟩ := safe_arms hr rest hwrest hlrest hz S2
      exact ⟨v, by simp only [evalArms, hp, Res.bind, r1.2, new, newTyped, val, Bool.false_eq_true, if_false, hv]⟩
termination_by structural a => a
end

/-! ## Acceptance -/

/-- What a literal, and what anything else, is parsed to. -/
theorem parse_lit (ts : List Nat) {a : Ast} {e : Expr} {t : Nat} (h : parse ts a = .ok (e, t)) :
    (a = .null ∧ e = .lit (new .null) ∧ t = 20) ∨ (a.isLit = true ∧ a ≠ .null ∧ t ≠ 20 ∧ ∃ v, e = .lit v ∧ castLit v 20 = .err) ∨
    (a.isLit = false ∧ ∀ v, e ≠ .lit v) := by
  cases a
  case num n =>
    obtain ⟨rfl, hf, _⟩ := parse_num h
    refine .inr (.inl ⟨rfl, by simp, ?_, _, rfl, ?_⟩)
    · have := hf.2.1; omega
    · rcases fits_cases hf with ⟨rfl, _⟩ | ⟨rfl, _⟩ | ⟨rfl, _⟩ | ⟨rfl, _⟩ <;> rfl
  case str s => simp only [parse] at h; cases h; exact .inr (.inl ⟨rfl, by simp, by decide, _, rfl, rfl⟩)
  case bool s => simp only [parse] at h; cases h; exact .inr (.inl ⟨rfl, by simp, by decide, _, rfl, rfl⟩)
  case null => simp only [parse] at h; cases h; exact .inl ⟨rfl, rfl, rfl⟩
  case col i =>
    simp only [parse] at h
    split at h
    · cases h; exact .inr (.inr ⟨rfl, by simp⟩)
    · cases h
  case caseWhen arms =>
    obtain ⟨_, _, _, _, _, _, _, _, _, _, _, rfl, _⟩ := parse_case h
    exact .inr (.inr ⟨rfl, by simp⟩)
  case cmp op a b =>
    simp only [parse] at h
    obtain ⟨x, hx, h⟩ := bind_ok h
    obtain ⟨y, hy, h⟩ := bind_ok h
    obtain ⟨a', b', he, _⟩ := parse_cmp_ok h
    cases he
    exact .inr (.inr ⟨rfl, by simp⟩)
  case between n a l u =>
    simp only [parse] at h
    obtain ⟨x, hx, h⟩ := bind_ok h
    obtain ⟨y, hy, h⟩ := bind_ok h
    obtain ⟨z, hz, h⟩ := bind_ok h
    cases h
    refine .inr (.inr ⟨rfl, ?_⟩)
    cases n <;> simp [parseBetween]
  case inList n a l =>
    simp only [parse] at h
    obtain ⟨x, hx, h⟩ := bind_ok h
    obtain ⟨y, hy, h⟩ := bind_ok h
    cases h
    exact .inr (.inr ⟨rfl, by simp [parseIn]⟩)
  case not a =>
    simp only [parse] at h
    obtain ⟨x, hx, h⟩ := bind_ok h
    split at h
    · cases h; exact .inr (.inr ⟨rfl, by simp⟩)
    · cases h
  case neg a =>
    simp only [parse] at h
    obtain ⟨x, hx, h⟩ := bind_ok h
    split at h
    · cases h; exact .inr (.inr ⟨rfl, by simp⟩)
    · split at h
      · cases h; exact .inr (.inr ⟨rfl, by simp⟩)
      · cases h
  case is c n a =>
    simp only [parse] at h
    obtain ⟨x, hx, h⟩ := bind_ok h
    cases h; exact .inr (.inr ⟨rfl, by simp⟩)
  all_goals
    simp only [parse] at h
    obtain ⟨x, hx, h⟩ := bind_ok h
    obtain ⟨y, hy, h⟩ := bind_ok h
    split at h
    · cases h; exact .inr (.inr ⟨rfl, by simp⟩)
    · cases h

theorem number_ok (n : Nat) : (∃ v, numberLit n = some (.lit v)) ↔ n < 2 ^ 63 := by
  unfold numberLit
  simp only [hi]
  split
  · exact ⟨fun _ => by omega, fun _ => ⟨_, rfl⟩⟩
  split
  · exact ⟨fun _ => by omega, fun _ => ⟨_, rfl⟩⟩
  split
  · exact ⟨fun _ => by omega, fun _ => ⟨_, rfl⟩⟩
  split
  · exact ⟨fun _ => by omega, fun _ => ⟨_, rfl⟩⟩
  · exact ⟨fun ⟨v, h⟩ => (by cases h), fun _ => by omega⟩

/-- Two operands that must not be NULL. -/
theorem pair_ok {β : Type} {ra rb : PR (Expr × Nat)} {P Q : Prop} {s t : Nat} {c : Expr × Nat → Expr × Nat → Prop} [∀ x y, Decidable (c x y)] {k : Expr × Nat → Expr × Nat → β}
    (ha : (∃ x, ra = .ok x) ↔ P) (hb : (∃ x, rb = .ok x) ↔ Q)
    (hc : ∀ x y, ra = .ok x → rb = .ok y → (c x y ↔ s ≠ 20 ∧ t ≠ 20)) :
    (∃ z, (ra.bind fun x => rb.bind fun y => if c x y then .ok (k x y) else .err) = .ok z) ↔ P ∧ Q ∧ s ≠ 20 ∧ t ≠ 20 := by
  constructor
  · rintro ⟨z, h⟩
    obtain ⟨x, hx, h⟩ := bind_ok h
    obtain ⟨y, hy, h⟩ := bind_ok h
    split at h
    · rename_i hq
      exact ⟨ha.1 ⟨x, hx⟩, hb.1 ⟨y, hy⟩, (hc x y hx hy).1 hq⟩
    · cases h
  · rintro ⟨p, q, hq⟩
    obtain ⟨x, hx⟩ := ha.2 p
    obtain ⟨y, hy⟩ := hb.2 q
    exact ⟨k x y, by rw [hx, hy]; simp only [PR.bind]; rw [if_pos ((hc x y hx hy).2 hq)]⟩

theorem case_all {ts : List Nat} {f : Fam} {u : Nat} : ∀ {arms : AstArms} {x : Arms × List Nat}, WTArms ts arms f → parseArms ts arms = .ok x →
    ((∀ s ∈ x.2, s = u) ↔ armsAll ts u arms)
  | .fin, x, hw, h => by
    simp only [parseArms] at h; cases h
    exact ⟨fun _ => trivial, fun _ s hs => by cases hs⟩
  | .els a, x, hw, h => by
    simp only [parseArms] at h
    obtain ⟨y, hy, h⟩ := bind_ok h
    cases h
    have := (parse_ty ts a hw hy).2
    simp only [List.mem_singleton, forall_eq, armsAll, this]
  | .when c t rest, x, hw, h => by
    simp only [parseArms] at h
    obtain ⟨y, hy, h⟩ := bind_ok h
    obtain ⟨z, hz, h⟩ := bind_ok h
    obtain ⟨k, hk, h⟩ := bind_ok h
    cases h
    have := (parse_ty ts t hw.2.1 hz).2
    have ih := case_all (u := u) hw.2.2 hk
    simp only [List.mem_cons, forall_eq_or_imp, armsAll, this, ih]

theorem cmp_lit_right (op : CmpOp) {a : Expr × Nat} {v : Value} {t : Nat} (h : comparable a.2 t = false) :
    parseCmp op a (.lit v, t) = (castLit v a.2).bind fun b' => .ok (.cmp op a.1 b', 0) := by
  unfold parseCmp
  rw [if_neg (by simp [h])]

theorem cmp_lit_left (op : CmpOp) {b : Expr × Nat} {v : Value} {s : Nat} (h : comparable s b.2 = false) (hb : ∀ w, b.1 ≠ .lit w) :
    parseCmp op (.lit v, s) b = (castLit v b.2).bind fun a' => .ok (.cmp op a' b.1, 0) := by
  unfold parseCmp
  rw [if_neg (by simp [h])]
  obtain ⟨e, t⟩ := b
  cases e
  case lit w => exact absurd rfl (hb w)
  all_goals rfl

theorem cmp_no_lit (op : CmpOp) {a b : Expr × Nat} (h : comparable a.2 b.2 = false) (ha : ∀ w, a.1 ≠ .lit w) (hb : ∀ w, b.1 ≠ .lit w) : parseCmp op a b = .err := by
  unfold parseCmp
  rw [if_neg (by simp [h])]
  obtain ⟨e, t⟩ := b
  obtain ⟨d, s⟩ := a
  cases e
  case lit w => exact absurd rfl (hb w)
  all_goals
    cases d
    case lit w => exact absurd rfl (ha w)
    all_goals rfl

mutual
theorem accepted (ts : List Nat) : ∀ (a : Ast) {f : Fam}, WT ts a f → ((∃ x, parse ts a = .ok x) ↔ Accepted ts a)
  | .col i, f, hw => by
    obtain ⟨u, hu, hf⟩ := hw
    simp only [parse, hu, Accepted, iff_true]
    exact ⟨_, rfl⟩
  | .num n, f, hw => by
    simp only [Accepted]
    rw [← number_ok]
    constructor
    · rintro ⟨x, h⟩
      simp only [parse] at h
      split at h
      · rename_i v hv; exact ⟨v, hv⟩
      · cases h
    · rintro ⟨v, hv⟩
      exact ⟨(.lit v, ty v), by simp only [parse, hv]⟩
  | .str s, f, hw => by simp only [parse, Accepted, iff_true]; exact ⟨_, rfl⟩
  | .bool s, f, hw => by simp only [parse, Accepted, iff_true]; exact ⟨_, rfl⟩
  | .null, f, hw => by simp only [parse, Accepted, iff_true]; exact ⟨_, rfl⟩
  | .arith op a b, f, hw => by
    obtain ⟨rfl, ha, hb⟩ := hw
    simp only [parse, Accepted]
    refine pair_ok (c := fun x y => (numeric x.2 && numeric y.2) = true) (k := fun x y => (Expr.arith op x.1 y.1, arithTy x.2 y.2)) (accepted ts a ha) (accepted ts b hb) fun x y hx hy => ?_
    obtain ⟨f1, t1⟩ := parse_ty ts a ha hx
    obtain ⟨f2, t2⟩ := parse_ty ts b hb hy
    rw [← t1, ← t2]
    rcases f1 with e1 | e1
    · simp [e1, numeric]
    · rcases f2 with e2 | e2
      · simp [e2, numeric]
      · have := fam_num e1; have := fam_num e2
        simp only [numeric, Bool.and_eq_true, decide_eq_true_eq]; omega
  | .concat a b, f, hw => by
    obtain ⟨rfl, ha, hb⟩ := hw
    simp only [parse, Accepted]
    refine pair_ok (c := fun x y => x.2 = 11 ∧ y.2 = 11) (k := fun x y => (Expr.concat x.1 y.1, 11)) (accepted ts a ha) (accepted ts b hb) fun x y hx hy => ?_
    obtain ⟨f1, t1⟩ := parse_ty ts a ha hx
    obtain ⟨f2, t2⟩ := parse_ty ts b hb hy
    rw [← t1, ← t2]
    rcases f1 with e1 | e1
    · simp [e1]
    · rcases f2 with e2 | e2
      · simp [e2]
      · simp [fam_str e1, fam_str e2]
  | .and a b, f, hw => by
    obtain ⟨rfl, ha, hb⟩ := hw
    simp only [parse, Accepted]
    refine pair_ok (c := fun x y => x.2 = 0 ∧ y.2 = 0) (k := fun x y => (Expr.and x.1 y.1, 0)) (accepted ts a ha) (accepted ts b hb) fun x y hx hy => ?_
    obtain ⟨f1, t1⟩ := parse_ty ts a ha hx
    obtain ⟨f2, t2⟩ := parse_ty ts b hb hy
    rw [← t1, ← t2]
    rcases f1 with e1 | e1
    · simp [e1]
    · rcases f2 with e2 | e2
      · simp [e2]
      · simp [fam_bool e1, fam_bool e2]
  | .or a b, f, hw => by
    obtain ⟨rfl, ha, hb⟩ := hw
    simp only [parse, Accepted]
    refine pair_ok (c := fun x y => x.2 = 0 ∧ y.2 = 0) (k := fun x y => (Expr.or x.1 y.1, 0)) (accepted ts a ha) (accepted ts b hb) fun x y hx hy => ?_
    obtain ⟨f1, t1⟩ := parse_ty ts a ha hx
    obtain ⟨f2, t2⟩ := parse_ty ts b hb hy
    rw [← t1, ← t2]
    rcases f1 with e1 | e1
    · simp [e1]
    · rcases f2 with e2 | e2
      · simp [e2]
      · simp [fam_bool e1, fam_bool e2]
  | .cmp op a b, f, hw => by
    obtain ⟨rfl, g, ha, hb⟩ := hw
    have ia := accepted ts a ha
    have ib := accepted ts b hb
    simp only [parse, Accepted]
    have key : ∀ {x y}, parse ts a = .ok x → parse ts b = .ok y → ((∃ z, parseCmp op x y = .ok z) ↔
        ((exprTy ts a = 20 ↔ exprTy ts b = 20) ∨ b = .null ∨ (a = .null ∧ b.isLit = false))) := by
      intro x y hx hy
      obtain ⟨x1, x2⟩ := x
      obtain ⟨y1, y2⟩ := y
      obtain ⟨f1, t1⟩ := parse_ty ts a ha hx
      obtain ⟨f2, t2⟩ := parse_ty ts b hb hy
      rw [← t1, ← t2]
      have hnum : ∀ {s t : Nat}, s = 20 → famOf t = some g → comparable s t = false ∧ comparable t s = false ∧ t ≠ 20 := by
        intro s t hs ht
        subst hs
        cases g with
        | num =>
          have : t = 1 ∨ t = 2 ∨ t = 3 ∨ t = 4 := by have := fam_num ht; omega
          rcases this with rfl | rfl | rfl | rfl <;> decide
        | bool => rw [fam_bool ht]; decide
        | str => rw [fam_str ht]; decide
      rcases f1 with e1 | e1 <;> rcases f2 with e2 | e2
      · subst e1; subst e2
        simp only [iff_self, true_or, iff_true]
        exact ⟨_, rfl⟩
      · obtain ⟨c1, _, n2⟩ := hnum e1 e2
        subst e1
        simp only [n2, iff_false, not_true_eq_false, false_or]
        rcases parse_lit ts hy with ⟨_, _, h⟩ | ⟨hl, hn, _, v, rfl, hc⟩ | ⟨hl, hn⟩
        · exact absurd h n2
        · rw [cmp_lit_right op c1]
          simp [hc, PR.bind, hn, hl]
        · have hbn : b ≠ .null := by rintro rfl; cases hl
          rcases parse_lit ts hx with ⟨ha, rfl, _⟩ | ⟨_, _, h, _⟩ | ⟨hla, hna⟩
          · rw [cmp_lit_left op c1 hn]
            simp only [hbn, ha, hl, false_or, and_self, iff_true]
            have hcl : castLit (new .null) y2 = .ok (.lit (newTyped .null y2)) := by
              unfold castLit castTo
              rw [if_neg (show ¬ (ty (new .null) = y2) from fun h => n2 h.symm)]; rfl
            exact ⟨_, by rw [hcl]; rfl⟩
          · exact absurd rfl h
          · have han : a ≠ .null := by rintro rfl; cases hla
            rw [cmp_no_lit op c1 hna hn]; simp [hbn, han]
      · obtain ⟨_, c1, n1⟩ := hnum e2 e1
        subst e2
        simp only [n1, false_iff, not_true_eq_false, false_or]
        rcases parse_lit ts hy with ⟨hbn, rfl, _⟩ | ⟨_, _, h, _⟩ | ⟨hl, hn⟩
        · rw [cmp_lit_right op c1]
          simp only [hbn, true_or, iff_true]
          have hcl : castLit (new .null) x2 = .ok (.lit (newTyped .null x2)) := by
            unfold castLit castTo
            rw [if_neg (show ¬ (ty (new .null) = x2) from fun h => n1 h.symm)]; rfl
          exact ⟨_, by rw [hcl]; rfl⟩
        · exact absurd rfl h
        · have hbn : b ≠ .null := by rintro rfl; cases hl
          have han : a ≠ .null := by
            rintro rfl
            simp only [parse] at hx
            cases hx; exact n1 rfl
          rcases parse_lit ts hx with ⟨h, _, _⟩ | ⟨_, _, _, v, rfl, hc⟩ | ⟨hla, hna⟩
          · exact absurd h han
          · rw [cmp_lit_left op c1 hn]
            simp [hc, PR.bind, hbn, han]
          · rw [cmp_no_lit op c1 hna hn]; simp [hbn, han]
      · have n1 : x2 ≠ 20 := by rintro rfl; cases e1
        have n2 : y2 ≠ 20 := by rintro rfl; cases e2
        simp only [n1, n2, true_or, iff_true]
        exact ⟨_, by unfold parseCmp; rw [if_pos (fam_comparable e1 e2)]⟩
    constructor
    · rintro ⟨z, h⟩
      obtain ⟨x, hx, h⟩ := bind_ok h
      obtain ⟨y, hy, h⟩ := bind_ok h
      exact ⟨ia.1 ⟨x, hx⟩, ib.1 ⟨y, hy⟩, (key hx hy).1 ⟨z, h⟩⟩
    · rintro ⟨p, q, h⟩
      obtain ⟨x, hx⟩ := ia.2 p
      obtain ⟨y, hy⟩ := ib.2 q
      obtain ⟨z, hz⟩ := (key hx hy).2 h
      exact ⟨z, by rw [hx, hy]; exact hz⟩
  | .not a, f, hw => by
    obtain ⟨rfl, ha⟩ := hw
    have ia := accepted ts a ha
    simp only [parse, Accepted]
    rw [← ia]
    constructor
    · rintro ⟨z, h⟩
      obtain ⟨x, hx, h⟩ := bind_ok h
      exact ⟨x, hx⟩
    · rintro ⟨x, hx⟩
      have : x.2 = 0 ∨ x.2 = 20 := by
        rcases (parse_ty ts a ha hx).1 with h | h
        · exact .inr h
        · exact .inl (fam_bool h)
      exact ⟨_, by rw [hx]; simp only [PR.bind]; rw [if_pos this]⟩
  | .neg a, f, hw => by
    obtain ⟨rfl, ha⟩ := hw
    have ia := accepted ts a ha
    simp only [parse, Accepted]
    rw [← ia]
    constructor
    · rintro ⟨z, h⟩
      obtain ⟨x, hx, h⟩ := bind_ok h
      exact ⟨x, hx⟩
    · rintro ⟨x, hx⟩
      rcases (parse_ty ts a ha hx).1 with h | h
      · exact ⟨_, by rw [hx]; simp only [PR.bind]; rw [if_pos h]⟩
      · have := fam_num h
        exact ⟨_, by rw [hx]; simp only [PR.bind]; rw [if_neg (by omega), if_pos (by omega)]⟩
  | .is c n a, f, hw => by
    obtain ⟨rfl, g, hg, ha⟩ := hw
    have ia := accepted ts a ha
    simp only [parse, Accepted]
    rw [← ia]
    constructor
    · rintro ⟨z, h⟩
      obtain ⟨x, hx, h⟩ := bind_ok h
      exact ⟨x, hx⟩
    · rintro ⟨x, hx⟩
      exact ⟨_, by rw [hx]; rfl⟩
  | .between n a l u, f, hw => by
    obtain ⟨rfl, g, ha, hl, hu⟩ := hw
    have ia := accepted ts a ha
    have il := accepted ts l hl
    have iu := accepted ts u hu
    simp only [parse, Accepted]
    rw [← ia, ← il, ← iu]
    constructor
    · rintro ⟨z, h⟩
      obtain ⟨x, hx, h⟩ := bind_ok h
      obtain ⟨y, hy, h⟩ := bind_ok h
      obtain ⟨z, hz, h⟩ := bind_ok h
      exact ⟨⟨x, hx⟩, ⟨y, hy⟩, ⟨z, hz⟩⟩
    · rintro ⟨⟨x, hx⟩, ⟨y, hy⟩, ⟨z, hz⟩⟩
      exact ⟨_, by rw [hx, hy, hz]; rfl⟩
  | .inList n a items, f, hw => by
    obtain ⟨rfl, g, ha, hl⟩ := hw
    have ia := accepted ts a ha
    have il := accepted_items ts items hl
    simp only [parse, Accepted]
    rw [← ia, ← il]
    constructor
    · rintro ⟨z, h⟩
      obtain ⟨x, hx, h⟩ := bind_ok h
      obtain ⟨y, hy, h⟩ := bind_ok h
      exact ⟨⟨x, hx⟩, ⟨y, hy⟩⟩
    · rintro ⟨⟨x, hx⟩, ⟨y, hy⟩⟩
      exact ⟨_, by rw [hx, hy]; rfl⟩
  | .caseWhen arms, f, hw => by
    have hw : WTArms ts arms f := hw
    have ia := accepted_arms ts arms hw
    simp only [Accepted]
    rw [← ia]
    constructor
    · rintro ⟨⟨e, u⟩, h⟩
      obtain ⟨c, r, rest, c', r', rest', us, ha, hc, ht, hrest, rfl, hu⟩ := parse_case h
      have hp : parseArms ts arms = .ok (.when c'.1 r' rest', u :: us) := by
        simp only [ha, parseArms, hc, ht, hrest, PR.bind]
      refine ⟨⟨_, hp⟩, ⟨c, r, rest, ha⟩, ?_⟩
      rw [← case_all hw hp]
      have : armsTy ts arms = u := by
        rw [ha] at hw ⊢
        exact (parse_ty ts r hw.2.1 ht).2.symm
      rw [this]
      intro s hs
      rcases List.mem_cons.1 hs with h | h
      · exact h
      · exact hu s h
    · rintro ⟨⟨x, hx⟩, ⟨c, r, rest, ha⟩, hall⟩
      have h := (case_all hw hx).2 hall
      have hx0 := hx
      rw [ha] at hx0 hw
      simp only [parseArms] at hx0
      obtain ⟨y, hy, hx0⟩ := bind_ok hx0
      obtain ⟨z, hz, hx0⟩ := bind_ok hx0
      obtain ⟨k, hk, hx0⟩ := bind_ok hx0
      cases hx0
      have hc : caseTy (z.2 :: k.2) = some z.2 := by
        simp only [caseTy]
        rw [if_pos]
        rw [List.all_eq_true]
        intro s hs
        have h1 := h s (List.mem_cons_of_mem _ hs)
        have h2 := h z.2 (List.mem_cons_self ..)
        simp [h1, h2]
      exact ⟨_, by simp only [parse, hx, PR.bind]; rw [hc]⟩
termination_by structural a => a

theorem accepted_items (ts : List Nat) : ∀ (as : Asts) {f : Fam}, WTs ts as f → ((∃ x, parseItems ts as = .ok x) ↔ AcceptedAll ts as)
  | .nil, f, hw => by simp only [parseItems, AcceptedAll, iff_true]; exact ⟨_, rfl⟩
  | .cons a as, f, hw => by
    have ia := accepted ts a hw.1
    have il := accepted_items ts as hw.2
    simp only [parseItems, AcceptedAll]
    rw [← ia, ← il]
    constructor
    · rintro ⟨z, h⟩
      obtain ⟨x, hx, h⟩ := bind_ok h
      obtain ⟨y, hy, h⟩ := bind_ok h
      exact ⟨⟨x, hx⟩, ⟨y, hy⟩⟩
    · rintro ⟨⟨x, hx⟩, ⟨y, hy⟩⟩
      exact ⟨_, by rw [hx, hy]; rfl⟩
termination_by structural a => a

theorem accepted_arms (ts : List Nat) : ∀ (as : AstArms) {f : Fam}, WTArms ts as f → ((∃ x, parseArms ts as = .ok x) ↔ AcceptedArms ts as)
  | .fin, f, hw => by simp only [parseArms, AcceptedArms, iff_true]; exact ⟨_, rfl⟩
  | .els a, f, hw => by
    have ia := accepted ts a hw
    simp only [parseArms, AcceptedArms]
    rw [← ia]
    constructor
    · rintro ⟨z, h⟩
      obtain ⟨x, hx, h⟩ := bind_ok h
      exact ⟨x, hx⟩
    · rintro ⟨x, hx⟩
      exact ⟨_, by rw [hx]; rfl⟩
  | .when c t rest, f, hw => by
    have ia := accepted ts c hw.1
    have it := accepted ts t hw.2.1
    have il := accepted_arms ts rest hw.2.2
    simp only [parseArms, AcceptedArms]
    rw [← ia, ← it, ← il]
    constructor
    · rintro ⟨z, h⟩
      obtain ⟨x, hx, h⟩ := bind_ok h
      obtain ⟨y, hy, h⟩ := bind_ok h
      obtain ⟨z, hz, h⟩ := bind_ok h
      exact ⟨⟨x, hx⟩, ⟨y, hy⟩, ⟨z, hz⟩⟩
    · rintro ⟨⟨x, hx⟩, ⟨y, hy⟩, ⟨z, hz⟩⟩
      exact ⟨_, by rw [hx, hy, hz]; rfl⟩
termination_by structural a => a
end

/-! ## C124 -/

/-- A well-typed expression of any size that Ferrite accepts and that evaluates on a row has on that row the value SQL gives it, in the type the parser computed. Missing: decimals, dates,
CHAR columns, IN lists with items that are not literals, functions, and the cases in which SQL has a value and Ferrite an error (`C124_evaluates_partial`, `C124_accepts_partial`). -/
theorem C124_value_partial {ts : List Nat} {row : List SV} {vs : List Value} (hr : RowOf ts row vs) {a : Ast} {f : Fam} (hw : WT ts a f) (hl : LitItems a) {e : Expr} {t : Nat}
    (hp : parse ts a = .ok (e, t)) {v : Value} (hv : eval false (rowEnv vs) e = .ok v) : ∃ s, den row a = some s ∧ Rep t s v :=
  (value_rep hr a hw hl hp hv).1

/-- Which of them evaluate on which rows. -/
theorem C124_evaluates_partial {ts : List Nat} {row : List SV} {vs : List Value} (hr : RowOf ts row vs) {a : Ast} {f : Fam} (hw : WT ts a f) (hl : LitItems a) {e : Expr} {t : Nat}
    (hp : parse ts a = .ok (e, t)) : (∃ v, eval false (rowEnv vs) e = .ok v) ↔ Safe ts row a :=
  ⟨fun ⟨_, hv⟩ => (value_rep hr a hw hl hp hv).2, eval_safe hr a hw hl hp⟩

/-- Which of them are accepted, and in which type. -/
theorem C124_accepts_partial {ts : List Nat} {a : Ast} {f : Fam} (hw : WT ts a f) :
    ((∃ x, parse ts a = .ok x) ↔ Accepted ts a) ∧ ∀ {e t}, parse ts a = .ok (e, t) → t = exprTy ts a ∧ (t = 20 ∨ famOf t = some f) :=
  ⟨accepted ts a hw, fun h => ⟨(parse_ty ts a hw h).2, (parse_ty ts a hw h).1⟩⟩

/-- Two meanings of one expression are the same value. -/
theorem rep_unique {t : Nat} {s s' : SV} {v : Value} (h : Rep t s v) (h' : Rep t s' v) : s = s' := by
  by_cases n : s = .null
  · have := (rep_isNull h).2 n
    rw [n, (rep_isNull h').1 this]
  · have n' : s' ≠ .null := fun e => n ((rep_isNull h).1 ((rep_isNull h').2 e))
    cases s <;> cases s' <;> simp only [ne_eq, not_true_eq_false, reduceCtorEq] at n n' <;> simp only [Rep] at h h'
    · obtain ⟨hf, rfl⟩ := h
      have := h'.2
      rcases fits_cases hf with ⟨rfl, _⟩ | ⟨rfl, _⟩ | ⟨rfl, _⟩ | ⟨rfl, _⟩ <;> (cases this; rfl)
    · rw [h'.1] at h; exact absurd h.1.1 (by decide)
    · rw [h'.1] at h; exact absurd h.1.2.1 (by decide)
    · rw [h.1] at h'; exact absurd h'.1.1 (by decide)
    · have := h.2.symm.trans h'.2; cases this; rfl
    · have := h.1.symm.trans h'.1; cases this
    · rw [h.1] at h'; exact absurd h'.1.2.1 (by decide)
    · have := h.1.symm.trans h'.1; cases this
    · have := h.2.symm.trans h'.2; cases this; rfl

-- `CASE WHEN a + 1 > 10 AND s IN ('x', 'y') THEN s || '!' WHEN NOT (a BETWEEN 3 AND 5) THEN s ELSE 'none' END` on a = 12, s = 'y': 'y!'.
def exAst : Ast := .caseWhen (.when (.and (.cmp .gt (.arith .add (.col 0) (.num 1)) (.num 10)) (.inList false (.col 1) (.cons (.str (lit "x")) (.cons (.str (lit "y")) .nil))))
  (.concat (.col 1) (.str (lit "!"))) (.when (.not (.between false (.col 0) (.num 3) (.num 5))) (.col 1) (.els (.str (lit "none")))))

theorem ex_wt : WT [3, 11] exAst .str := by
  have h0 : WT [3, 11] (.col 0) .num := ⟨3, rfl, rfl⟩
  have h1 : WT [3, 11] (.col 1) .str := ⟨11, rfl, rfl⟩
  exact ⟨⟨rfl, ⟨rfl, .num, ⟨rfl, h0, rfl⟩, rfl⟩, ⟨rfl, .str, h1, rfl, rfl, trivial⟩⟩, ⟨rfl, h1, rfl⟩, ⟨rfl, ⟨rfl, .num, h0, rfl, rfl⟩⟩, h1, rfl⟩

theorem ex_row : RowOf [3, 11] [.int 12, .str (lit "y")] [intVal 3 12, new (.varLen (lit "y"))] := by
  refine ⟨rfl, rfl, fun i t s v h1 h2 h3 => ?_⟩
  match i with
  | 0 => cases h1; cases h2; cases h3; exact ⟨by simp [Fits, lo, hi], rfl⟩
  | 1 => cases h1; cases h2; cases h3; exact ⟨rfl, rfl⟩
  | i + 2 => cases h1

example : LitItems exAst ∧ Accepted [3, 11] exAst ∧ Safe [3, 11] [.int 12, .str (lit "y")] exAst ∧ den [.int 12, .str (lit "y")] exAst = some (.str (lit "y!")) := by
  refine ⟨?_, ?_, ?_, by decide +kernel⟩
  · simp [exAst, LitItems, LitArms, AllLits, Ast.isLit]
  · simp [exAst, Accepted, AcceptedArms, AcceptedAll, exprTy, armsTy, armsAll]
  · refine ⟨⟨⟨⟨trivial, trivial, 12, 1, 13, rfl, rfl, rfl, by simp [exprTy, Fits, lo, hi]⟩, trivial⟩, trivial⟩, .inl ⟨by decide +kernel, trivial, trivial, lit "y", lit "!", rfl, rfl⟩⟩

/-- Well-typed expressions that are refused: `b AND NULL`, `1 + NULL`, `NULL = 5` (while `5 = NULL` is accepted), a CASE with the results 1 and 1000, and one with ELSE NULL. -/
theorem C124_refused_fails :
    (WT [0] (.and (.col 0) .null) .bool ∧ parse [0] (.and (.col 0) .null) = .err) ∧
    (WT [] (.arith .add (.num 1) .null) .num ∧ parse [] (.arith .add (.num 1) .null) = .err) ∧
    (WT [] (.cmp .eq .null (.num 5)) .bool ∧ parse [] (.cmp .eq .null (.num 5)) = .err ∧ ∃ x, parse [] (.cmp .eq (.num 5) .null) = .ok x) ∧
    (WT [0] (.caseWhen (.when (.col 0) (.num 1) (.els (.num 1000)))) .num ∧ parse [0] (.caseWhen (.when (.col 0) (.num 1) (.els (.num 1000)))) = .err) ∧
    WT [0] (.caseWhen (.when (.col 0) (.num 1) (.els .null))) .num ∧ parse [0] (.caseWhen (.when (.col 0) (.num 1) (.els .null))) = .err := by
  have hc : WT [0] (.col 0) .bool := ⟨0, rfl, rfl⟩
  exact ⟨⟨⟨rfl, hc, trivial⟩, rfl⟩, ⟨⟨rfl, rfl, trivial⟩, rfl⟩, ⟨⟨rfl, .num, trivial, rfl⟩, rfl, _, rfl⟩, ⟨⟨hc, rfl, rfl⟩, rfl⟩, ⟨hc, rfl, trivial⟩, rfl⟩

/-- Expressions that have a value in SQL and none here: `100 + 100`, `a + 1` and `a > 1` as a CASE condition where a is NULL. -/
theorem C124_overflow_fails : (den [] (.arith .add (.num 100) (.num 100)) = some (.int 200) ∧ ∃ e t, parse [] (.arith .add (.num 100) (.num 100)) = .ok (e, t) ∧
      eval false (rowEnv []) e = .err) ∧
    (den [.null] (.arith .add (.col 0) (.num 1)) = some .null ∧ ∃ e t, parse [3] (.arith .add (.col 0) (.num 1)) = .ok (e, t) ∧ eval false (rowEnv [new .null]) e = .err) ∧
    ∃ c, den [.null] (.caseWhen (.when (.cmp .gt (.col 0) (.num 1)) (.num 1) (.els (.num 2)))) = some (.int 2) ∧
      parse [3] (.caseWhen (.when (.cmp .gt (.col 0) (.num 1)) (.num 1) (.els (.num 2)))) = .ok (c, 1) ∧ eval false (rowEnv [new .null]) c = .err :=
  ⟨⟨rfl, _, _, rfl, rfl⟩, ⟨rfl, _, _, rfl, rfl⟩, _, rfl, rfl, rfl⟩

/-- On a CHAR column `c IN ('a')` is FALSE where `c = 'a'` is TRUE. -/
theorem C124_char_fails : ∃ e e', parse [12] (.inList false (.col 0) (.cons (.str (lit "a")) .nil)) = .ok (e, 0) ∧ parse [12] (.cmp .eq (.col 0) (.str (lit "a"))) = .ok (e', 0) ∧
    EvalsTo false (rowEnv [strVal 12 (lit "a")]) e .f ∧ EvalsTo false (rowEnv [strVal 12 (lit "a")]) e' .t := by
  refine ⟨_, _, rfl, rfl, ⟨ofTri .f, ?_, rfl⟩, ⟨ofTri .t, ?_, rfl⟩⟩
  · have : inCheck (strVal 12 (lit "a")) [strVal 11 (lit "a")] = .f := by decide +kernel
    show Res.ok (ofTri (inCheck (strVal 12 (lit "a")) [strVal 11 (lit "a")])) = _
    rw [this]
  · show comparison .eq (strVal 12 (lit "a")) (strVal 11 (lit "a")) = _
    have : compareOp .eq (strVal 11 (lit "a")) (strVal 11 (lit "a")) = .t := by decide +kernel
    show Res.ok (ofTri (compareOp .eq (strVal 11 (lit "a")) (strVal 11 (lit "a")))) = _
    rw [this]

/-- The types of one kind: numbers, characters, dates with times. -/
def kinds : List (List Nat) := [[1, 2, 3, 4, 5, 6], [11, 12], [7, 8]]

/-- Two columns can be compared if and only if they are of one type or of one kind, and nothing is cast. -/
theorem C124_columns_partial (op : CmpOp) (s t : Nat) :
    (∃ x, parse [s, t] (.cmp op (.col 0) (.col 1)) = .ok x) ↔ s = t ∨ ∃ k ∈ kinds, s ∈ k ∧ t ∈ k := by
  have h : parse [s, t] (.cmp op (.col 0) (.col 1)) = if comparable s t then .ok (.cmp op (.col 0 0) (.col 0 1), 0) else .err := rfl
  rw [h]
  have hc : comparable s t = true ↔ s = t ∨ ∃ k ∈ kinds, s ∈ k ∧ t ∈ k := by
    simp only [comparable, numeric, kinds, List.mem_cons, List.not_mem_nil, or_false, exists_eq_or_imp, exists_eq_left, Bool.or_eq_true, Bool.and_eq_true, decide_eq_true_eq, beq_iff_eq]
    omega
  rw [← hc]
  split <;> simp_all

-- A DATE and a TIMESTAMP are compared, a DATE and a number are not.
example : (∃ x, parse [8, 7] (.cmp .lt (.col 0) (.col 1)) = .ok x) ∧ ¬ ∃ x, parse [8, 3] (.cmp .lt (.col 0) (.col 1)) = .ok x := by
  rw [C124_columns_partial, C124_columns_partial]; simp [kinds]

end Verif.Sql

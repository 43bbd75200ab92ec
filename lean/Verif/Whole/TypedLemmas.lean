import Verif.Whole.TypedSpec
import Verif.Whole.NamedProps
import Verif.Sql.Calm

/-!
# Lemmas for C143
-/

namespace Verif.Whole

open Verif.Wire Verif.Bytes Verif.Sql Verif.Exec Verif.Dml
open Verif.Catalog (Cat Tab Col ColDef FkDef ObjName)

/-! ## Values -/

theorem rep_sv {t : Nat} {s : SV} {v : Value} (h : Rep t s v) : sv v = s := by
  cases s with
  | null =>
    have h : isNull v = true := h
    unfold isNull at h
    unfold sv
    cases hv : val v <;> rw [hv] at h <;> simp_all
  | int i =>
    obtain ⟨hf, rfl⟩ := h
    rcases fits_cases hf with ⟨rfl, _⟩ | ⟨rfl, _⟩ | ⟨rfl, _⟩ | ⟨rfl, _⟩ <;> rfl
  | bool b => obtain ⟨_, rfl⟩ := h; rfl
  | str b => obtain ⟨_, rfl⟩ := h; rfl

theorem rowOf_reads {ts : List Nat} {row : TRow} {vs : Row} (h : RowOf ts row vs) : reads vs = row := by
  obtain ⟨h1, h2, h3⟩ := h
  unfold reads
  apply List.ext_getElem?
  intro i
  rw [List.getElem?_map]
  by_cases hi : i < ts.length
  · rw [List.getElem?_eq_getElem (h2 ▸ hi), List.getElem?_eq_getElem (h1 ▸ hi), Option.map_some]
    rw [rep_sv (h3 i _ _ _ (List.getElem?_eq_getElem hi) (List.getElem?_eq_getElem (h1 ▸ hi)) (List.getElem?_eq_getElem (h2 ▸ hi)))]
  · rw [List.getElem?_eq_none (by omega), List.getElem?_eq_none (by omega)]
    rfl

/-- The rows have values of the types. -/
def RowsIn (ts : List Nat) (rows : List Row) : Prop := ∀ r ∈ rows, RowOf ts (reads r) r

/-! ## Expressions without columns -/

mutual
theorem parse_closed (ts : List Nat) : ∀ (a : Ast) {f : Fam}, WT [] a f → parse ts a = parse [] a
  | .col i, f, hw => by obtain ⟨t, h, _⟩ := hw; cases h
  | .num n, f, hw => by simp only [parse]
  | .str n, f, hw => by simp only [parse]
  | .bool n, f, hw => by simp only [parse]
  | .null, f, hw => by simp only [parse]
  | .arith op a b, f, hw => by simp only [parse, parse_closed ts a hw.2.1, parse_closed ts b hw.2.2]
  | .concat a b, f, hw => by simp only [parse, parse_closed ts a hw.2.1, parse_closed ts b hw.2.2]
  | .cmp op a b, f, hw => by obtain ⟨_, g, h1, h2⟩ := hw; simp only [parse, parse_closed ts a h1, parse_closed ts b h2]
  | .and a b, f, hw => by simp only [parse, parse_closed ts a hw.2.1, parse_closed ts b hw.2.2]
  | .or a b, f, hw => by simp only [parse, parse_closed ts a hw.2.1, parse_closed ts b hw.2.2]
  | .not a, f, hw => by simp only [parse, parse_closed ts a hw.2]
  | .neg a, f, hw => by simp only [parse, parse_closed ts a hw.2]
  | .is c n a, f, hw => by obtain ⟨_, g, _, h⟩ := hw; simp only [parse, parse_closed ts a h]
  | .between n a l h, f, hw => by obtain ⟨_, g, h1, h2, h3⟩ := hw; simp only [parse, parse_closed ts a h1, parse_closed ts l h2, parse_closed ts h h3]
  | .inList n a items, f, hw => by obtain ⟨_, g, h1, h2⟩ := hw; simp only [parse, parse_closed ts a h1, parseItems_closed ts items h2]
  | .caseWhen arms, f, hw => by simp only [parse, parseArms_closed ts arms (show WTArms [] arms f from hw)]
theorem parseItems_closed (ts : List Nat) : ∀ (as : Asts) {f : Fam}, WTs [] as f → parseItems ts as = parseItems [] as
  | .nil, f, hw => by simp only [parseItems]
  | .cons a as, f, hw => by simp only [parseItems, parse_closed ts a hw.1, parseItems_closed ts as hw.2]
theorem parseArms_closed (ts : List Nat) : ∀ (as : AstArms) {f : Fam}, WTArms [] as f → parseArms ts as = parseArms [] as
  | .fin, f, hw => by simp only [parseArms]
  | .els a, f, hw => by simp only [parseArms, parse_closed ts a (show WT [] a f from hw)]
  | .when c t rest, f, hw => by simp only [parseArms, parse_closed ts c hw.1, parse_closed ts t hw.2.1, parseArms_closed ts rest hw.2.2]
end

/-- The value does not depend on the row. -/
def ConstE (e : Expr) : Prop := ∀ ρ ρ', eval false ρ e = eval false ρ' e

theorem const_lit (v : Value) : ConstE (.lit v) := fun _ _ => by simp only [eval]

theorem const_cmp {op : CmpOp} {a b : Expr} (ha : ConstE a) (hb : ConstE b) : ConstE (.cmp op a b) := fun ρ ρ' => by
  simp only [eval]
  rw [ha ρ ρ', hb ρ ρ']

theorem castLit_const {v : Value} {t : Nat} {e : Expr} (h : castLit v t = .ok e) : ConstE e := by
  unfold castLit at h
  split at h <;> cases h
  exact const_lit _

theorem parseCmp_const {op : CmpOp} {a b x : Expr × Nat} (ha : ConstE a.1) (hb : ConstE b.1) (h : parseCmp op a b = .ok x) : ConstE x.1 := by
  unfold parseCmp at h
  split at h
  · cases h; exact const_cmp ha hb
  · split at h
    · obtain ⟨b', h1, h2⟩ := bind_ok h
      cases h2
      exact const_cmp ha (castLit_const h1)
    · split at h
      · obtain ⟨b', h1, h2⟩ := bind_ok h
        cases h2
        exact const_cmp (castLit_const h1) hb
      · cases h

mutual
theorem eval_closed : ∀ (a : Ast) {f : Fam} {x : Expr × Nat}, WT [] a f → parse [] a = .ok x → ConstE x.1
  | .col i, f, x, hw, h => by obtain ⟨t, h, _⟩ := hw; cases h
  | .num n, f, x, hw, h => by
    simp only [parse] at h
    split at h <;> cases h
    exact const_lit _
  | .str n, f, x, hw, h => by simp only [parse] at h; cases h; exact const_lit _
  | .bool n, f, x, hw, h => by simp only [parse] at h; cases h; exact const_lit _
  | .null, f, x, hw, h => by simp only [parse] at h; cases h; exact const_lit _
  | .arith op a b, f, x, hw, h => by
    simp only [parse] at h
    obtain ⟨y, h1, h⟩ := bind_ok h
    obtain ⟨z, h2, h⟩ := bind_ok h
    split at h <;> cases h
    intro ρ ρ'
    simp only [eval, eval_closed a hw.2.1 h1 ρ ρ', eval_closed b hw.2.2 h2 ρ ρ']
  | .concat a b, f, x, hw, h => by
    simp only [parse] at h
    obtain ⟨y, h1, h⟩ := bind_ok h
    obtain ⟨z, h2, h⟩ := bind_ok h
    split at h <;> cases h
    intro ρ ρ'
    simp only [eval, eval_closed a hw.2.1 h1 ρ ρ', eval_closed b hw.2.2 h2 ρ ρ']
  | .cmp op a b, f, x, hw, h => by
    obtain ⟨_, g, w1, w2⟩ := hw
    simp only [parse] at h
    obtain ⟨y, h1, h⟩ := bind_ok h
    obtain ⟨z, h2, h⟩ := bind_ok h
    exact parseCmp_const (eval_closed a w1 h1) (eval_closed b w2 h2) h
  | .and a b, f, x, hw, h => by
    simp only [parse] at h
    obtain ⟨y, h1, h⟩ := bind_ok h
    obtain ⟨z, h2, h⟩ := bind_ok h
    split at h <;> cases h
    intro ρ ρ'
    simp only [eval, eval_closed a hw.2.1 h1 ρ ρ', eval_closed b hw.2.2 h2 ρ ρ']
  | .or a b, f, x, hw, h => by
    simp only [parse] at h
    obtain ⟨y, h1, h⟩ := bind_ok h
    obtain ⟨z, h2, h⟩ := bind_ok h
    split at h <;> cases h
    intro ρ ρ'
    simp only [eval, eval_closed a hw.2.1 h1 ρ ρ', eval_closed b hw.2.2 h2 ρ ρ']
  | .not a, f, x, hw, h => by
    simp only [parse] at h
    obtain ⟨y, h1, h⟩ := bind_ok h
    split at h <;> cases h
    intro ρ ρ'
    simp only [eval, eval_closed a hw.2 h1 ρ ρ']
  | .neg a, f, x, hw, h => by
    simp only [parse] at h
    obtain ⟨y, h1, h⟩ := bind_ok h
    split at h
    · cases h
      intro ρ ρ'
      simp only [eval, eval_closed a hw.2 h1 ρ ρ']
    · split at h <;> cases h
      intro ρ ρ'
      simp only [eval, eval_closed a hw.2 h1 ρ ρ']
  | .is c n a, f, x, hw, h => by
    obtain ⟨_, g, _, w⟩ := hw
    simp only [parse] at h
    obtain ⟨y, h1, h⟩ := bind_ok h
    cases h
    intro ρ ρ'
    simp only [eval, eval_closed a w h1 ρ ρ']
  | .between n a l h', f, x, hw, h => by
    obtain ⟨_, g, w1, w2, w3⟩ := hw
    simp only [parse] at h
    obtain ⟨y1, h1, h⟩ := bind_ok h
    obtain ⟨y2, h2, h⟩ := bind_ok h
    obtain ⟨y3, h3, h⟩ := bind_ok h
    cases h
    intro ρ ρ'
    unfold parseBetween
    split <;> simp only [eval, eval_closed a w1 h1 ρ ρ', eval_closed l w2 h2 ρ ρ', eval_closed h' w3 h3 ρ ρ']
  | .inList n a items, f, x, hw, h => by
    obtain ⟨_, g, w1, w2⟩ := hw
    simp only [parse] at h
    obtain ⟨y1, h1, h⟩ := bind_ok h
    obtain ⟨y2, h2, h⟩ := bind_ok h
    cases h
    intro ρ ρ'
    simp only [parseIn, eval, eval_closed a w1 h1 ρ ρ']
  | .caseWhen arms, f, x, hw, h => by
    simp only [parse] at h
    obtain ⟨y, h1, h⟩ := bind_ok h
    split at h
    · next hy _ =>
      cases h
      intro ρ ρ'
      have := arms_closed arms (show WTArms [] arms f from hw) h1 ρ ρ'
      rw [hy] at this
      simp only [eval, this]
    · cases h
theorem arms_closed : ∀ (as : AstArms) {f : Fam} {x : Arms × List Nat}, WTArms [] as f → parseArms [] as = .ok x → ∀ ρ ρ', evalArms false ρ none x.1 = evalArms false ρ' none x.1
  | .fin, f, x, hw, h => by simp only [parseArms] at h; cases h; intro ρ ρ'; simp only [evalArms, eval]
  | .els a, f, x, hw, h => by
    simp only [parseArms] at h
    obtain ⟨y, h1, h⟩ := bind_ok h
    cases h
    intro ρ ρ'
    simp only [evalArms]
    exact eval_closed a (show WT [] a f from hw) h1 ρ ρ'
  | .when c t rest, f, x, hw, h => by
    simp only [parseArms] at h
    obtain ⟨y1, h1, h⟩ := bind_ok h
    obtain ⟨y2, h2, h⟩ := bind_ok h
    obtain ⟨y3, h3, h⟩ := bind_ok h
    cases h
    intro ρ ρ'
    simp only [evalArms, eval_closed c hw.1 h1 ρ ρ', eval_closed t hw.2.1 h2 ρ ρ', arms_closed rest hw.2.2 h3 ρ ρ']
end

/-! ## WHERE -/

theorem where_ok {ts : List Nat} {r : Row} (hr : RowOf ts (reads r) r) {a : Ast} (hw : WT ts a .bool) (hl : LitItems a) {e : Expr} {t : Nat} (hp : parse ts a = .ok (e, t))
    (hs : Safe ts (reads r) a) : (EvalsTo false (rowEnv r) e .t ↔ den (reads r) a = some (.bool true)) ∧ ∃ x, EvalsTo false (rowEnv r) e x := by
  obtain ⟨v, hv⟩ := (C124_evaluates_partial hr hw hl hp).2 hs
  obtain ⟨s, h1, h2⟩ := C124_value_partial hr hw hl hp hv
  have ht := (parse_ty ts a hw hp).1
  have htr : (truth v = some .t ↔ s = .bool true) ∧ ∃ x, truth v = some x := by
    cases s with
    | null =>
      have h2 : isNull v = true := h2
      unfold isNull at h2
      unfold truth
      cases hval : val v <;> rw [hval] at h2 <;> simp_all
    | int i =>
      exfalso
      rcases ht with ht | ht
      · have := h2.1.2.1; omega
      · have := fam_bool ht; have := h2.1.1; omega
    | bool b =>
      rw [h2.2]
      cases b <;> simp [truth, new, newTyped, val]
    | str b =>
      exfalso
      have := h2.1
      rcases ht with ht | ht
      · omega
      · have := fam_bool ht; omega
  rw [h1]
  refine ⟨⟨?_, ?_⟩, ?_⟩
  · rintro ⟨v', hv', h⟩
    rw [hv] at hv'
    cases hv'
    rw [htr.1.1 h]
  · intro h
    exact ⟨v, hv, htr.1.2 (Option.some.inj h)⟩
  · obtain ⟨x, hx⟩ := htr.2
    exact ⟨x, v, hv, hx⟩

theorem planWhere_ok {ts : List Nat} {p : Option Ast} {q : Option Expr} (h : planWhere ts p = .ok q) : (p = none ∧ q = none) ∨ ∃ a e t, p = some a ∧ q = some e ∧ parse ts a = .ok (e, t) := by
  cases p with
  | none => cases h; exact .inl ⟨rfl, rfl⟩
  | some a =>
    obtain ⟨x, h1, h2⟩ := bind_ok h
    cases h2
    exact .inr ⟨a, x.1, x.2, rfl, rfl, h1⟩

theorem holds_some {ts : List Nat} {a : Ast} {row : TRow} : holds ts (some a) row = true ↔ Safe ts row a ∧ den row a = some (.bool true) := by
  classical
  unfold holds
  dsimp only
  rw [decide_eq_true_eq]

theorem selected_iff {ts : List Nat} {p : Option Ast} {q : Option Expr} (h : planWhere ts p = .ok q) (hw : WellTyped ts p) {r : Row} (hr : RowOf ts (reads r) r)
    (hs : ∀ a, p = some a → Calm ts (reads r) a) : (Selected q r ↔ holds ts p (reads r) = true) ∧ Clear q r := by
  rcases planWhere_ok h with ⟨rfl, rfl⟩ | ⟨a, e, t, rfl, rfl, hp⟩
  · exact ⟨⟨fun _ => rfl, fun _ => trivial⟩, trivial⟩
  · obtain ⟨w1, w2⟩ := hw a rfl
    rw [holds_some]
    unfold Selected
    dsimp only
    by_cases hsafe : Safe ts (reads r) a
    · obtain ⟨h1, h2⟩ := where_ok hr w1 w2 hp hsafe
      exact ⟨by rw [h1]; exact ⟨fun h => ⟨hsafe, h⟩, fun h => h.2⟩, .inl h2⟩
    · have he := (C124_errors_partial hr w1 w2 hp (hs a rfl)).2 hsafe
      refine ⟨⟨fun ⟨v, hv, _⟩ => ?_, fun h => absurd h.1 hsafe⟩, .inr he⟩
      rw [he] at hv
      cases hv

end Verif.Whole

import Verif.Sql.ParseProps

/-!
# Expressions that cannot be computed on a row

An expression that is not `Safe` on a row is an error there, and a WHERE clause that is an error leaves the row out. There is one exception: a minus whose result does not fit panics.
-/

namespace Verif.Sql

open Verif.Wire Verif.Bytes

mutual
/-- What can be computed is calm. -/
theorem calm_of_safe {ts : List Nat} {row : List SV} : ∀ (a : Ast), Safe ts row a → Calm ts row a
  | .col _, _ | .num _, _ | .str _, _ | .bool _, _ | .null, _ => trivial
  | .arith _ a b, h => ⟨calm_of_safe a h.1, calm_of_safe b h.2.1⟩
  | .concat a b, h => ⟨calm_of_safe a h.1, calm_of_safe b h.2.1⟩
  | .cmp _ a b, h => ⟨calm_of_safe a h.1, calm_of_safe b h.2⟩
  | .and a b, h => ⟨calm_of_safe a h.1, calm_of_safe b h.2⟩
  | .or a b, h => ⟨calm_of_safe a h.1, calm_of_safe b h.2⟩
  | .not a, h => calm_of_safe a h
  | .neg a, h => ⟨calm_of_safe a h.1, fun i hi => by
    rcases h.2 with h | ⟨j, hj, hf⟩
    · rw [h] at hi; cases hi
    · rw [hj] at hi; cases hi; exact hf⟩
  | .is _ _ a, h => calm_of_safe a h
  | .between _ a l u, h => ⟨calm_of_safe a h.1, calm_of_safe l h.2.1, calm_of_safe u h.2.2⟩
  | .inList _ a _, h => calm_of_safe a h
  | .caseWhen arms, h => calm_of_safe_arms arms h
termination_by structural a => a

theorem calm_of_safe_arms {ts : List Nat} {row : List SV} : ∀ (a : AstArms), SafeArms ts row a → CalmArms ts row a
  | .fin, _ => trivial
  | .els a, h => calm_of_safe a h
  | .when c t rest, h => by
    refine ⟨calm_of_safe c h.1, fun hc => ?_, fun hc => ?_⟩
    · rcases h.2 with ⟨_, h⟩ | ⟨h, _⟩
      · exact calm_of_safe t h
      · rw [h] at hc; cases hc
    · rcases h.2 with ⟨h, _⟩ | ⟨_, h⟩
      · rw [h] at hc; cases hc
      · exact calm_of_safe_arms rest h
termination_by structural a => a
end

/-- A value or an error. -/
def Tame (r : Res) : Prop := r = .err ∨ ∃ v, r = .ok v

theorem tame_ok (v : Value) : Tame (.ok v) := .inr ⟨v, rfl⟩

theorem tame_bind {r : Res} {k : Value → Res} (h : Tame r) (hk : ∀ v, r = .ok v → Tame (k v)) : Tame (r.bind k) := by
  rcases h with rfl | ⟨v, rfl⟩
  · exact .inl rfl
  · exact hk v rfl

theorem tame_arith (r : ArR) : Tame r.res := by
  cases r <;> first
    | exact tame_ok _
    | exact .inl rfl

theorem tame_concat (v w : Value) : Tame (concatValue v w) := by
  unfold concatValue
  split
  · exact tame_ok _
  · exact .inl rfl

theorem tame_not (v : Value) : Tame (notValue v) := by
  unfold notValue
  split
  · exact tame_ok _
  · split
    · exact tame_ok _
    · exact .inl rfl

theorem tame_is (c : Check) (n : Bool) (v : Value) : Tame (isCheck c n v) := by
  unfold isCheck
  split
  · split <;> first
      | exact tame_ok _
      | exact .inl rfl
  · split <;> first
      | exact tame_ok _
      | exact .inl rfl
  · exact tame_ok _
  · exact tame_ok _

/-- A comparison without a cast of the parser. -/
theorem tame_cmp (op : CmpOp) {ρ : Env} {a b : Expr} {f : Fam} {s t : Nat} (hs : InFam s f) (ht : InFam t f) (ha : Tame (eval false ρ a)) (hb : Tame (eval false ρ b))
    (ra : ∀ v, eval false ρ a = .ok v → ∃ x, Rep s x v) (rb : ∀ v, eval false ρ b = .ok v → ∃ x, Rep t x v) : Tame (eval false ρ (.cmp op a b)) := by
  simp only [eval]
  refine tame_bind ha fun v hv => tame_bind hb fun w hw => ?_
  obtain ⟨x, hx⟩ := ra v hv
  obtain ⟨y, hy⟩ := rb w hw
  obtain ⟨u, _, hu⟩ := cmp_rep op hs ht hx hy
  rw [hu]
  exact tame_ok _

mutual
/-- On a row on which it is calm, an expression has a value or is an error. -/
theorem eval_tame {ts : List Nat} {row : List SV} {vs : List Value} (hr : RowOf ts row vs) : ∀ (a : Ast) {f : Fam} {e : Expr} {t : Nat}, WT ts a f → LitItems a →
    parse ts a = .ok (e, t) → Calm ts row a → Tame (eval false (rowEnv vs) e)
  | .col i, f, e, t, hw, hl, h, hs => by
    obtain ⟨u, hu, hf⟩ := hw
    obtain ⟨s, w, h1, h2, h3⟩ := row_at hr hu
    simp only [parse, hu] at h
    cases h
    exact .inr ⟨w, by simp only [eval, rowEnv, h2]⟩
  | .num n, f, e, t, hw, hl, h, hs => by
    obtain ⟨rfl, _, _⟩ := parse_num h
    exact .inr ⟨_, by simp only [eval]; rfl⟩
  | .str b, f, e, t, hw, hl, h, hs => by
    simp only [parse] at h; cases h
    exact .inr ⟨_, by simp only [eval]; rfl⟩
  | .bool b, f, e, t, hw, hl, h, hs => by
    simp only [parse] at h; cases h
    exact .inr ⟨_, by simp only [eval]; rfl⟩
  | .null, f, e, t, hw, hl, h, hs => by
    simp only [parse] at h; cases h
    exact .inr ⟨_, by simp only [eval]; rfl⟩
  | .arith op a b, f, e, t, hw, hl, h, hs => by
    obtain ⟨rfl, ha, hb⟩ := hw
    simp only [parse] at h
    obtain ⟨x, hx, h⟩ := bind_ok h
    obtain ⟨y, hy, h⟩ := bind_ok h
    split at h
    · cases h
      simp only [eval]
      exact tame_bind (eval_tame hr a ha hl.1 hx hs.1) fun _ _ => tame_bind (eval_tame hr b hb hl.2 hy hs.2) fun _ _ => tame_arith _
    · cases h
  | .concat a b, f, e, t, hw, hl, h, hs => by
    obtain ⟨rfl, ha, hb⟩ := hw
    simp only [parse] at h
    obtain ⟨x, hx, h⟩ := bind_ok h
    obtain ⟨y, hy, h⟩ := bind_ok h
    split at h
    · cases h
      simp only [eval]
      exact tame_bind (eval_tame hr a ha hl.1 hx hs.1) fun _ _ => tame_bind (eval_tame hr b hb hl.2 hy hs.2) fun _ _ => tame_concat _ _
    · cases h
  | .cmp op a b, f, e, t, hw, hl, h, hs => by
    obtain ⟨rfl, g, ha, hb⟩ := hw
    simp only [parse] at h
    obtain ⟨x, hx, h⟩ := bind_ok h
    obtain ⟨y, hy, h⟩ := bind_ok h
    obtain ⟨f1, t1⟩ := parse_ty ts a ha hx
    obtain ⟨f2, t2⟩ := parse_ty ts b hb hy
    have T1 := eval_tame hr a ha hl.1 hx hs.1
    have T2 := eval_tame hr b hb hl.2 hy hs.2
    obtain ⟨a', b', he, hops, _⟩ := cmp_operands h f1 f2 (rowEnv vs)
    obtain ⟨a2, b2, he2, hk⟩ := parse_cmp_ok h
    cases he
    cases he2
    have T : Tame (eval false (rowEnv vs) a') ∧ Tame (eval false (rowEnv vs) b') := by
      rcases hk with ⟨rfl, rfl, _⟩ | ⟨rfl, u, w, hu, hc, rfl, hn⟩ | ⟨rfl, u, w, hu, hc, rfl, hn⟩
      · exact ⟨T1, T2⟩
      · exact ⟨T1, by simp only [eval]; exact tame_ok _⟩
      · exact ⟨by simp only [eval]; exact tame_ok _, T2⟩
    simp only [eval]
    refine tame_bind T.1 fun v hv => tame_bind T.2 fun w hw => ?_
    obtain ⟨p, q, hp, hq, hc⟩ := hops hv hw
    obtain ⟨⟨s1, _, r1⟩, _⟩ := value_rep hr a ha hl.1 hx hp
    obtain ⟨⟨s2, _, r2⟩, _⟩ := value_rep hr b hb hl.2 hy hq
    obtain ⟨u, _, hu⟩ := cmp_rep op f1 f2 r1 r2
    rw [hc r1 r2, hu]
    exact tame_ok _
  | .and a b, f, e, t, hw, hl, h, hs => by
    obtain ⟨rfl, ha, hb⟩ := hw
    simp only [parse] at h
    obtain ⟨x, hx, h⟩ := bind_ok h
    obtain ⟨y, hy, h⟩ := bind_ok h
    split at h
    · cases h
      simp only [eval]
      exact tame_bind (eval_tame hr a ha hl.1 hx hs.1) fun _ _ => tame_bind (eval_tame hr b hb hl.2 hy hs.2) fun _ _ => tame_ok _
    · cases h
  | .or a b, f, e, t, hw, hl, h, hs => by
    obtain ⟨rfl, ha, hb⟩ := hw
    simp only [parse] at h
    obtain ⟨x, hx, h⟩ := bind_ok h
    obtain ⟨y, hy, h⟩ := bind_ok h
    split at h
    · cases h
      simp only [eval]
      exact tame_bind (eval_tame hr a ha hl.1 hx hs.1) fun _ _ => tame_bind (eval_tame hr b hb hl.2 hy hs.2) fun _ _ => tame_ok _
    · cases h
  | .not a, f, e, t, hw, hl, h, hs => by
    obtain ⟨rfl, ha⟩ := hw
    simp only [parse] at h
    obtain ⟨x, hx, h⟩ := bind_ok h
    split at h
    · cases h
      simp only [eval]
      exact tame_bind (eval_tame hr a ha hl hx hs) fun _ _ => tame_not _
    · cases h
  | .neg a, f, e, t, hw, hl, h, hs => by
    obtain ⟨rfl, ha⟩ := hw
    simp only [parse] at h
    obtain ⟨x, hx, h⟩ := bind_ok h
    obtain ⟨f1, t1⟩ := parse_ty ts a ha hx
    have hev : e = .neg x.1 := by
      split at h
      · cases h; rfl
      · split at h
        · cases h; rfl
        · cases h
    subst hev
    simp only [eval]
    refine tame_bind (eval_tame hr a ha hl hx hs.1) fun p hp => ?_
    obtain ⟨⟨s1, d1, r1⟩, _⟩ := value_rep hr a ha hl hx hp
    rcases infam_rep f1 r1 with rfl | ⟨_, i, rfl⟩ | ⟨h, _⟩ | ⟨h, _⟩
    · exact .inr ⟨_, (negate_rep f1 r1).2 (.inl ⟨rfl, rfl⟩)⟩
    · exact .inr ⟨_, (negate_rep f1 r1).2 (.inr ⟨i, rfl, by rw [t1]; exact hs.2 i d1, rfl⟩)⟩
    · cases h
    · cases h
  | .is c n a, f, e, t, hw, hl, h, hs => by
    obtain ⟨rfl, g, hg, ha⟩ := hw
    simp only [parse] at h
    obtain ⟨x, hx, h⟩ := bind_ok h
    cases h
    simp only [eval]
    exact tame_bind (eval_tame hr a ha hl hx hs) fun _ _ => tame_is _ _ _
  | .between n a l u, f, e, t, hw, hl, h, hs => by
    obtain ⟨rfl, g, ha, hb, hc⟩ := hw
    simp only [parse] at h
    obtain ⟨x, hx, h⟩ := bind_ok h
    obtain ⟨y, hy, h⟩ := bind_ok h
    obtain ⟨z, hz, h⟩ := bind_ok h
    cases h
    have T1 := eval_tame hr a ha hl.1 hx hs.1
    have T2 := eval_tame hr l hb hl.2.1 hy hs.2.1
    have T3 := eval_tame hr u hc hl.2.2 hz hs.2.2
    have R1 : ∀ v, eval false (rowEnv vs) x.1 = .ok v → ∃ s, Rep x.2 s v := fun v hv => by obtain ⟨⟨s, _, r⟩, _⟩ := value_rep hr a ha hl.1 hx hv; exact ⟨s, r⟩
    have R2 : ∀ v, eval false (rowEnv vs) y.1 = .ok v → ∃ s, Rep y.2 s v := fun v hv => by obtain ⟨⟨s, _, r⟩, _⟩ := value_rep hr l hb hl.2.1 hy hv; exact ⟨s, r⟩
    have R3 : ∀ v, eval false (rowEnv vs) z.1 = .ok v → ∃ s, Rep z.2 s v := fun v hv => by obtain ⟨⟨s, _, r⟩, _⟩ := value_rep hr u hc hl.2.2 hz hv; exact ⟨s, r⟩
    have f1 := (parse_ty ts a ha hx).1
    have f2 := (parse_ty ts l hb hy).1
    have f3 := (parse_ty ts u hc hz).1
    have C : ∀ op op', Tame (eval false (rowEnv vs) (.cmp op x.1 y.1)) ∧ Tame (eval false (rowEnv vs) (.cmp op' x.1 z.1)) := fun op op' =>
      ⟨tame_cmp op f1 f2 T1 T2 R1 R2, tame_cmp op' f1 f3 T1 T3 R1 R3⟩
    cases n
    · show Tame (eval false _ (.and _ _))
      rw [eval]
      exact tame_bind (C .ge .le).1 fun _ _ => tame_bind (C .ge .le).2 fun _ _ => tame_ok _
    · show Tame (eval false _ (.or _ _))
      rw [eval]
      exact tame_bind (C .lt .gt).1 fun _ _ => tame_bind (C .lt .gt).2 fun _ _ => tame_ok _
  | .inList n a items, f, e, t, hw, hl, h, hs => by
    obtain ⟨rfl, g, ha, hi⟩ := hw
    simp only [parse] at h
    obtain ⟨x, hx, h⟩ := bind_ok h
    obtain ⟨y, hy, h⟩ := bind_ok h
    cases h
    simp only [parseIn, eval]
    exact tame_bind (eval_tame hr a ha hl.1 hx hs) fun _ _ => tame_ok _
  | .caseWhen arms, f, e, t, hw, hl, h, hs => by
    obtain ⟨c, r, rest, c', r', rest', us, ha, hc, ht, hrest, rfl, hu⟩ := parse_case h
    have hp : parseArms ts arms = .ok (.when c'.1 r' rest', t :: us) := by
      simp only [ha, parseArms, hc, ht, hrest, PR.bind]
    have := tame_arms hr arms hw hl hp hs
    simp only [eval]
    exact this
termination_by structural a => a

theorem tame_arms {ts : List Nat} {row : List SV} {vs : List Value} (hr : RowOf ts row vs) : ∀ (a : AstArms) {f : Fam} {e : Arms} {us : List Nat},
    WTArms ts a f → LitArms a → parseArms ts a = .ok (e, us) → CalmArms ts row a → Tame (evalArms false (rowEnv vs) none e)
  | .fin, f, e, us, hw, hl, h, hs => by
    simp only [parseArms] at h; cases h
    exact .inr ⟨_, by simp only [evalArms, eval]; rfl⟩
  | .els a, f, e, us, hw, hl, h, hs => by
    simp only [parseArms] at h
    obtain ⟨x, hx, h⟩ := bind_ok h
    cases h
    have := eval_tame hr a hw hl hx hs
    simp only [evalArms]
    exact this
  | .when c r rest, f, e, us, hw, hl, h, hs => by
    obtain ⟨hwc, hwr, hwrest⟩ := hw
    obtain ⟨hlc, hlr, hlrest⟩ := hl
    simp only [parseArms] at h
    obtain ⟨x, hx, h⟩ := bind_ok h
    obtain ⟨y, hy, h⟩ := bind_ok h
    obtain ⟨z, hz, h⟩ := bind_ok h
    cases h
    simp only [evalArms]
    refine tame_bind (eval_tame hr c hwc hlc hx hs.1) fun v hv => ?_
    obtain ⟨⟨s1, d1, r1⟩, _⟩ := value_rep hr c hwc hlc hx hv
    split
    · next b hval =>
      have ht := (parse_ty ts c hwc hx).1
      have hb : s1 = .bool b := by
        rcases infam_rep ht r1 with rfl | ⟨h, _⟩ | ⟨_, b', rfl⟩ | ⟨h, _⟩
        · have r1 : isNull v = true := r1
          unfold isNull at r1
          rw [hval] at r1
          cases r1
        · cases h
        · rw [r1.2] at hval; cases hval; rfl
        · cases h
      subst hb
      split
      · next hb => subst hb; exact eval_tame hr r hwr hlr hy (hs.2.1 d1)
      · next hb =>
        rw [Bool.not_eq_true] at hb
        subst hb
        exact tame_arms hr rest hwrest hlrest hz (hs.2.2 d1)
    · exact .inl rfl
termination_by structural a => a
end

/-- A well-typed expression Ferrite accepts is an error on the rows on which it is not `Safe`, unless a minus overflows there. -/
theorem C124_errors_partial {ts : List Nat} {row : List SV} {vs : List Value} (hr : RowOf ts row vs) {a : Ast} {f : Fam} (hw : WT ts a f) (hl : LitItems a) {e : Expr} {t : Nat}
    (hp : parse ts a = .ok (e, t)) (hc : Calm ts row a) : eval false (rowEnv vs) e = .err ↔ ¬Safe ts row a := by
  have h := C124_evaluates_partial hr hw hl hp
  constructor
  · intro he hs
    obtain ⟨v, hv⟩ := h.2 hs
    rw [he] at hv
    cases hv
  · intro hs
    rcases eval_tame hr a hw hl hp hc with he | hv
    · exact he
    · exact absurd (h.1 hv) hs

/-- `a + 1 > 0` on a row with NULL. -/
example : Calm [3] [.null] (.cmp .gt (.arith .add (.col 0) (.num 1)) (.num 0)) ∧ ¬Safe [3] [.null] (.cmp .gt (.arith .add (.col 0) (.num 1)) (.num 0)) := by
  refine ⟨⟨⟨trivial, trivial⟩, trivial⟩, ?_⟩
  rintro ⟨⟨_, _, i, j, r, h, _⟩, _⟩
  cases h

/-- `b OR a + 1 > 0` is TRUE where `b` is TRUE, even if `a` is NULL. Ferrite cannot compute it there: a WHERE clause leaves the row out. -/
theorem C124_where_fails : ∃ (ts : List Nat) (row : List SV) (vs : List Value) (a : Ast) (e : Expr) (t : Nat), RowOf ts row vs ∧ WT ts a .bool ∧ LitItems a ∧ parse ts a = .ok (e, t) ∧
    den row a = some (.bool true) ∧ eval false (rowEnv vs) e = .err := by
  refine ⟨[0, 3], [.bool true, .null], [new (.boolean true), newTyped .null 3], .or (.col 0) (.cmp .gt (.arith .add (.col 1) (.num 1)) (.num 0)), _, _, ?_, ?_, ?_, rfl, rfl, rfl⟩
  · refine ⟨rfl, rfl, fun i t s v h1 h2 h3 => ?_⟩
    match i with
    | 0 => cases h1; cases h2; cases h3; exact ⟨rfl, rfl⟩
    | 1 => cases h1; cases h2; cases h3; rfl
    | i + 2 => cases h1
  · simp [WT, famOf]
  · simp [LitItems]

end Verif.Sql

import Verif.Dml.DeclaredSpec
import Verif.Dml.InsertProps
import Verif.Dml.Witness
import Verif.Sql.ExprProps

/-!
# Declared types (C128)
-/

namespace Verif.Dml

open Verif.Wire Verif.Bytes Verif.Sql Verif.Exec

/-! ## Expressions give values of their types -/

theorem repr_null {v : Value} (h : isNull v = true) : Representable v := by
  unfold isNull at h
  unfold Representable
  split at h <;> simp_all

theorem repr_int {t : Nat} {i : Int} (ht : 1 ≤ t ∧ t ≤ 4) (h : lo t ≤ i ∧ i ≤ hi t) : Representable (intVal t i) := by
  have : t = 1 ∨ t = 2 ∨ t = 3 ∨ t = 4 := by omega
  rcases this with rfl | rfl | rfl | rfl <;> simp only [lo, hi] at h <;> simp only [Representable, intVal, newTyped, val, ty, true_and] <;> omega

theorem repr_tri (x : Tri) : Representable (ofTri x) := by cases x <;> simp [Representable, ofTri, new, newTyped, val, ty, tag]

theorem repr_bool (b : Bool) : Representable (new (.boolean b)) := rfl

theorem parseInt_range {l h i : Int} {s : List Byte} (hp : parseInt l h s = some i) : l ≤ i ∧ i ≤ h := by
  simp only [parseInt, Option.bind_eq_some_iff] at hp
  obtain ⟨_, _, hp⟩ := hp
  split at hp
  · cases hp; assumption
  · cases hp

theorem parseU64_range {s : List Byte} {n : Nat} (hp : parseU64 s = some n) : n < 2 ^ 64 := by
  simp only [parseU64, Option.bind_eq_some_iff] at hp
  obtain ⟨_, _, hp⟩ := hp
  split at hp
  · cases hp; assumption
  · cases hp

theorem lo_nonpos (t : Nat) : lo t ≤ 0 ∧ 0 ≤ hi t := by
  unfold lo hi
  split <;> decide

theorem lo_hi_mono {s t : Nat} (hs : 1 ≤ s) (h : s ≤ t) (ht : t ≤ 4) : lo t ≤ lo s ∧ hi s ≤ hi t := by
  have h1 : s = 1 ∨ s = 2 ∨ s = 3 ∨ s = 4 := by omega
  have h2 : t = 1 ∨ t = 2 ∨ t = 3 ∨ t = 4 := by omega
  rcases h1 with rfl | rfl | rfl | rfl <;> rcases h2 with rfl | rfl | rfl | rfl <;> first | omega | decide

theorem castInt_repr {s : Nat} {i : Int} (hs : 1 ≤ s ∧ s ≤ 4) (h : lo s ≤ i ∧ i ≤ hi s) : ∀ {t : Nat} {w : Value}, castInt s i t = .ok w → Representable w := by
  have num : ∀ {t w}, 1 ≤ t → t ≤ 4 → (if s ≤ t then CastR.ok (intVal t i) else if lo t ≤ i ∧ i ≤ hi t then .ok (intVal t i) else .err) = .ok w → Representable w := by
    intro t w h1 h4 hc
    split at hc
    · rename_i hst
      cases hc
      have := lo_hi_mono hs.1 hst h4
      exact repr_int ⟨h1, h4⟩ (by omega)
    · split at hc
      · cases hc
        exact repr_int ⟨h1, h4⟩ ‹_›
      · cases hc
  intro t w hc
  match t, hc with
  | 0, hc => cases hc; rfl
  | 1, hc | 2, hc | 3, hc | 4, hc => exact num (by decide) (by decide) hc
  | 5, hc | 6, hc | 11, hc | 12, hc => cases hc; rfl
  | 7, hc =>
    simp only [castInt] at hc
    split at hc
    · split at hc
      · cases hc
        have := (lo_hi_mono hs.1 hs.2 (Nat.le_refl 4)).2
        simp only [hi] at this
        exact ⟨rfl, by simp only [hi] at h; have h3 := h.2; omega⟩
      · cases hc
    · cases hc
  | 8, hc | 9, hc | 10, hc | n + 13, hc => cases hc

theorem castFloat_repr {f : Fmt} {x : Nat} : ∀ {t : Nat} {w : Value}, castFloat f x t = .ok w → Representable w := by
  intro t w hc
  match t, hc with
  | 0, hc | 5, hc | 6, hc => cases hc; rfl
  | 1, hc | 2, hc | 3, hc | 4, hc => cases hc; exact repr_int (by decide) (toInt_bounds f (lo_nonpos _).1 (lo_nonpos _).2 x)
  | 7, hc | 8, hc | 9, hc | 10, hc | 11, hc | 12, hc | n + 13, hc => cases hc

theorem orErr_ok {o : Option Value} {w : Value} (h : orErr o = .ok w) : o = some w := by
  cases o <;> cases h
  rfl

theorem orOut_ok {o : Option Value} {w : Value} (h : orOut o = .ok w) : o = some w := by
  cases o <;> cases h
  rfl

theorem castStr_repr {s : List Byte} : ∀ {t : Nat} {w : Value}, castStr s t = .ok w → Representable w := by
  intro t w hc
  match t, hc with
  | 0, hc =>
    obtain ⟨_, _, rfl⟩ := Option.map_eq_some_iff.1 (orErr_ok hc)
    rfl
  | 1, hc | 2, hc | 3, hc | 4, hc =>
    obtain ⟨i, hi, rfl⟩ := Option.map_eq_some_iff.1 (orErr_ok hc)
    exact repr_int (by decide) (parseInt_range hi)
  | 7, hc =>
    obtain ⟨i, hi, rfl⟩ := Option.map_eq_some_iff.1 (orOut_ok hc)
    exact ⟨rfl, parseU64_range hi⟩
  | 8, hc | 9, hc =>
    obtain ⟨i, hi, rfl⟩ := Option.map_eq_some_iff.1 (orOut_ok hc)
    have := parseInt_range hi
    exact ⟨rfl, by simp only [lo, Sql.hi] at this; omega⟩
  | 10, hc =>
    obtain ⟨i, hi, rfl⟩ := Option.map_eq_some_iff.1 (orErr_ok hc)
    have := parseInt_range hi
    exact ⟨rfl, by simp only [lo, Sql.hi] at this; omega⟩
  | 11, hc | 12, hc | 13, hc | 14, hc | 15, hc => cases hc; rfl
  | 5, hc | 6, hc | n + 16, hc => cases hc

theorem wrapI64_range {n : Nat} (h : n < 2 ^ 64) : lo 4 ≤ wrapI64 n ∧ wrapI64 n ≤ hi 4 := by
  simp only [wrapI64, lo, hi]
  split <;> omega

/-- A cast gives values of their types. -/
theorem castTo_repr {a w : Value} {t : Nat} (ha : Representable a) (h : castTo a t = .ok w) : Representable w := by
  unfold castTo at h
  split at h
  · cases h; exact ha
  split at h
  · cases h; trivial
  unfold Representable at ha
  split at h <;> rename_i hv <;> rw [hv] at ha <;> simp only at ha
  case h_2 => exact castInt_repr (by decide) (by simp only [lo, hi]; omega) h
  case h_3 => exact castInt_repr (by decide) (by simp only [lo, hi]; omega) h
  case h_4 => exact castInt_repr (by decide) (by simp only [lo, hi]; omega) h
  case h_5 => exact castInt_repr (by decide) (by simp only [lo, hi]; omega) h
  case h_6 => exact castFloat_repr h
  case h_7 => exact castFloat_repr h
  case h_8 => exact castStr_repr h
  case h_9 => exact castStr_repr h
  all_goals first
    | (cases h; done)
    | (cases h; trivial)
    | (split at h <;> first
        | (cases h; done)
        | (cases h; rfl)
        | (cases h; exact repr_int (by decide) (by split <;> decide))
        | (cases h; exact repr_int (by decide) (wrapI64_range ha.2))
        | (cases h; exact repr_int (by decide) (by simp only [lo, hi]; omega))
        | (split at h
           · cases h; exact repr_int (by decide) (by simp only [lo, hi] at *; omega)
           · cases h))

theorem checked_repr {t : Nat} {op : ArOp} {i j : Int} {w : Value} (ht : 1 ≤ t ∧ t ≤ 4) (h : checked t op i j = .ok w) : Representable w := by
  unfold checked at h
  split at h
  · cases h
  split at h
  · cases h
    exact repr_int ht ‹_›
  · cases h

theorem checkedJoin_repr {t : Nat} {op : ArOp} {i j : Int} {w : Value} (ht : 1 ≤ t ∧ t ≤ 4) (h : checkedJoin t op i j = .ok w) : Representable w := by
  unfold checkedJoin at h
  split at h
  · cases h
  split at h
  · cases h
    exact repr_int ht ‹_›
  · cases h

theorem onFloat_repr {f : Fmt} {mk : Nat → Value} (hm : ∀ x, Representable (mk x)) {op : ArOp} {x y : Nat} {w : Value} (h : onFloat f mk op x y = .ok w) : Representable w := by
  cases op <;> simp only [onFloat] at h
  case div =>
    split at h
    · cases h
    · cases h; exact hm _
  all_goals cases h; exact hm _

theorem mkFloat_repr (x : Nat) : Representable (mkFloat x) := rfl
theorem mkDecimal_repr (x : Nat) : Representable (mkDecimal x) := rfl

theorem operand_int {a : Value} {t : Nat} {i : Int} (h : operand a = some (.int t i)) : 1 ≤ t ∧ t ≤ 4 := by
  unfold operand at h
  split at h <;> cases h <;> decide

theorem arith_repr {op : ArOp} {a b w : Value} (h : arith op a b = .ok w) : Representable w := by
  unfold arith at h
  split at h
  · have h1 := operand_int ‹operand a = _›
    have h2 := operand_int ‹operand b = _›
    exact checked_repr (by omega) h
  all_goals first
    | exact onFloat_repr mkFloat_repr h
    | exact onFloat_repr mkDecimal_repr h
    | cases h

theorem arithJoin_repr {op : ArOp} {a b w : Value} (h : arithJoin op a b = .ok w) : Representable w := by
  unfold arithJoin at h
  split at h
  all_goals first
    | exact checkedJoin_repr (by decide) h
    | exact checked_repr (by decide) h
    | exact onFloat_repr mkDecimal_repr h
    | cases h

theorem negate_repr {a w : Value} (ha : Representable a) (h : negate a = .ok w) : Representable w := by
  unfold negate at h
  unfold Representable at ha
  split at h
  case h_1 => cases h; trivial
  case h_6 => cases h; rfl
  case h_7 => cases h
  all_goals
    rename_i hv
    rw [hv] at ha
    simp only at ha
    split at h
    · cases h
      rename_i hh
      simp only [hi] at hh
      exact ⟨rfl, by omega, by omega⟩
    · cases h

theorem tmod_bounds (i j : Int) : (0 ≤ i → 0 ≤ i.tmod j ∧ i.tmod j ≤ i) ∧ (i ≤ 0 → i ≤ i.tmod j ∧ i.tmod j ≤ 0) := by
  have h1 : ∀ k : Int, 0 ≤ k → 0 ≤ k.tmod j ∧ k.tmod j ≤ k := by
    intro k hk
    refine ⟨Int.tmod_nonneg j hk, ?_⟩
    have h2 := Int.natAbs_tmod k j
    have h3 := Nat.mod_le k.natAbs j.natAbs
    have h4 := Int.tmod_nonneg j hk
    omega
  refine ⟨h1 i, fun hi => ?_⟩
  have h2 := h1 (-i) (by omega)
  rw [Int.neg_tmod] at h2
  omega

theorem modulo_repr {a b w : Value} (ha : Representable a) (hb : Representable b) (h : modulo a b = .ok w) : Representable w := by
  unfold modulo at h
  split at h
  · cases h; trivial
  split at h
  · rename_i i j hi hj
    split at h
    · cases h
    · cases h
      unfold Representable at ha hb
      rw [hi] at ha
      rw [hj] at hb
      simp only at ha hb
      have h1 := tmod_bounds i j
      refine ⟨rfl, ?_⟩
      show -2 ^ 31 ≤ i.tmod j ∧ i.tmod j < 2 ^ 31
      generalize i.tmod j = k at h1
      omega
  · cases h; trivial

theorem bind_ok {r : Res} {k : Value → Res} {w : Value} (h : r.bind k = .ok w) : ∃ v, r = .ok v ∧ k v = .ok w := by
  cases r <;> first | exact ⟨_, rfl, h⟩ | cases h

theorem arRes_ok {r : ArR} {w : Value} (h : r.res = .ok w) : r = .ok w := by cases r <;> cases h; rfl

theorem panicRes_ok {r : PanicR} {w : Value} (h : r.res = .ok w) : r = .ok w := by cases r <;> cases h; rfl

theorem rowEnv_repr {x y : Value} (hx : Representable x) (hy : Representable y) : ∀ side i v, rowEnv [x, y] side i = some v → Representable v := by
  intro _ i v h
  simp only [rowEnv] at h
  have := List.mem_of_getElem? h
  simp only [List.mem_cons, List.not_mem_nil, or_false] at this
  rcases this with rfl | rfl <;> assumption

theorem notValue_repr {a w : Value} (h : notValue a = .ok w) : Representable w := by
  unfold notValue at h
  split at h
  · cases h; trivial
  · split at h <;> cases h
    rfl

theorem comparison_repr {op : CmpOp} {a b w : Value} (h : comparison op a b = .ok w) : Representable w := by
  unfold comparison at h
  repeat' split at h
  all_goals cases h
  all_goals exact repr_tri _

theorem isCheck_repr {c : Check} {n : Bool} {a w : Value} (h : isCheck c n a = .ok w) : Representable w := by
  unfold isCheck at h
  repeat' split at h
  all_goals cases h
  all_goals rfl

theorem concat_repr {a b w : Value} (h : concatValue a b = .ok w) : Representable w := by
  unfold concatValue at h
  split at h <;> cases h
  rfl

mutual
/-- An expression over values of their types gives a value of its type. -/
theorem eval_repr (j : Bool) : ∀ (e : Expr) {ρ : Env} {w : Value}, (∀ side i v, ρ side i = some v → Representable v) → Literals Representable e → eval j ρ e = .ok w → Representable w
  | .col side i, ρ, w, hρ, _, h => by
    simp only [eval] at h
    split at h
    · cases h; exact hρ _ _ _ ‹_›
    · cases h
  | .lit v, ρ, w, _, hl, h => by
    simp only [eval] at h
    cases h; exact hl
  | .arith op a b, ρ, w, _, _, h => by
    simp only [eval] at h
    obtain ⟨x, _, h⟩ := bind_ok h
    obtain ⟨y, _, h⟩ := bind_ok h
    have h := arRes_ok h
    split at h
    · exact arithJoin_repr h
    · exact arith_repr h
  | .modulo a b, ρ, w, hρ, hl, h => by
    simp only [eval] at h
    obtain ⟨x, hx, h⟩ := bind_ok h
    obtain ⟨y, hy, h⟩ := bind_ok h
    have rx := eval_repr j a hρ hl.1 hx
    have ry := eval_repr j b hρ hl.2 hy
    split at h
    · obtain ⟨x', hx', h⟩ := bind_ok h
      obtain ⟨y', hy', h⟩ := bind_ok h
      exact modulo_repr (eval_repr false a (rowEnv_repr rx ry) hl.1 hx') (eval_repr false b (rowEnv_repr rx ry) hl.2 hy') (panicRes_ok h)
    · exact modulo_repr rx ry (panicRes_ok h)
  | .concat a b, ρ, w, _, _, h => by
    simp only [eval] at h
    obtain ⟨x, _, h⟩ := bind_ok h
    obtain ⟨y, _, h⟩ := bind_ok h
    split at h
    · obtain ⟨x', _, h⟩ := bind_ok h
      obtain ⟨y', _, h⟩ := bind_ok h
      exact concat_repr h
    · exact concat_repr h
  | .cmp op a b, ρ, w, _, _, h => by
    simp only [eval] at h
    obtain ⟨x, _, h⟩ := bind_ok h
    obtain ⟨y, _, h⟩ := bind_ok h
    exact comparison_repr h
  | .and a b, ρ, w, _, _, h => by
    simp only [eval] at h
    obtain ⟨x, _, h⟩ := bind_ok h
    obtain ⟨y, _, h⟩ := bind_ok h
    cases h; exact repr_tri _
  | .or a b, ρ, w, _, _, h => by
    simp only [eval] at h
    obtain ⟨x, _, h⟩ := bind_ok h
    obtain ⟨y, _, h⟩ := bind_ok h
    cases h; exact repr_tri _
  | .not a, ρ, w, _, _, h => by
    simp only [eval] at h
    obtain ⟨x, _, h⟩ := bind_ok h
    exact notValue_repr h
  | .neg a, ρ, w, hρ, hl, h => by
    simp only [eval] at h
    obtain ⟨x, hx, h⟩ := bind_ok h
    exact negate_repr (eval_repr j a hρ hl hx) (panicRes_ok h)
  | .is c n a, ρ, w, _, _, h => by
    simp only [eval] at h
    obtain ⟨x, _, h⟩ := bind_ok h
    exact isCheck_repr h
  | .distinct n a b, ρ, w, _, _, h => by
    simp only [eval] at h
    obtain ⟨x, _, h⟩ := bind_ok h
    obtain ⟨y, _, h⟩ := bind_ok h
    cases h; rfl
  | .between n a l u, ρ, w, _, _, h => by
    simp only [eval] at h
    obtain ⟨x, _, h⟩ := bind_ok h
    obtain ⟨y, _, h⟩ := bind_ok h
    obtain ⟨z, _, h⟩ := bind_ok h
    cases h; rfl
  | .coalesce es, ρ, w, hρ, hl, h => by
    simp only [eval] at h
    exact coalesce_repr j es hρ hl h
  | .caseWhen arms, ρ, w, hρ, hl, h => by
    simp only [eval] at h
    exact arms_repr j arms hρ hl h
  | .caseOf b arms, ρ, w, hρ, hl, h => by
    simp only [eval] at h
    obtain ⟨x, _, h⟩ := bind_ok h
    exact arms_repr j arms hρ hl.2 h
  | .inList n a l, ρ, w, _, _, h => by
    simp only [eval] at h
    obtain ⟨x, _, h⟩ := bind_ok h
    obtain ⟨y, _, h⟩ := bind_ok h
    cases h; exact repr_tri _
  | .any op a l, ρ, w, _, _, h => by
    simp only [eval] at h
    obtain ⟨x, _, h⟩ := bind_ok h
    obtain ⟨y, _, h⟩ := bind_ok h
    unfold anyValue at h
    split at h <;> cases h
    exact repr_tri _
  | .all op a l, ρ, w, _, _, h => by
    simp only [eval] at h
    obtain ⟨x, _, h⟩ := bind_ok h
    obtain ⟨y, _, h⟩ := bind_ok h
    unfold allValue at h
    split at h <;> cases h
    exact repr_tri _
  | .array es, ρ, w, _, _, h => by
    simp only [eval] at h
    exact array_repr j es h

theorem coalesce_repr (j : Bool) : ∀ (es : Exprs) {ρ : Env} {w : Value}, (∀ side i v, ρ side i = some v → Representable v) → Literals.gos Representable es → evalCoalesce j ρ es = .ok w →
    Representable w
  | .nil, ρ, w, _, _, h => by
    simp only [evalCoalesce] at h
    cases h; trivial
  | .cons e es, ρ, w, hρ, hl, h => by
    simp only [evalCoalesce] at h
    obtain ⟨x, hx, h⟩ := bind_ok h
    split at h
    · exact coalesce_repr j es hρ hl.2 h
    · cases h
      exact eval_repr j e hρ hl.1 hx

theorem arms_repr (j : Bool) : ∀ (arms : Arms) {ρ : Env} {base : Option Value} {w : Value}, (∀ side i v, ρ side i = some v → Representable v) → Literals.goArms Representable arms →
    evalArms j ρ base arms = .ok w → Representable w
  | .els e, ρ, base, w, hρ, hl, h => by
    simp only [evalArms] at h
    exact eval_repr j e hρ hl h
  | .when c t rest, ρ, base, w, hρ, hl, h => by
    simp only [evalArms] at h
    obtain ⟨x, _, h⟩ := bind_ok h
    split at h
    · split at h
      · exact eval_repr j t hρ hl.2.1 h
      · exact arms_repr j rest hρ hl.2.2 h
    · split at h
      · split at h
        · exact eval_repr j t hρ hl.2.1 h
        · exact arms_repr j rest hρ hl.2.2 h
      · cases h

theorem array_repr (j : Bool) : ∀ (es : Exprs) {ρ : Env} {acc : List Value} {w : Value}, evalArray j ρ acc es = .ok w → Representable w
  | .nil, ρ, acc, w, h => by
    simp only [evalArray] at h
    cases h; rfl
  | .cons e es, ρ, acc, w, h => by
    simp only [evalArray] at h
    obtain ⟨x, _, h⟩ := bind_ok h
    exact array_repr j es h
end

/-- An expression over values in the ranges of their types, literals and columns alike, gives a value in the range of its type. -/
theorem C128_expression_partial (join : Bool) (e : Expr) {ρ : Env} {w : Value} (hρ : ∀ side i v, ρ side i = some v → Representable v) (he : Literals Representable e)
    (h : eval join ρ e = .ok w) : Representable w := eval_repr join e hρ he h

-- 300 + 1 is a SMALLINT in its range.
example : Literals Representable (.arith .add (.lit (new (.smallInt 300))) (.lit (new (.tinyInt 1)))) ∧
    eval false (fun _ _ => none) (.arith .add (.lit (new (.smallInt 300))) (.lit (new (.tinyInt 1)))) = .ok (new (.smallInt 301)) :=
  ⟨⟨⟨rfl, by decide, by decide⟩, ⟨rfl, by decide, by decide⟩⟩, rfl⟩

/-! ## INSERT -/

/-- What the casts that are not modelled do: they give values in the ranges of their types. -/
def ReprExt (ext : Value → Nat → Option Value) : Prop := ∀ v t w, Representable v → ext v t = some w → Representable w

theorem cast_repr {ext : Value → Nat → Option Value} (hx : ReprExt ext) {v w : Value} {t : Nat} (hv : Representable v) (h : cast ext v t = some w) : Representable w := by
  unfold cast at h
  split at h
  · cases h
    exact castTo_repr hv ‹_›
  · cases h
  · exact hx _ _ _ hv h

theorem castOrNull_repr {ext : Value → Nat → Option Value} (hx : ReprExt ext) {v : Value} {t : Nat} (hv : Representable v) : Representable (castOrNull ext v t) := by
  unfold castOrNull
  cases h : cast ext v t with
  | none => trivial
  | some w => exact cast_repr hx hv h

theorem mapRow_repr {ext : Value → Nat → Option Value} (hx : ReprExt ext) {names : List String} {cols : List Column} {row : Row} (hr : ∀ v ∈ row, Representable v) :
    ∀ v ∈ mapRow ext names cols row, Representable v := by
  have hval : ∀ (c : Column) (o : Option Value), (∀ w, o = some w → Representable w) →
      Representable (match o with | some v => castOrNull ext v c.ty | none => newTyped .null c.ty) := by
    intro c o ho
    cases o with
    | none => trivial
    | some w => exact castOrNull_repr hx (ho w rfl)
  intro v hv
  unfold mapRow at hv
  simp only at hv
  split at hv
  · obtain ⟨c, _, rfl⟩ := List.mem_map.1 hv
    refine hval c _ fun w hw => ?_
    obtain ⟨i, _, hi⟩ := Option.bind_eq_some_iff.1 hw
    exact hr _ (List.mem_of_getElem? hi)
  · obtain ⟨c, _, rfl⟩ := List.mem_map.1 hv
    exact hval c.2 _ fun w hw => hr _ (List.mem_of_getElem? hw)

theorem wrapI32_range (i : Int) : - 2 ^ 31 ≤ wrapI32 i ∧ wrapI32 i < 2 ^ 31 := by
  unfold wrapI32
  omega

/-- Completing a row of values of their types. -/
theorem expand_repr {cols : List Column} {row row' : Row} {n n' : Int} (hl : row.length = cols.length) (hn : - 2 ^ 31 ≤ n ∧ n < 2 ^ 31) (hr : ∀ v ∈ row, Representable v)
    (h : expand cols row n = some (row', n')) : (∀ v ∈ row', Representable v) ∧ - 2 ^ 31 ≤ n' ∧ n' < 2 ^ 31 := by
  induction cols generalizing row row' n n' with
  | nil =>
    cases row with
    | nil => cases h; exact ⟨nofun, hn⟩
    | cons _ _ => cases hl
  | cons c cols ih =>
    cases row with
    | nil => cases hl
    | cons v vs =>
      have hl : vs.length = cols.length := by simpa using hl
      simp only [expand] at h
      split at h
      · obtain ⟨⟨r, m⟩, hr', he⟩ := Option.map_eq_some_iff.1 h
        cases he
        obtain ⟨h1, h2⟩ := ih hl (wrapI32_range _) (fun v hv => hr v (.tail _ hv)) hr'
        refine ⟨fun v hv => ?_, h2⟩
        cases hv with
        | head => exact ⟨rfl, hn⟩
        | tail _ hv => exact h1 v hv
      · obtain ⟨⟨r, m⟩, hr', he⟩ := Option.map_eq_some_iff.1 h
        cases he
        obtain ⟨h1, h2⟩ := ih hl hn (fun v hv => hr v (.tail _ hv)) hr'
        refine ⟨fun w hw => ?_, h2⟩
        cases hw with
        | head => exact hr _ (.head _)
        | tail _ hv => exact h1 _ hv

theorem insertRows_repr {d : Disk} {ext : Value → Nat → Option Value} {seen : Seen} {txn : Nat} {names : List String} {cols : List Column} (hf : Fresh d) (hx : ReprExt ext) {rows : List Row}
    {s : Ins} {l : List (Rid × Slot)} (t : Table s.heap l) (hn : - 2 ^ 31 ≤ s.next ∧ s.next < 2 ^ 31) (hr : ∀ r ∈ rows, ∀ v ∈ r, Representable v) :
    ∃ added, Table (insertRows d ext seen txn names cols rows s).1.heap (l ++ added) ∧
      ∀ x ∈ added, (∀ v ∈ x.2.row, Representable v) ∧ ∃ row n n', expand cols (mapRow ext names cols row) n = some (x.2.row, n') := by
  induction rows generalizing s l with
  | nil => exact ⟨[], by simpa [insertRows] using t, nofun⟩
  | cons row rows ih =>
    simp only [insertRows]
    split
    · cases hex : expand cols (mapRow ext names cols row) s.next with
      | none => exact ⟨[], by simpa using t, nofun⟩
      | some x =>
        obtain ⟨row', n'⟩ := x
        obtain ⟨e1, e2⟩ := expand_repr (mapRow_length ..) hn (mapRow_repr hx (hr _ (.head _))) hex
        simp only
        have hins := t.insert hf ⟨⟨txn, false, false⟩, row'⟩
        cases hp : s.heap.insert d ⟨⟨txn, false, false⟩, row'⟩ with
        | err h =>
          rw [hp] at hins
          exact ⟨[], by simpa using hins, nofun⟩
        | ok h r =>
          rw [hp] at hins
          obtain ⟨added, i1, i2⟩ := ih (s := ⟨h, n', s.count + 1⟩) hins e2 fun r hr' => hr r (.tail _ hr')
          refine ⟨(r, ⟨⟨txn, false, false⟩, row'⟩) :: added, by simpa using i1, fun x hx' => ?_⟩
          cases hx' with
          | head => exact ⟨e1, row, _, _, hex⟩
          | tail _ hx' => exact i2 x hx'
    · exact ⟨[], by simpa using t, nofun⟩

theorem valuesRow_repr {ext : Value → Nat → Option Value} (hx : ReprExt ext) {ρ : Env} (hρ : ∀ side i v, ρ side i = some v → Representable v) {cols : List Column} {es : List Expr} {row : Row}
    (he : ∀ e ∈ es, Literals Representable e) (h : valuesRow ext ρ cols es = .ok row) : ∀ v ∈ row, Representable v := by
  induction es generalizing cols row with
  | nil => cases cols <;> (simp only [valuesRow] at h; cases h; exact nofun)
  | cons e es ih =>
    cases cols with
    | nil => simp only [valuesRow] at h; cases h
    | cons c cols =>
      simp only [valuesRow] at h
      split at h
      · rename_i v hv
        have rv := eval_repr false e hρ (he e (.head _)) hv
        split at h
        · rename_i w hw
          cases hrest : valuesRow ext ρ cols es with
          | error x => rw [hrest] at h; cases h
          | ok r =>
            rw [hrest] at h
            cases h
            intro u hu
            cases hu with
            | head =>
              split at hw
              · cases hw; exact rv
              · exact cast_repr hx rv hw
            | tail _ hu => exact ih (fun e he' => he e (.tail _ he')) hrest u hu
        · cases h
      all_goals cases h

theorem valuesRows_repr {ext : Value → Nat → Option Value} (hx : ReprExt ext) {cols : List Column} {rows : List (List Expr)} {rs : List Row}
    (he : ∀ es ∈ rows, ∀ e ∈ es, Literals Representable e) (h : valuesRows ext cols rows = .ok rs) : ∀ r ∈ rs, ∀ v ∈ r, Representable v := by
  induction rows generalizing rs with
  | nil => cases h; exact nofun
  | cons es rows ih =>
    simp only [valuesRows] at h
    split at h
    · cases h
    · rename_i r hr
      cases hrest : valuesRows ext cols rows with
      | error x => rw [hrest] at h; cases h
      | ok rs' =>
        rw [hrest] at h
        cases h
        intro q hq
        cases hq with
        | head =>
          refine valuesRow_repr hx (fun _ i v hv => ?_) (he es (.head _)) hr
          have := List.mem_of_getElem? hv
          simp only [nulls, List.mem_map] at this
          obtain ⟨c, _, rfl⟩ := this
          trivial
        | tail _ hq => exact ih (fun es' h' => he es' (.tail _ h')) hrest q hq

/-! ## The types -/

theorem holds_bool (d : Datum) : CanHold 0 d ↔ ∃ b, d = .bool b := by
  constructor
  · rintro ⟨v, hm, ht, hd⟩
    unfold datum at hd
    unfold Representable at hm
    split at hd <;> rename_i hv <;> first
      | (cases hd; exact ⟨_, rfl⟩)
      | (cases hd; done)
      | (rw [hv] at hm; simp only [ht, tag] at hm; omega)
  · rintro ⟨b, rfl⟩
    exact ⟨new (.boolean b), rfl, rfl, rfl⟩

theorem holds_int {t : Nat} (h1 : 1 ≤ t) (h4 : t ≤ 4) (d : Datum) : CanHold t d ↔ ∃ i : Int, d = .int i ∧ lo t ≤ i ∧ i < hi t + 1 := by
  constructor
  · rintro ⟨v, hm, ht, hd⟩
    unfold datum at hd
    unfold Representable at hm
    split at hd <;> rename_i hv <;> first
      | (cases hd; done)
      | (rw [hv] at hm; simp only [tag] at hm; cases hd; omega)
      | (rw [hv] at hm
         simp only [ht] at hm
         cases hd
         obtain ⟨rfl, hm⟩ := hm
         refine ⟨_, rfl, ?_⟩
         simp only [lo, hi]
         omega)
  · rintro ⟨i, rfl, hi⟩
    refine ⟨intVal t i, repr_int ⟨h1, h4⟩ (by omega), rfl, ?_⟩
    have : t = 1 ∨ t = 2 ∨ t = 3 ∨ t = 4 := by omega
    rcases this with rfl | rfl | rfl | rfl <;> rfl

theorem holds_text {t : Nat} (h : t = 11 ∨ t = 12) (d : Datum) : CanHold t d ↔ ∃ s, d = .text s := by
  constructor
  · rintro ⟨v, hm, ht, hd⟩
    unfold datum at hd
    unfold Representable at hm
    split at hd <;> rename_i hv <;> first
      | (cases hd; exact ⟨_, rfl⟩)
      | (cases hd; done)
      | (rw [hv] at hm; simp only [ht, tag] at hm; omega)
  · rintro ⟨s, rfl⟩
    rcases h with rfl | rfl
    · exact ⟨new (.varLen s), rfl, rfl, rfl⟩
    · exact ⟨new (.constLen s), rfl, rfl, rfl⟩

theorem holds_dec (x : Nat) : CanHold 5 (.dec x) := ⟨new (.decimal x), rfl, rfl, rfl⟩

theorem ints_eq {id : Nat} {a b : Int} (h1 : 1 ≤ id) (h4 : id ≤ 4) (h : a < b) : (∀ d, CanHold id d ↔ ∃ i : Int, d = .int i ∧ a ≤ i ∧ i < b) ↔ lo id = a ∧ hi id + 1 = b := by
  have h0 := lo_nonpos id
  constructor
  · intro hd
    have key : ∀ i : Int, (lo id ≤ i ∧ i < hi id + 1) ↔ (a ≤ i ∧ i < b) := fun i => by
      have := hd (.int i)
      rw [holds_int h1 h4] at this
      simpa using this
    have k1 := (key (lo id)).1 (by omega)
    have k2 := (key a).2 (by omega)
    have k3 := (key (hi id)).1 (by omega)
    have k4 := (key (b - 1)).2 (by omega)
    omega
  · rintro ⟨rfl, rfl⟩ d
    exact holds_int h1 h4 d

theorem limit_exceeded {l : Limit} (h : ∀ s, l.Ok s) : l = .none := by
  have hc : ∀ n, characters (List.replicate n 65) = n := fun n => by
    simp only [characters, List.countP_replicate]
    exact if_pos (by decide)
  cases l with
  | none => rfl
  | characters n =>
    have := h (List.replicate (n + 1) 65)
    simp only [Limit.Ok, hc] at this
    omega
  | octets n =>
    have := h (List.replicate (n + 1) 65)
    simp only [Limit.Ok, List.length_replicate] at this
    omega

theorem texts_eq {l : Limit} {id : Nat} (h : id = 11 ∨ id = 12) : (∀ d, CanHold id d ↔ ∃ s, d = .text s ∧ l.Ok s) ↔ l = .none := by
  constructor
  · intro hd
    refine limit_exceeded fun s => ?_
    obtain ⟨s', hs, ho⟩ := (hd (.text s)).1 ((holds_text h _).2 ⟨s, rfl⟩)
    cases hs
    exact ho
  · rintro rfl d
    rw [holds_text h]
    simp [Limit.Ok]

theorem not_below_inf (k : Nat) : f64.cmp (f64.mag f64.inf) k ≠ some .lt := by
  intro h
  unfold Fmt.cmp at h
  split at h
  · cases h
  · rename_i hn
    simp only [Bool.or_eq_true, not_or, Fmt.nan, decide_eq_true_eq] at hn
    have hk : f64.key k ≤ f64.mag k := by unfold Fmt.key; split <;> omega
    have hi : f64.key (f64.mag f64.inf) = f64.inf := by decide +kernel
    rw [hi] at h
    have := Int.compare_eq_lt.1 (Option.some.inj h)
    omega

theorem decs_ne {k : Nat} : ¬ ∀ d, CanHold 5 d ↔ ∃ x, d = .dec x ∧ f64.cmp (f64.mag x) (f64.ofInt (10 ^ k)) = some .lt := by
  intro h
  obtain ⟨x, hx, hl⟩ := (h (.dec f64.inf)).1 (holds_dec _)
  cases hx
  exact not_below_inf _ hl

/-- A column holds exactly the data its declared type allows if and only if that type is a boolean, a signed integer of 8, 16, 32 or 64 bits or a text without a limit; this is for
the booleans, the integers, the texts and the decimals with a precision. -/
theorem C128_types {t : SqlType} {P : Datum → Prop} {id : Nat} (hs : Allows t = some P) (hc : convertType t = some id) : (∀ d, CanHold id d ↔ P d) ↔ Exact t := by
  cases t
  case boolean | bool =>
    cases hs; cases hc
    exact ⟨fun _ => by simp [Exact], fun _ => holds_bool⟩
  case tinyInt | smallInt | int | integer | bigInt | tinyIntUnsigned | uTinyInt | int2 | int2Unsigned | smallIntUnsigned | uSmallInt | mediumInt | mediumIntUnsigned | int4 | int8 | int16 | int32 | int64 | int128 |
      int256 | intUnsigned | int4Unsigned | integerUnsigned | hugeInt | uHugeInt | uInt8 | uInt16 | uInt32 | uInt64 | uInt128 | uInt256 | bigIntUnsigned | uBigInt | int8Unsigned | signed |
      signedInteger | unsigned | unsignedInteger =>
    simp only [Allows, intType, Option.some.injEq] at hs
    simp only [convertType, Option.some.injEq] at hc
    subst hs hc
    refine (ints_eq ?_ ?_ ?_).trans ?_
    · decide
    · decide
    · decide
    · simp [Exact, intType, textType, lo, hi]
  case varchar | string | text | char | character | characterVarying | charVarying | nvarchar | characterLargeObject | charLargeObject | clob | tinyText | mediumText | longText | fixedString =>
    simp only [Allows, intType, textType, Option.some.injEq] at hs
    simp only [convertType, Option.some.injEq] at hc
    subst hs hc
    rw [texts_eq (by decide)]
    simp [Exact, intType, textType]
  case decimal e | numeric e | dec e =>
    cases e with
    | none => cases hs
    | precision p =>
      simp only [Allows, intType, textType, wholeDigits, Option.some.injEq] at hs
      cases hc
      subst hs
      exact iff_of_false decs_ne (by simp [Exact, intType, textType])
    | precisionScale p s =>
      simp only [Allows, intType, textType, wholeDigits, Option.some.injEq] at hs
      cases hc
      subst hs
      exact iff_of_false decs_ne (by simp [Exact, intType, textType])
  all_goals cases hs

theorem exact_allows {t : SqlType} (h : Exact t) : ∃ P id, Allows t = some P ∧ convertType t = some id ∧ (id ≤ 4 ∨ id = 11 ∨ id = 12) := by
  cases t
  case boolean | bool | tinyInt | smallInt | int | integer | bigInt | int2 | int4 | int8 | int16 | int32 | int64 | varchar | string | text | char | character | characterVarying | charVarying |
      nvarchar | characterLargeObject | charLargeObject | clob => exact ⟨_, _, rfl, rfl, by decide⟩
  all_goals
    exfalso
    revert h
    simp [Exact, intType, textType]

theorem datum_some {v : Value} (hr : Representable v) (hn : isNull v = false) (ht : ty v ≤ 4 ∨ ty v = 11 ∨ ty v = 12) : ∃ d, datum v = some d := by
  unfold datum
  unfold Representable at hr
  unfold isNull at hn
  generalize val v = w at hr hn
  cases w <;> first
    | exact ⟨_, rfl⟩
    | (simp only [tag] at hr; omega)
    | cases hn

/-- What an INSERT takes its rows from are values of their types. -/
def SourceOk : Source → Prop
  | .values rows => ∀ es ∈ rows, ∀ e ∈ es, Literals Representable e
  | .select _ _ rows _ _ => ∀ r ∈ rows, ∀ v ∈ r, Representable v

theorem sourceRows_repr {ext : Value → Nat → Option Value} (hx : ReprExt ext) {cols : List Column} {into : List String} {src : Source} (hs : SourceOk src) {names : List String} {rows : List Row}
    (h : sourceRows ext cols into src = .ok (names, rows)) : ∀ r ∈ rows, ∀ v ∈ r, Representable v := by
  unfold sourceRows at h
  split at h
  · cases h
  · split at h
    · split at h
      · rename_i target _ _ _ _
        cases hv : valuesRows ext target ‹_› with
        | error x => rw [hv] at h; cases h
        | ok rs =>
          rw [hv] at h
          cases h
          exact valuesRows_repr hx hs hv
      · cases h
    · split at h
      · split at h
        · cases h; exact hs
        · cases h
      · cases h

/-- However an INSERT ends, what it adds to a column whose declared type is a boolean, a signed integer of 8, 16, 32 or 64 bits or a text without a limit is NULL or allowed by that type. -/
theorem C128_insert_partial {d : Disk} {ext : Value → Nat → Option Value} {seen : Seen} {txn : Nat} {cols : List Column} {into : List String} {src : Source} {s s' : Ins}
    {e : End} {l : List (Rid × Slot)} {types : List SqlType} (hc : cols.map (fun c => some c.ty) = types.map convertType) (t : Table s.heap l) (hf : Fresh d) (hx : ReprExt ext) (hy : TypedExt ext)
    (hpk : ∀ c ∈ cols, c.pk = true → c.ty = 3) (hn : - 2 ^ 31 ≤ s.next ∧ s.next < 2 ^ 31) (hs : SourceOk src) (h : insertStmt d ext seen txn cols into src s = (s', e)) :
    ∃ added, Table s'.heap (l ++ added) ∧ ∀ x ∈ added, ∀ (j : Nat) dt v, types[j]? = some dt → Exact dt → x.2.row[j]? = some v →
      isNull v = true ∨ ∃ P a, Allows dt = some P ∧ datum v = some a ∧ P a := by
  simp only [insertStmt] at h
  split at h
  · cases h
    exact ⟨[], by simpa using t, nofun⟩
  rename_i names rows hsrc
  obtain ⟨added, h1, h2⟩ := insertRows_repr (ext := ext) (seen := seen) (txn := txn) (names := names) (cols := cols) (rows := rows) hf hx t hn (sourceRows_repr hx hs hsrc)
  rw [h] at h1
  refine ⟨added, h1, fun x hx' j dt v hdt hex hv => ?_⟩
  obtain ⟨g1, row, n, n', g2⟩ := h2 x hx'
  obtain ⟨e1, e2⟩ := expand_full (mapRow_length ..) g2
  obtain ⟨hj, _⟩ := List.getElem?_eq_some_iff.1 hv
  rw [e1] at hj
  have hcj := List.getElem?_eq_getElem hj
  have hg := List.getElem?_eq_getElem (l := mapRow ext names cols row) (i := j) (by rw [mapRow_length]; exact hj)
  obtain ⟨v', hv', hkept⟩ := e2 j _ _ hcj hg
  obtain rfl : v = v' := Option.some.inj (hv.symm.trans hv')
  have hty : ty v = cols[j].ty := by
    simp only [Kept] at hkept
    split at hkept
    · rename_i hcond
      obtain ⟨m, rfl⟩ := hkept
      rw [hpk _ (List.getElem_mem hj) hcond.2]
      rfl
    · rw [hkept]
      exact mapRow_ty hy j _ _ hcj hg
  obtain ⟨P, id, hP, hid, hsmall⟩ := exact_allows hex
  have hci : some cols[j].ty = some id := by
    have := congrArg (·[j]?) hc
    simpa [hdt, hcj, hid] using this
  cases hnull : isNull v with
  | true => exact .inl rfl
  | false =>
    have rv := g1 v (List.mem_of_getElem? hv)
    have hid' : ty v = id := hty.trans (Option.some.inj hci)
    obtain ⟨a, ha⟩ := datum_some rv hnull (by rw [hid']; exact hsmall)
    exact .inr ⟨P, a, hP, ha, ((C128_types hP hid).2 hex a).1 ⟨v, rv, hid', ha⟩⟩

/-- DECIMAL(p, s) and NUMERIC(p, s) are accepted exactly when p is at most 255 and s is between 0 and p, and then the column keeps both. -/
theorem C128_precision_partial (p : Nat) (s : Int) (x : Declared) : (declare (.decimal (.precisionScale p s)) = some x ↔ (p ≤ 255 ∧ 0 ≤ s ∧ s ≤ p) ∧ x = ⟨5, none, some p, some s.toNat⟩) ∧
    (declare (.numeric (.precisionScale p s)) = some x ↔ (p ≤ 255 ∧ 0 ≤ s ∧ s ≤ p) ∧ x = ⟨5, none, some p, some s.toNat⟩) := by
  have key : ∀ o : Option Declared, o = (if p ≤ 255 ∧ 0 ≤ s ∧ s ≤ p then some ⟨5, none, some p, some s.toNat⟩ else none) →
      (o = some x ↔ (p ≤ 255 ∧ 0 ≤ s ∧ s ≤ p) ∧ x = ⟨5, none, some p, some s.toNat⟩) := by
    rintro o rfl
    split
    · simp_all [eq_comm]
    · exact ⟨(fun h => by cases h), (fun h => absurd h.1 ‹_›)⟩
  have h : extractPrecisionScale (.precisionScale p s) = if p ≤ 255 ∧ 0 ≤ s ∧ s ≤ p then some (some p, some s.toNat) else none := by
    simp only [extractPrecisionScale]
    repeat' split
    all_goals first | rfl | omega
  constructor <;> refine key _ ?_ <;> simp only [declare, convertType, Option.bind_some, h] <;> split <;> rfl

theorem eps_none (p : Nat) (s : Int) : extractPrecisionScale (.precisionScale p s) = none ↔ 255 < p ∨ s < 0 ∨ (p : Int) < s := by
  simp only [extractPrecisionScale]
  repeat' split
  all_goals first | (simp only [true_iff]; omega) | (simp only [reduceCtorEq, false_iff]; omega)

theorem ep_none (p : Nat) : extractPrecisionScale (.precision p) = none ↔ 255 < p := by
  simp only [extractPrecisionScale]; split <;> simp_all

/-- Which types are refused. -/
theorem C128_unsupported (t : SqlType) : declare t = none ↔ Unsupported t := by
  cases t
  case decimal e | numeric e | float e =>
    cases e with
    | none => simp [declare, convertType, extractPrecisionScale, Unsupported]
    | precision p => simp only [declare, convertType, Option.bind_some, Option.map_eq_none_iff, ep_none, Unsupported]
    | precisionScale p s => simp only [declare, convertType, Option.bind_some, Option.map_eq_none_iff, eps_none, Unsupported]
  case custom name =>
    by_cases h : name.toUpper = "VECTOR" <;> simp [declare, convertType, Unsupported, h]
  all_goals simp [declare, convertType, Unsupported]

/-- CREATE TABLE refuses a column list if and only if it refuses one of the types in it. -/
theorem C128_refused_partial (ds : List (String × SqlType)) : declareAll ds = none ↔ ∃ x ∈ ds, Unsupported x.2 := by
  simp only [← C128_unsupported]
  induction ds with
  | nil => simp [declareAll]
  | cons x ds ih =>
    obtain ⟨n, t⟩ := x
    simp only [declareAll, List.mem_cons, exists_eq_or_imp, ← ih]
    cases declare t <;> simp

/-! ## Cases -/

/-- `a SMALLINT, b TEXT, c INT UNSIGNED`. -/
def exDeclared : List (String × SqlType) := [("a", .smallInt none), ("b", .text), ("c", .intUnsigned none)]

-- 300 + 1 and 'AB' go into the first two columns, -5 into the third, which is declared unsigned.
example : ∃ cols, declareAll exDeclared = some cols ∧ cols.map (fun c => some c.ty) = (exDeclared.map (·.2)).map convertType ∧
    (stored cols [] (.values [[.arith .add (.lit (new (.smallInt 300))) (.lit (new (.tinyInt 1))), .lit (text [65, 66]), .lit (new (.tinyInt (-5)))]])).1 =
      [[new (.smallInt 301), text [65, 66], new (.integer (-5))]] := ⟨_, rfl, rfl, rfl⟩
example : Exact (.smallInt none) ∧ Exact .text ∧ ¬ Exact (.intUnsigned none) ∧ SourceOk (.values [[.lit (new (.smallInt 300))]]) ∧ Exact (.varchar none) ∧ ¬ Exact (.varchar (some (.count 3 false))) := by
  refine ⟨?_, ?_, ?_, ?_, ?_, ?_⟩
  case refine_4 =>
    intro es hes e he
    simp only [List.mem_singleton] at hes
    subst hes
    simp only [List.mem_singleton] at he
    subst he
    exact ⟨rfl, by decide, by decide⟩
  all_goals simp [Exact, intType, textType, CharLen.limit]
theorem noExt_repr : ReprExt noExt := nofun
example : (declare (.decimal (.precisionScale 5 2))).isSome = true ∧ (declare (.decimal (.precisionScale 2 5))).isSome = false ∧ declareAll [("a", .text), ("b", .regclass)] = none := by decide

/-! ## Where the full claim fails -/

/-- VARCHAR(3) takes 'ABCD'. -/
theorem C128_varchar_fails : ∃ cols P, declareAll [("a", .varchar (some (.count 3 false)))] = some cols ∧ Allows (.varchar (some (.count 3 false))) = some P ∧ ¬ P (.text [65, 66, 67, 68]) ∧
    stored cols [] (.values [[.lit (text [65, 66, 67, 68])]]) = ([[text [65, 66, 67, 68]]], .done) := by
  refine ⟨_, _, rfl, rfl, ?_, rfl⟩
  rintro ⟨s, hs, ho⟩
  cases hs
  exact absurd ho (by show ¬ characters _ ≤ _; decide)

/-- CHAR(2) takes 'ABCD'. -/
theorem C128_char_fails : ∃ cols P, declareAll [("a", .char (some (.count 2 false)))] = some cols ∧ Allows (.char (some (.count 2 false))) = some P ∧ ¬ P (.text [65, 66, 67, 68]) ∧
    stored cols [] (.values [[.lit (text [65, 66, 67, 68])]]) = ([[text [65, 66, 67, 68]]], .done) := by
  refine ⟨_, _, rfl, rfl, ?_, rfl⟩
  rintro ⟨s, hs, ho⟩
  cases hs
  exact absurd ho (by show ¬ characters _ ≤ _; decide)

/-- TINYINT UNSIGNED takes -1 and refuses 200. -/
theorem C128_unsigned_fails : ∃ cols P, declareAll [("a", .tinyIntUnsigned none)] = some cols ∧ Allows (.tinyIntUnsigned none) = some P ∧ ¬ P (.int (-1)) ∧ P (.int 200) ∧
    stored cols [] (.values [[.lit (new (.tinyInt (-1)))]]) = ([[new (.tinyInt (-1))]], .done) ∧ stored cols [] (.values [[.lit (new (.smallInt 200))]]) = ([], .err) := by
  refine ⟨_, _, rfl, rfl, ?_, ⟨200, rfl, by decide, by decide⟩, rfl, rfl⟩
  rintro ⟨i, hi, h0, _⟩
  cases hi
  exact absurd h0 (by decide)

/-- DECIMAL(3, 1) takes 12345. -/
theorem C128_decimal_fails : ∃ cols P, declareAll [("a", .decimal (.precisionScale 3 1))] = some cols ∧ Allows (.decimal (.precisionScale 3 1)) = some P ∧ ¬ P (.dec (f64.ofInt 12345)) ∧
    stored cols [] (.values [[.lit (new (.smallInt 12345))]]) = ([[new (.decimal (f64.ofInt 12345))]], .done) := by
  refine ⟨_, _, rfl, rfl, ?_, rfl⟩
  rintro ⟨x, hx, h⟩
  cases hx
  exact absurd h (by decide +kernel)

/-- INT128 refuses 2^63. -/
theorem C128_int128_fails : ∃ cols P, declareAll [("a", .int128)] = some cols ∧ Allows .int128 = some P ∧ P (.int (2 ^ 63)) ∧
    stored cols [] (.values [[.lit (text (intStr (2 ^ 63)))]]) = ([], .err) := by
  refine ⟨_, _, rfl, rfl, ⟨2 ^ 63, rfl, by decide, by decide⟩, ?_⟩
  rfl

/-- DEC(2, 5) is accepted although DECIMAL(2, 5) is not, and the column keeps neither number. -/
theorem C128_dec_fails : declare (.dec (.precisionScale 2 5)) = some ⟨5, none, none, none⟩ ∧ declare (.decimal (.precisionScale 2 5)) = none := by decide

end Verif.Dml

import Verif.Sql.ValueLemmas
import Verif.Sql.FloatLemmas

/-! # Lemmas about the order of values -/

namespace Verif.Sql

open Verif.Wire Verif.Bytes

/-- The payloads by the way they are compared. -/
inductive Kind where
  | sc (l : List Int)
  | dec (x : Nat)
  | flt (x : Nat)
  | pt (x y : Nat)
  | sq (vs : List Value)
  | st (fs : Option (List Value))

def kind (v : Val) (fs : Option (List Value)) : Kind := match v with
  | .decimal x => .dec x
  | .float x => .flt x
  | .point x y => .pt x y
  | .vector vs => .sq vs
  | .array vs => .sq vs
  | .struct => .st fs
  | v => .sc (atoms v)

def kcmp : Kind → Kind → Option Ordering
  | .sc a, .sc b => some (lexCmp a b)
  | .dec a, .dec b => f64.cmp a b
  | .flt a, .flt b => f32.cmp a b
  | .pt a b, .pt c d => thenCmp (f64.cmp a c) (f64.cmp b d)
  | .sq a, .sq b => valuesCmp a b
  | .st a, .st b => fieldsCmp a b
  | _, _ => none

theorem valueCmp_eq (v v' : Val) (s s' : Size) (m m' : Bool) (t t' : Nat) (fs fs' : Option (List Value)) :
    valueCmp (.mk v s m t fs) (.mk v' s' m' t' fs') =
      if valueEq (.mk v s m t fs) (.mk v' s' m' t' fs') then some .eq
      else if isNull (.mk v s m t fs) then some .lt
      else if isNull (.mk v' s' m' t' fs') then some .gt
      else if t ≠ t' then some (compare t t')
      else if tag v ≠ tag v' then some (compare (tag v) (tag v'))
      else kcmp (kind v fs) (kind v' fs') := by
  have key : ∀ (p : v = .struct → v' = .struct → False), valCmp v v' =
      if tag v ≠ tag v' then some (compare (tag v) (tag v')) else kcmp (kind v fs) (kind v' fs') := by
    intro p
    cases v <;> cases v' <;> simp [valCmp, tag, kind, kcmp] at p ⊢
  by_cases p : v = .struct ∧ v' = .struct
  · obtain ⟨rfl, rfl⟩ := p
    rw [valueCmp]
    simp [kind, kcmp]
  · have p : v = .struct → v' = .struct → False := fun h1 h2 => p ⟨h1, h2⟩
    rw [valueCmp.eq_2 _ _ _ _ _ _ _ _ _ _ p, key p]

/-- How two values compare, when they are not equal. -/
theorem valueCmp_ne {v v' : Val} {s s' : Size} {m m' : Bool} {t t' : Nat} {fs fs' : Option (List Value)}
    (h : valueEq (.mk v s m t fs) (.mk v' s' m' t' fs') = false) : valueCmp (.mk v s m t fs) (.mk v' s' m' t' fs') =
      if isNull (.mk v s m t fs) then some .lt
      else if isNull (.mk v' s' m' t' fs') then some .gt
      else if t ≠ t' then some (compare t t')
      else if tag v ≠ tag v' then some (compare (tag v) (tag v'))
      else kcmp (kind v fs) (kind v' fs') := by rw [valueCmp_eq, if_neg (by simp [h])]

theorem valueCmp_of_eq {a b : Value} (h : valueEq a b = true) : valueCmp a b = some .eq := by
  cases a; cases b; rw [valueCmp_eq, if_pos h]

theorem valueEq_refl (a : Value) : valueEq a a = true := (valueEq_iff a a).2 rfl
theorem valueEq_symm {a b : Value} (h : valueEq a b = true) : valueEq b a = true :=
  (valueEq_iff b a).2 ((valueEq_iff a b).1 h).symm
theorem valueEq_trans {a b c : Value} (h : valueEq a b = true) (h' : valueEq b c = true) : valueEq a c = true :=
  (valueEq_iff a c).2 (((valueEq_iff a b).1 h).trans ((valueEq_iff b c).1 h'))
theorem valueEq_comm (a b : Value) : valueEq a b = valueEq b a := by
  rw [Bool.eq_iff_iff]; exact ⟨valueEq_symm, valueEq_symm⟩
theorem valueEq_congr {a b : Value} (h : valueEq a b = true) (c : Value) : valueEq a c = valueEq b c := by
  rw [Bool.eq_iff_iff]; exact ⟨fun h' => valueEq_trans (valueEq_symm h) h', fun h' => valueEq_trans h h'⟩

theorem valuesEq_symm {a b : List Value} (h : valuesEq a b = true) : valuesEq b a = true :=
  (valuesEq_iff b a).2 ((valuesEq_iff a b).1 h).symm

/-! ## Lexicographic order on numbers -/

theorem lexCmp_eq {a b : List Int} : lexCmp a b = .eq ↔ a = b := by
  induction a generalizing b with
  | nil => cases b <;> simp [lexCmp]
  | cons x xs ih =>
    cases b with
    | nil => simp [lexCmp]
    | cons y ys =>
      simp only [lexCmp, List.cons.injEq]
      cases h : compare x y
      · have := Int.compare_eq_lt.1 h; simp; omega
      · have := Int.compare_eq_eq.1 h; simp [this, ih]
      · have := Int.compare_eq_gt.1 h; simp; omega

theorem lexCmp_swap (a b : List Int) : lexCmp b a = (lexCmp a b).swap := by
  induction a generalizing b with
  | nil => cases b <;> rfl
  | cons x xs ih =>
    cases b with
    | nil => rfl
    | cons y ys =>
      simp only [lexCmp]
      rw [← Int.compare_swap x y]
      cases compare x y <;> simp [ih]

theorem lexCmp_trans {a b c : List Int} (h : lexCmp a b = .lt) (h' : lexCmp b c = .lt) : lexCmp a c = .lt := by
  induction a generalizing b c with
  | nil => cases b <;> cases c <;> simp_all [lexCmp]
  | cons x xs ih =>
    cases b with
    | nil => simp [lexCmp] at h
    | cons y ys =>
      cases c with
      | nil => simp [lexCmp] at h'
      | cons z zs =>
        simp only [lexCmp] at h h' ⊢
        cases h1 : compare x y <;> rw [h1] at h <;> simp at h
        · have e1 := Int.compare_eq_lt.1 h1
          cases h2 : compare y z <;> rw [h2] at h' <;> simp at h'
          · have e2 := Int.compare_eq_lt.1 h2
            rw [Int.compare_eq_lt.2 (show x < z by omega)]
          · have e2 := Int.compare_eq_eq.1 h2
            rw [Int.compare_eq_lt.2 (show x < z by omega)]
        · have e1 := Int.compare_eq_eq.1 h1
          subst e1
          cases h2 : compare x z <;> rw [h2] at h' <;> simp at h'
          exact ih h h'

theorem nat_swap (a b : Nat) : compare b a = (compare a b).swap := (Nat.compare_swap a b).symm

theorem thenCmp_swap (a b : Option Ordering) : thenCmp (a.map Ordering.swap) (b.map Ordering.swap) = (thenCmp a b).map Ordering.swap := by
  rcases a with _ | _ | _ | _ <;> rfl

theorem thenCmp_eq {a b : Option Ordering} : thenCmp a b = some .eq ↔ a = some .eq ∧ b = some .eq := by
  rcases a with _ | _ | _ | _ <;> simp [thenCmp]

theorem thenCmp_lt {a b : Option Ordering} : thenCmp a b = some .lt ↔ a = some .lt ∨ (a = some .eq ∧ b = some .lt) := by
  rcases a with _ | _ | _ | _ <;> simp [thenCmp]

/-! ## Antisymmetry -/

theorem kcmp_swap {v v' : Val} {fs fs' : Option (List Value)} (ht : tag v = tag v')
    (ih : ∀ vs ∈ inside v fs, ∀ b, valuesCmp b vs = (valuesCmp vs b).map Ordering.swap) :
    kcmp (kind v' fs') (kind v fs) = (kcmp (kind v fs) (kind v' fs')).map Ordering.swap := by
  cases v with
  | vector vs => cases v' <;> simp [tag] at ht; exact ih vs (by simp [inside]) _
  | array vs => cases v' <;> simp [tag] at ht; exact ih vs (by simp [inside]) _
  | struct =>
    cases v' <;> simp [tag] at ht
    cases fs with
    | none => cases fs' <;> rfl
    | some vs => cases fs' with
      | none => rfl
      | some vs' => exact ih vs (by simp [inside]) _
  | decimal x => cases v' <;> simp [tag] at ht; exact Fmt.cmp_swap _ _
  | float x => cases v' <;> simp [tag] at ht; exact Fmt.cmp_swap _ _
  | point x y =>
    cases v' <;> simp [tag] at ht
    simp only [kind, kcmp]
    rw [Fmt.cmp_swap, Fmt.cmp_swap y, thenCmp_swap]
  | _ => cases v' <;> simp [tag] at ht <;> simp [kind, kcmp] <;> exact lexCmp_swap _ _

theorem null_eq {a b : Value} (ha : isNull a = true) (hb : isNull b = true) : valueEq a b = true := by
  cases a with
  | mk v s m t fs => cases b with
    | mk v' s' m' t' fs' => cases v <;> simp [isNull, val] at ha; cases v' <;> simp [isNull, val] at hb; rfl

theorem swap_ind : ValueInd (fun a => ∀ b, valueCmp b a = (valueCmp a b).map Ordering.swap)
    (fun as => ∀ bs, valuesCmp bs as = (valuesCmp as bs).map Ordering.swap) where
  value v s m t fs ih b := by
    obtain ⟨v', s', m', t', fs'⟩ := b
    cases he : valueEq (.mk v s m t fs) (.mk v' s' m' t' fs') with
    | true => rw [valueCmp_of_eq he, valueCmp_of_eq (valueEq_symm he)]; rfl
    | false =>
      have he' := he
      rw [valueEq_comm] at he'
      rw [valueCmp_ne he, valueCmp_ne he']
      cases hn : isNull (.mk v s m t fs) <;> cases hn' : isNull (.mk v' s' m' t' fs')
      · simp only [Bool.false_eq_true, if_false]
        by_cases ht : t = t'
        · subst ht
          by_cases hg : tag v = tag v'
          · simp only [ne_eq, not_true_eq_false, if_false, hg]
            exact kcmp_swap hg ih
          · simp [hg, Ne.symm hg, nat_swap (tag v)]
        · simp [ht, Ne.symm ht, nat_swap t]
      · simp
      · simp
      · simp [null_eq hn hn'] at he
  nil bs := by cases bs <;> rfl
  cons a as h1 h2 bs := by
    cases bs with
    | nil => rfl
    | cons b bs => simp only [valuesCmp]; rw [h1, h2, thenCmp_swap]

theorem valueCmp_swap (a b : Value) : valueCmp b a = (valueCmp a b).map Ordering.swap := value_ind swap_ind a b
theorem valuesCmp_swap (a b : List Value) : valuesCmp b a = (valuesCmp a b).map Ordering.swap := values_ind swap_ind a b

/-! ## The order says equal exactly for equal values -/

theorem kcmp_eq {v v' : Val} {s s' : Size} {m m' : Bool} {t : Nat} {fs fs' : Option (List Value)} (ht : tag v = tag v')
    (ih : ∀ vs ∈ inside v fs, ∀ b, valuesCmp vs b = some .eq → valuesEq vs b = true)
    (h : kcmp (kind v fs) (kind v' fs') = some .eq) : valueEq (.mk v s m t fs) (.mk v' s' m' t fs') = true := by
  cases v with
  | vector vs => cases v' <;> simp [tag] at ht; simp [valueEq, valEq]; exact ih vs (by simp [inside]) _ h
  | array vs => cases v' <;> simp [tag] at ht; simp [valueEq, valEq]; exact ih vs (by simp [inside]) _ h
  | struct =>
    cases v' <;> simp [tag] at ht
    cases fs with
    | none => cases fs' <;> simp [kind, kcmp, fieldsCmp] at h; simp [valueEq, fieldsEq]
    | some vs => cases fs' with
      | none => simp [kind, kcmp, fieldsCmp] at h
      | some vs' => simp [valueEq, fieldsEq]; exact ih vs (by simp [inside]) _ h
  | decimal x =>
    cases v' <;> simp [tag] at ht
    simp [valueEq]; exact (Fmt.canon_eq Fmt.good64).2 (.inr (Fmt.cmp_eq.1 h))
  | float x =>
    cases v' <;> simp [tag] at ht
    simp [valueEq]; exact (Fmt.canon_eq Fmt.good32).2 (.inr (Fmt.cmp_eq.1 h))
  | point x y =>
    cases v' <;> simp [tag] at ht
    have h := thenCmp_eq.1 h
    simp [valueEq]
    exact ⟨(Fmt.canon_eq Fmt.good64).2 (.inr (Fmt.cmp_eq.1 h.1)), (Fmt.canon_eq Fmt.good64).2 (.inr (Fmt.cmp_eq.1 h.2))⟩
  | _ =>
    cases v' <;> simp [tag] at ht <;> simp only [kind, kcmp, Option.some.injEq, lexCmp_eq] at h <;> simp [valueEq, valEq, h, tag]

theorem cmpEq_ind : ValueInd (fun a => ∀ b, valueCmp a b = some .eq → valueEq a b = true)
    (fun as => ∀ bs, valuesCmp as bs = some .eq → valuesEq as bs = true) where
  value v s m t fs ih b h := by
    obtain ⟨v', s', m', t', fs'⟩ := b
    cases he : valueEq (.mk v s m t fs) (.mk v' s' m' t' fs') with
    | true => rfl
    | false =>
      rw [valueCmp_ne he] at h
      cases hn : isNull (.mk v s m t fs) <;> cases hn' : isNull (.mk v' s' m' t' fs') <;> simp [hn, hn'] at h
      by_cases ht : t = t'
      · subst ht
        by_cases hg : tag v = tag v'
        · simp [hg] at h
          rw [kcmp_eq hg ih h] at he; cases he
        · simp [hg] at h
      · simp [ht] at h
  nil bs h := by cases bs <;> simp [valuesCmp] at h; rfl
  cons a as h1 h2 bs h := by
    cases bs with
    | nil => simp [valuesCmp] at h
    | cons b bs =>
      have h := thenCmp_eq.1 h
      simp [valuesEq, h1 _ h.1, h2 _ h.2]

theorem valueCmp_eq_iff (a b : Value) : valueCmp a b = some .eq ↔ valueEq a b = true :=
  ⟨value_ind cmpEq_ind a b, valueCmp_of_eq⟩

theorem valuesCmp_of_eq {a b : List Value} (h : valuesEq a b = true) : valuesCmp a b = some .eq := by
  induction a generalizing b with
  | nil => cases b <;> simp [valuesEq] at h; rfl
  | cons x xs ih =>
    cases b with
    | nil => simp [valuesEq] at h
    | cons y ys =>
      simp only [valuesEq, Bool.and_eq_true] at h
      exact thenCmp_eq.2 ⟨valueCmp_of_eq h.1, ih h.2⟩

theorem valuesCmp_eq_iff (a b : List Value) : valuesCmp a b = some .eq ↔ valuesEq a b = true :=
  ⟨values_ind cmpEq_ind a b, valuesCmp_of_eq⟩

/-! ## Equal values compare alike -/

theorem eq_parts {v v' : Val} {s s' : Size} {m m' : Bool} {t t' : Nat} {fs fs' : Option (List Value)}
    (h : valueEq (.mk v s m t fs) (.mk v' s' m' t' fs') = true) (hn : isNull (.mk v s m t fs) = false) : t = t' ∧ tag v = tag v' := by
  cases v <;> cases v' <;> simp_all [valueEq, valEq, tag, isNull, val]

theorem eq_null {a b : Value} (h : valueEq a b = true) : isNull a = isNull b := by
  obtain ⟨v, s, m, t, fs⟩ := a
  obtain ⟨v', s', m', t', fs'⟩ := b
  cases v <;> cases v' <;> simp_all [valueEq, valEq, tag, isNull, val]

theorem cmp_congr {f : Fmt} (g : f.Good) {x y : Nat} (h : f.canon x = f.canon y) (z : Nat) : f.cmp x z = f.cmp y z := by
  rcases (Fmt.canon_eq g).1 h with ⟨h1, h2⟩ | ⟨h1, h2, h3⟩ <;> simp [Fmt.cmp, *]

theorem kcmp_congr {v v' : Val} {s s' : Size} {m m' : Bool} {t : Nat} {fs fs' : Option (List Value)}
    (ih : ∀ vs ∈ inside v fs, ∀ b c, valuesEq vs b = true → valuesCmp vs c = valuesCmp b c)
    (h : valueEq (.mk v s m t fs) (.mk v' s' m' t fs') = true) (k : Kind) : kcmp (kind v fs) k = kcmp (kind v' fs') k := by
  cases v with
  | vector vs =>
    cases v' <;> simp [valueEq, valEq, tag] at h
    cases k <;> simp only [kind, kcmp]
    exact ih vs (by simp [inside]) _ _ h
  | array vs =>
    cases v' <;> simp [valueEq, valEq, tag] at h
    cases k <;> simp only [kind, kcmp]
    exact ih vs (by simp [inside]) _ _ h
  | struct =>
    cases v' <;> simp [valueEq, valEq, tag] at h
    cases fs with
    | none => cases fs' <;> simp [fieldsEq] at h; rfl
    | some vs => cases fs' with
      | none => simp [fieldsEq] at h
      | some vs' =>
        rcases k with _ | _ | _ | _ | _ | _ | w <;> simp only [kind, kcmp, fieldsCmp]
        exact ih vs (by simp [inside]) _ _ h
  | decimal x =>
    cases v' <;> simp [valueEq, valEq, tag] at h
    cases k <;> simp only [kind, kcmp]
    exact cmp_congr Fmt.good64 h _
  | float x =>
    cases v' <;> simp [valueEq, valEq, tag] at h
    cases k <;> simp only [kind, kcmp]
    exact cmp_congr Fmt.good32 h _
  | point x y =>
    cases v' <;> simp [valueEq, valEq, tag] at h
    cases k <;> simp only [kind, kcmp]
    rw [cmp_congr Fmt.good64 h.1, cmp_congr Fmt.good64 h.2]
  | _ => cases v' <;> simp [valueEq, valEq, tag] at h <;> simp [kind, h]

theorem congr_ind : ValueInd (fun a => ∀ b c, valueEq a b = true → valueCmp a c = valueCmp b c)
    (fun as => ∀ bs cs, valuesEq as bs = true → valuesCmp as cs = valuesCmp bs cs) where
  value v s m t fs ih b c h := by
    obtain ⟨v', s', m', t', fs'⟩ := b
    obtain ⟨w, r, o, u, gs⟩ := c
    rw [valueCmp_eq, valueCmp_eq v', valueEq_congr h, eq_null h]
    cases hn : isNull (.mk v s m t fs) with
    | true => have := (eq_null h).symm.trans hn; simp [this]
    | false =>
      obtain ⟨rfl, hg⟩ := eq_parts h hn
      rw [hg, kcmp_congr ih h]
  nil bs cs h := by cases bs <;> simp [valuesEq] at h; rfl
  cons a as h1 h2 bs cs h := by
    cases bs with
    | nil => simp [valuesEq] at h
    | cons b bs =>
      simp only [valuesEq, Bool.and_eq_true] at h
      cases cs with
      | nil => rfl
      | cons c cs => simp only [valuesCmp]; rw [h1 _ _ h.1, h2 _ _ h.2]

theorem valueCmp_congr {a b : Value} (h : valueEq a b = true) (c : Value) : valueCmp a c = valueCmp b c := value_ind congr_ind a b c h
theorem valuesCmp_congr {a b : List Value} (h : valuesEq a b = true) (c : List Value) : valuesCmp a c = valuesCmp b c :=
  values_ind congr_ind a b c h
theorem valueCmp_congr' {a b : Value} (h : valueEq a b = true) (c : Value) : valueCmp c a = valueCmp c b := by
  rw [valueCmp_swap, valueCmp_congr h, ← valueCmp_swap]

/-! ## Transitivity -/

theorem cmp_trans {f : Fmt} {x y z : Nat} (h : f.cmp x y = some .lt) (h' : f.cmp y z = some .lt) : f.cmp x z = some .lt := by
  rw [Fmt.cmp_lt] at *; exact ⟨h.1, h'.2.1, by omega⟩

theorem cmp_eq_left {f : Fmt} {x y : Nat} (h : f.cmp x y = some .eq) (z : Nat) : f.cmp x z = f.cmp y z := by
  obtain ⟨h1, h2, h3⟩ := Fmt.cmp_eq.1 h; simp [Fmt.cmp, h1, h2, h3]

theorem cmp_eq_right {f : Fmt} {x y : Nat} (h : f.cmp x y = some .eq) (z : Nat) : f.cmp z x = f.cmp z y := by
  obtain ⟨h1, h2, h3⟩ := Fmt.cmp_eq.1 h; simp [Fmt.cmp, h1, h2, h3]

theorem kcmp_trans {v v' w : Val} {fs fs' gs : Option (List Value)} (ht : tag v = tag v') (ht' : tag v' = tag w)
    (ih : ∀ vs ∈ inside v fs, ∀ b c, valuesCmp vs b = some .lt → valuesCmp b c = some .lt → valuesCmp vs c = some .lt)
    (h : kcmp (kind v fs) (kind v' fs') = some .lt) (h' : kcmp (kind v' fs') (kind w gs) = some .lt) :
    kcmp (kind v fs) (kind w gs) = some .lt := by
  cases v with
  | vector vs =>
    cases v' <;> simp only [tag, Nat.reduceEqDiff] at ht
    cases w <;> simp only [tag, Nat.reduceEqDiff] at ht'
    exact ih vs (by simp [inside]) _ _ h h'
  | array vs =>
    cases v' <;> simp only [tag, Nat.reduceEqDiff] at ht
    cases w <;> simp only [tag, Nat.reduceEqDiff] at ht'
    exact ih vs (by simp [inside]) _ _ h h'
  | struct =>
    cases v' <;> simp only [tag, Nat.reduceEqDiff] at ht
    cases w <;> simp only [tag, Nat.reduceEqDiff] at ht'
    cases fs with
    | none => cases fs' <;> cases gs <;> simp_all [kind, kcmp, fieldsCmp]
    | some vs => cases fs' with
      | none => simp [kind, kcmp, fieldsCmp] at h
      | some vs' => cases gs with
        | none => simp [kind, kcmp, fieldsCmp] at h'
        | some vs'' => exact ih vs (by simp [inside]) _ _ h h'
  | decimal x =>
    cases v' <;> simp only [tag, Nat.reduceEqDiff] at ht
    cases w <;> simp only [tag, Nat.reduceEqDiff] at ht'
    exact cmp_trans h h'
  | float x =>
    cases v' <;> simp only [tag, Nat.reduceEqDiff] at ht
    cases w <;> simp only [tag, Nat.reduceEqDiff] at ht'
    exact cmp_trans h h'
  | point x y =>
    cases v' <;> simp only [tag, Nat.reduceEqDiff] at ht
    cases w <;> simp only [tag, Nat.reduceEqDiff] at ht'
    rcases thenCmp_lt.1 h with h1 | ⟨h1, h2⟩ <;> rcases thenCmp_lt.1 h' with h3 | ⟨h3, h4⟩
    · exact thenCmp_lt.2 (.inl (cmp_trans h1 h3))
    · exact thenCmp_lt.2 (.inl (by rw [← cmp_eq_right h3]; exact h1))
    · exact thenCmp_lt.2 (.inl (by rw [cmp_eq_left h1]; exact h3))
    · exact thenCmp_lt.2 (.inr ⟨by rw [cmp_eq_left h1]; exact h3, cmp_trans h2 h4⟩)
  | _ =>
    cases v' <;> simp only [tag, Nat.reduceEqDiff] at ht
    cases w <;> simp only [tag, Nat.reduceEqDiff] at ht'
    simp only [kind, kcmp, Option.some.injEq] at h h' ⊢
    exact lexCmp_trans h h'

theorem lt_not_eq {a b : Value} (h : valueCmp a b = some .lt) : valueEq a b = false := by
  cases he : valueEq a b with
  | false => rfl
  | true => rw [valueCmp_of_eq he] at h; cases h

theorem trans_ind : ValueInd
    (fun a => ∀ b c, valueCmp a b = some .lt → valueCmp b c = some .lt → valueCmp a c = some .lt)
    (fun as => ∀ bs cs, valuesCmp as bs = some .lt → valuesCmp bs cs = some .lt → valuesCmp as cs = some .lt) where
  value v s m t fs ih b c h h' := by
    have hne : valueEq (.mk v s m t fs) c = false := by
      cases he : valueEq (.mk v s m t fs) c with
      | false => rfl
      | true =>
        rw [valueCmp_congr he, valueCmp_swap, h'] at h
        cases h
    obtain ⟨v', s', m', t', fs'⟩ := b
    obtain ⟨w, r, o, u, gs⟩ := c
    have e1 := lt_not_eq h
    have e2 := lt_not_eq h'
    rw [valueCmp_ne e1] at h
    rw [valueCmp_ne e2] at h'
    rw [valueCmp_ne hne]
    cases hn : isNull (.mk v s m t fs) with
    | true => simp
    | false =>
      cases hn' : isNull (.mk v' s' m' t' fs') with
      | true => simp [hn, hn'] at h
      | false =>
        cases hn'' : isNull (.mk w r o u gs) with
        | true => simp [hn', hn''] at h'
        | false =>
          simp only [hn, hn', hn'', Bool.false_eq_true, if_false] at h h' ⊢
          by_cases ht : t = t'
          · subst ht
            by_cases hu : t = u
            · subst hu
              simp only [ne_eq, not_true_eq_false, if_false] at h h' ⊢
              by_cases hg : tag v = tag v'
              · by_cases hg' : tag v' = tag w
                · simp only [hg, hg', not_true_eq_false, if_false] at h h' ⊢
                  exact kcmp_trans hg hg' ih h h'
                · rw [if_neg (by simp [hg])] at h
                  rw [if_pos hg'] at h'
                  rw [hg, if_pos hg']; exact h'
              · rw [if_pos hg] at h
                have l1 := Nat.compare_eq_lt.1 (Option.some.inj h)
                by_cases hg' : tag v' = tag w
                · rw [← hg', if_pos hg]; exact h
                · rw [if_pos hg'] at h'
                  have l2 := Nat.compare_eq_lt.1 (Option.some.inj h')
                  rw [if_pos (by omega), Nat.compare_eq_lt.2 (by omega)]
            · rw [if_pos hu] at h' ⊢; exact h'
          · rw [if_pos ht] at h
            have l1 := Nat.compare_eq_lt.1 (Option.some.inj h)
            by_cases hu : t' = u
            · subst hu; rw [if_pos ht]; exact h
            · rw [if_pos hu] at h'
              have l2 := Nat.compare_eq_lt.1 (Option.some.inj h')
              rw [if_pos (by omega), Nat.compare_eq_lt.2 (by omega)]
  nil bs cs h h' := by cases bs <;> cases cs <;> simp_all [valuesCmp]
  cons a as h1 h2 bs cs h h' := by
    cases bs with
    | nil => simp [valuesCmp] at h
    | cons b bs =>
      cases cs with
      | nil => simp [valuesCmp] at h'
      | cons c cs =>
        rcases thenCmp_lt.1 h with p1 | ⟨p1, p2⟩ <;> rcases thenCmp_lt.1 h' with p3 | ⟨p3, p4⟩
        · exact thenCmp_lt.2 (.inl (h1 _ _ p1 p3))
        · exact thenCmp_lt.2 (.inl (by rw [← valueCmp_congr' ((valueCmp_eq_iff _ _).1 p3)]; exact p1))
        · exact thenCmp_lt.2 (.inl (by rw [valueCmp_congr ((valueCmp_eq_iff _ _).1 p1)]; exact p3))
        · exact thenCmp_lt.2 (.inr ⟨by rw [valueCmp_congr ((valueCmp_eq_iff _ _).1 p1)]; exact p3, h2 _ _ p2 p4⟩)

theorem valueCmp_trans {a b c : Value} (h : valueCmp a b = some .lt) (h' : valueCmp b c = some .lt) : valueCmp a c = some .lt :=
  value_ind trans_ind a b c h h'

end Verif.Sql

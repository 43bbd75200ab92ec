import Verif.Sql.Value

/-! # Lemmas about equality, order and hash of values -/

namespace Verif.Sql

open Verif.Wire Verif.Bytes

mutual
/-- A representative of the values a value is equal to. -/
def canonVal : Val → Val
  | .decimal x => .decimal (f64.canon x)
  | .float x => .float (f32.canon x)
  | .point x y => .point (f64.canon x) (f64.canon y)
  | .vector vs => .vector (canonValues vs)
  | .array vs => .array (canonValues vs)
  | v => v

def canonValue : Value → Value
  | .mk v _ _ t fs => match v with
    | .null => .mk .null (.length 0) false 0 none
    | .struct => .mk .struct (.length 0) false t (canonFields fs)
    | v => .mk (canonVal v) (.length 0) false t none

def canonFields : Option (List Value) → Option (List Value)
  | none => none
  | some vs => some (canonValues vs)

def canonValues : List Value → List Value
  | [] => []
  | v :: vs => canonValue v :: canonValues vs
end

theorem map_val_inj {a b : List Byte} : (a.map fun x => (x.val : Int)) = (b.map fun x => (x.val : Int)) ↔ a = b := by
  constructor
  · induction a generalizing b with
    | nil => intro h; cases b with
      | nil => rfl
      | cons => simp at h
    | cons x xs ih => intro h; cases b with
      | nil => simp at h
      | cons y ys =>
        simp only [List.map_cons, List.cons.injEq] at h
        have := ih h.2
        have h1 : x = y := by apply Fin.ext; have := h.1; omega
        rw [h1, this]
  · rintro rfl; rfl

theorem ite01 (a b : Bool) : ((if a = true then (1 : Int) else 0) = if b = true then 1 else 0) ↔ a = b := by
  cases a <;> cases b <;> simp

/-- The lists of values directly inside a value. -/
def inside (v : Val) (fs : Option (List Value)) : List (List Value) := match v with
  | .vector vs => [vs]
  | .array vs => [vs]
  | .struct => (match fs with
    | none => []
    | some vs => [vs])
  | _ => []

theorem valueEq_step (v v' : Val) (s s' : Size) (m m' : Bool) (t t' : Nat) (fs fs' : Option (List Value))
    (ih : ∀ vs ∈ inside v fs, ∀ b, valuesEq vs b = true ↔ canonValues vs = canonValues b) :
    valueEq (.mk v s m t fs) (.mk v' s' m' t' fs') = true ↔ canonValue (.mk v s m t fs) = canonValue (.mk v' s' m' t' fs') := by
  cases v with
  | vector vs =>
    have ih := ih vs (by simp [inside])
    cases v' <;> simp [valueEq, canonValue, canonVal, valEq, tag, ih, and_comm]
  | array vs =>
    have ih := ih vs (by simp [inside])
    cases v' <;> simp [valueEq, canonValue, canonVal, valEq, tag, ih, and_comm]
  | struct =>
    have ih : ∀ gs, fieldsEq fs gs = true ↔ canonFields fs = canonFields gs := by
      intro gs
      cases fs with
      | none => cases gs <;> simp [fieldsEq, canonFields]
      | some vs => cases gs <;> simp [fieldsEq, canonFields, ih vs (by simp [inside])]
    cases v' <;> simp [valueEq, canonValue, canonVal, valEq, tag, ih]
  | boolean b => cases v' <;> simp [valueEq, canonValue, canonVal, valEq, tag, atoms, and_comm, ite01]
  | timestamp b =>
    cases v' <;> simp [valueEq, canonValue, canonVal, valEq, tag, atoms, and_comm]
    omega
  | _ => cases v' <;> simp [valueEq, canonValue, canonVal, valEq, tag, atoms, and_comm, map_val_inj]

/-- Induction over values: a property of a value may be proved from the property of the lists directly inside it. -/
structure ValueInd (P : Value → Prop) (Q : List Value → Prop) : Prop where
  value : ∀ v s m t fs, (∀ vs ∈ inside v fs, Q vs) → P (.mk v s m t fs)
  nil : Q []
  cons : ∀ v vs, P v → Q vs → Q (v :: vs)

mutual
theorem value_ind {P : Value → Prop} {Q : List Value → Prop} (h : ValueInd P Q) : ∀ a : Value, P a
  | .mk (.vector vs) _ _ _ _ => h.value _ _ _ _ _ fun _ hv => by rw [List.mem_singleton.1 hv]; exact values_ind h vs
  | .mk (.array vs) _ _ _ _ => h.value _ _ _ _ _ fun _ hv => by rw [List.mem_singleton.1 hv]; exact values_ind h vs
  | .mk .struct _ _ _ (some vs) => h.value _ _ _ _ _ fun _ hv => by rw [List.mem_singleton.1 hv]; exact values_ind h vs
  | .mk .struct _ _ _ none => h.value _ _ _ _ _ fun _ hv => absurd hv List.not_mem_nil
  | .mk (.boolean _) _ _ _ _ => h.value _ _ _ _ _ fun _ hv => absurd hv List.not_mem_nil
  | .mk (.tinyInt _) _ _ _ _ => h.value _ _ _ _ _ fun _ hv => absurd hv List.not_mem_nil
  | .mk (.smallInt _) _ _ _ _ => h.value _ _ _ _ _ fun _ hv => absurd hv List.not_mem_nil
  | .mk (.integer _) _ _ _ _ => h.value _ _ _ _ _ fun _ hv => absurd hv List.not_mem_nil
  | .mk (.bigInt _) _ _ _ _ => h.value _ _ _ _ _ fun _ hv => absurd hv List.not_mem_nil
  | .mk (.decimal _) _ _ _ _ => h.value _ _ _ _ _ fun _ hv => absurd hv List.not_mem_nil
  | .mk (.float _) _ _ _ _ => h.value _ _ _ _ _ fun _ hv => absurd hv List.not_mem_nil
  | .mk (.timestamp _) _ _ _ _ => h.value _ _ _ _ _ fun _ hv => absurd hv List.not_mem_nil
  | .mk (.date _) _ _ _ _ => h.value _ _ _ _ _ fun _ hv => absurd hv List.not_mem_nil
  | .mk (.time _) _ _ _ _ => h.value _ _ _ _ _ fun _ hv => absurd hv List.not_mem_nil
  | .mk (.interval _) _ _ _ _ => h.value _ _ _ _ _ fun _ hv => absurd hv List.not_mem_nil
  | .mk (.varLen _) _ _ _ _ => h.value _ _ _ _ _ fun _ hv => absurd hv List.not_mem_nil
  | .mk (.constLen _) _ _ _ _ => h.value _ _ _ _ _ fun _ hv => absurd hv List.not_mem_nil
  | .mk (.binary _) _ _ _ _ => h.value _ _ _ _ _ fun _ hv => absurd hv List.not_mem_nil
  | .mk (.json _) _ _ _ _ => h.value _ _ _ _ _ fun _ hv => absurd hv List.not_mem_nil
  | .mk (.uuid _) _ _ _ _ => h.value _ _ _ _ _ fun _ hv => absurd hv List.not_mem_nil
  | .mk (.enum _ _) _ _ _ _ => h.value _ _ _ _ _ fun _ hv => absurd hv List.not_mem_nil
  | .mk (.point _ _) _ _ _ _ => h.value _ _ _ _ _ fun _ hv => absurd hv List.not_mem_nil
  | .mk .null _ _ _ _ => h.value _ _ _ _ _ fun _ hv => absurd hv List.not_mem_nil

theorem values_ind {P : Value → Prop} {Q : List Value → Prop} (h : ValueInd P Q) : ∀ vs : List Value, Q vs
  | [] => h.nil
  | v :: vs => h.cons v vs (value_ind h v) (values_ind h vs)
end

theorem eq_ind : ValueInd (fun a => ∀ b, valueEq a b = true ↔ canonValue a = canonValue b)
    (fun as => ∀ bs, valuesEq as bs = true ↔ canonValues as = canonValues bs) where
  value v s m t fs ih b := by cases b; exact valueEq_step _ _ _ _ _ _ _ _ _ _ ih
  nil bs := by cases bs <;> simp [valuesEq, canonValues]
  cons a as h1 h2 bs := by cases bs <;> simp [valuesEq, canonValues, h1, h2]

theorem valueEq_iff (a b : Value) : valueEq a b = true ↔ canonValue a = canonValue b := value_ind eq_ind a b
theorem valuesEq_iff (a b : List Value) : valuesEq a b = true ↔ canonValues a = canonValues b := values_ind eq_ind a b

end Verif.Sql

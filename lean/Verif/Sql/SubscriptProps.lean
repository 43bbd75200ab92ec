import Verif.Sql.Subscript

/-!
# C118: array subscripts and slices

Specification vocabulary: `Holds v i` says that `v` is an integer of some SQL type with value `i`. Positions count from 0, and a negative
number counts from the end: `At n i p` says that `i` names position `p` of `n`. `first` and `last` say where a slice begins and ends.
-/

namespace Verif.Sql

open Verif.Wire Verif.Bytes

/-- An integer value. -/
def Holds (v : Value) (i : Int) : Prop := val v = .tinyInt i ∨ val v = .smallInt i ∨ val v = .integer i ∨ val v = .bigInt i

/-- `i` names position `p` of `n`. -/
def At (n : Nat) (i : Int) (p : Nat) : Prop := p < n ∧ (if i < 0 then (p : Int) = n + i else (p : Int) = i)

/-- Where a slice of `n` elements begins. -/
def first (n : Nat) : Option Int → Int
  | none => 0
  | some i => if i < 0 then n + i else i

/-- Where it ends; that position itself is not part of it. -/
def last (n : Nat) : Option Int → Int
  | none => n
  | some i => if i < 0 then n + i else i

/-- The elements at the positions from `a` on and before `b`. -/
def between (vs : List Value) (a b : Int) : List Value :=
  (vs.zipIdx.filter fun e => decide (a ≤ (e.2 : Int) ∧ (e.2 : Int) < b)).map (·.1)

/-- A number whose negation is an `i32` too. -/
def Small (i : Int) : Prop := -2 ^ 31 < i ∧ i < 2 ^ 31

instance (i : Int) : Decidable (Small i) := inferInstanceAs (Decidable (_ ∧ _))
instance (n : Nat) (i : Int) (p : Nat) : Decidable (At n i p) := by unfold At; infer_instance

theorem i32Of_holds {v : Value} {i : Int} (h : Holds v i) (hs : Small i) : i32Of v = some i := by
  unfold Small at hs
  rcases h with h | h | h | h <;> simp only [i32Of, h]
  unfold wrapI32
  split <;> (congr 1; omega)

theorem wrapI32_len {n : Nat} (h : n < 2 ^ 31) : wrapI32 n = n := by
  unfold wrapI32
  rw [if_pos (by omega)]
  omega

theorem lo3 : lo 3 = -2 ^ 31 := by decide

theorem elemAt_spec {vs : List Value} {i : Int} (hn : vs.length < 2 ^ 31) (hs : Small i) :
    (∀ p v, At vs.length i p → vs[p]? = some v → elemAt vs i = .ok v) ∧ ((∀ p, ¬ At vs.length i p) → elemAt vs i = .err) := by
  unfold Small at hs
  unfold elemAt
  rw [wrapI32_len hn, lo3]
  by_cases hi : i < 0
  · rw [if_pos hi, if_neg (by omega)]
    refine ⟨fun p v hp hv => ?_, fun hno => ?_⟩
    · unfold At at hp
      rw [if_pos hi] at hp
      rw [if_neg (by omega), show ((vs.length : Int) + i).toNat = p by omega, nthValue, hv]
    · by_cases hb : -i > (vs.length : Int)
      · rw [if_pos hb]
      · refine absurd ?_ (hno ((vs.length : Int) + i).toNat)
        unfold At
        rw [if_pos hi]
        omega
  · rw [if_neg hi]
    refine ⟨fun p v hp hv => ?_, fun hno => ?_⟩
    · unfold At at hp
      rw [if_neg hi] at hp
      rw [show i.toNat = p by omega, nthValue, hv]
    · rw [nthValue, List.getElem?_eq_none]
      have := hno i.toNat
      unfold At at this
      rw [if_neg hi] at this
      omega

/-- **C118**, elements. The full property has no bound on `i` and covers an index that is NULL, which should give NULL; see the witnesses
below. -/
theorem C118_element_partial (vs : List Value) (a idx : Value) (i : Int) (f : IndexForm)
    (ha : val a = .vector vs) (hn : vs.length < 2 ^ 31) (hi : Holds idx i) (hs : Small i) :
    (∀ p v, At vs.length i p → vs[p]? = some v → accessChain 16 (.ok a) [.index f (some (.ok idx))] = some (20, .ok v))
    ∧ ((∀ p, ¬ At vs.length i p) → accessChain 16 (.ok a) [.index f (some (.ok idx))] = some (20, .err)) := by
  have e : accessChain 16 (.ok a) [.index f (some (.ok idx))] = some (20, elemAt vs i) := by
    simp [accessChain, accessStep, Res.bind, subscriptValue, ha, i32Of_holds hi hs]
  rw [e]
  obtain ⟨h1, h2⟩ := elemAt_spec hn hs
  exact ⟨fun p v hp hv => by rw [h1 p v hp hv], fun h => by rw [h2 h]⟩

example : accessChain 16 (.ok (newVector [new (.integer 5), new (.integer 6), new .null]))
      [.index .other (some (.ok (new (.tinyInt (-2)))))] = some (20, .ok (new (.integer 6))) :=
  (C118_element_partial _ _ _ (-2) _ rfl (by decide) (.inl rfl) (by decide)).1 1 _ (by decide) rfl

/-! ## Slices -/

theorem zipIdx_filter_below (vs : List Value) (k : Nat) (a b : Int) (h : b ≤ k) :
    ((vs.zipIdx k).filter fun e => decide (a ≤ (e.2 : Int) ∧ (e.2 : Int) < b)) = [] := by
  rw [List.filter_eq_nil_iff]
  rintro ⟨v, p⟩ hp
  have := List.le_snd_of_mem_zipIdx hp
  simp only [decide_eq_true_eq]
  omega

theorem between_shift (vs : List Value) : ∀ (k : Nat) (s e : Nat), s ≤ e →
    ((vs.zipIdx k).filter fun x => decide (((s + k : Nat) : Int) ≤ (x.2 : Int) ∧ (x.2 : Int) < ((e + k : Nat) : Int))).map (·.1)
      = (vs.drop s).take (e - s) := by
  induction vs with
  | nil => intro k s e _; simp
  | cons v vs ih =>
    intro k s e h
    rw [List.zipIdx_cons]
    cases s with
    | succ s =>
      rw [List.filter_cons_of_neg (by simp; omega)]
      cases e with
      | zero => omega
      | succ e =>
        have := ih (k + 1) s e (by omega)
        rw [List.drop_succ_cons, show e + 1 - (s + 1) = e - s by omega, ← this]
        congr 3
        funext x
        congr 1
        rw [show s + 1 + k = s + (k + 1) by omega, show e + 1 + k = e + (k + 1) by omega]
    | zero =>
      cases e with
      | zero =>
        rw [List.filter_cons_of_neg (by simp), zipIdx_filter_below _ _ _ _ (by omega)]
        simp
      | succ e =>
        rw [List.filter_cons_of_pos (by simp; omega)]
        have := ih (k + 1) 0 e (by omega)
        rw [List.map_cons, List.drop_zero, show e + 1 - 0 = e + 1 by omega, List.take_succ_cons]
        congr 1
        rw [List.drop_zero, Nat.sub_zero] at this
        rw [← this]
        congr 1
        apply List.filter_congr
        rintro ⟨w, p⟩ hp
        have := List.le_snd_of_mem_zipIdx hp
        simp only [decide_eq_decide]
        simp only [] at this
        omega

theorem between_nat (vs : List Value) (s e : Nat) (h : s ≤ e) : between vs s e = (vs.drop s).take (e - s) := by
  have := between_shift vs 0 s e h
  simpa [between] using this

theorem between_clip (vs : List Value) (a b : Int) : between vs a b = between vs (a.toNat : Nat) (b.toNat : Nat) := by
  unfold between
  congr 2
  funext ⟨v, p⟩
  simp only [decide_eq_decide]
  omega

theorem between_empty (vs : List Value) (a b : Int) (h : b ≤ a) : between vs a b = [] := by
  unfold between
  rw [List.filter_eq_nil_iff.2, List.map_nil]
  rintro ⟨v, p⟩ _
  simp only [decide_eq_true_eq]
  omega

/-- What a bound of a slice is written as: nothing, or something with an integer value. -/
def BoundIs (b : Option (Option Res)) (i : Option Int) : Prop := match b, i with
  | none, none => True
  | some (some (.ok v)), some i => Holds v i ∧ Small i
  | _, _ => False

theorem boundAt_spec {n : Nat} {i : Int} (hn : n < 2 ^ 31) (hs : Small i) : boundAt n i = some (if i < 0 then (n + i : Int) else i).toNat := by
  unfold Small at hs
  unfold boundAt
  rw [wrapI32_len hn, lo3]
  split
  · rw [if_neg (by omega)]
    split
    · congr 1; omega
    · rfl
  · rfl

theorem sliceBound_spec {n d : Nat} {c : Int} {b : Option (Option Res)} {i : Option Int} {k : Nat → Res} (hn : n < 2 ^ 31) (h : BoundIs b i) :
    sliceBound n d (boundOr c b) k = k (i.elim d fun i => (if i < 0 then (n + i : Int) else i).toNat) := by
  match b, i, h with
  | none, none, _ => rfl
  | some (some (.ok v)), some i, ⟨hv, hs⟩ =>
    simp only [boundOr, sliceBound, Option.map_some, Option.getD_some, i32Of_holds hv hs, boundAt_spec hn hs, Option.elim_some]

/-- **C118**, slices: `a[l:u]` is the elements at the positions from `l` on and before `u`. Full property: for all `u`. Missing: `u` beyond
the end of the array; see `C118_fails`. -/
theorem C118_slice_partial (vs : List Value) (a : Value) (l u : Option (Option Res)) (li ui : Option Int) (t : Nat)
    (ha : val a = .vector vs) (hn : vs.length < 2 ^ 31) (hl : BoundIs l li) (hu : BoundIs u ui) (hin : last vs.length ui ≤ vs.length) :
    ∃ w, accessChain t (.ok a) [.slice l u] = some (16, .ok w) ∧ val w = .vector (between vs (first vs.length li) (last vs.length ui)) := by
  refine ⟨_, by simp only [accessChain, accessStep, Res.bind, sliceValue, ha, sliceBound_spec hn hl, sliceBound_spec hn hu]; rfl, ?_⟩
  simp only [newVector, val]
  congr 1
  have e1 : (li.elim 0 fun i => (if i < 0 then (vs.length + i : Int) else i).toNat) = (first vs.length li).toNat := by
    cases li <;> rfl
  have e2 : (ui.elim vs.length fun i => (if i < 0 then (vs.length + i : Int) else i).toNat) = (last vs.length ui).toNat := by
    cases ui <;> rfl
  rw [e1, e2, between_clip]
  split
  · rename_i h; rw [between_nat _ _ _ h.1]
  · rename_i h; rw [between_empty]; omega

example : ∃ w, accessChain 16 (.ok (newVector [new (.integer 5), new (.integer 6), new (.integer 7)]))
      [.slice (some (some (.ok (new (.tinyInt 1))))) (some (some (.ok (new (.tinyInt (-1))))))] = some (16, .ok w)
    ∧ val w = .vector [new (.integer 6)] :=
  C118_slice_partial [new (.integer 5), new (.integer 6), new (.integer 7)] _ (some (some (.ok (new (.tinyInt 1))))) (some (some (.ok (new (.tinyInt (-1))))))
    (some 1) (some (-1)) _ rfl (by decide) ⟨.inl rfl, by decide⟩ ⟨.inl rfl, by decide⟩ (by decide)

/-- A slice is an array, so it can be sliced and subscripted again: `a[l:u][i]` is element `i` of the slice. -/
theorem C118_slice_element_partial (vs : List Value) (a idx : Value) (l u : Option (Option Res)) (li ui : Option Int) (t : Nat) (f : IndexForm)
    (i : Int) (p : Nat) (v : Value)
    (ha : val a = .vector vs) (hn : vs.length < 2 ^ 31) (hl : BoundIs l li) (hu : BoundIs u ui) (hin : last vs.length ui ≤ vs.length)
    (hi : Holds idx i) (hs : Small i)
    (hp : At (between vs (first vs.length li) (last vs.length ui)).length i p)
    (hv : (between vs (first vs.length li) (last vs.length ui))[p]? = some v) :
    accessChain t (.ok a) [.slice l u, .index f (some (.ok idx))] = some (20, .ok v) := by
  obtain ⟨w, hw, hvw⟩ := C118_slice_partial vs a l u li ui t ha hn hl hu hin
  have hlen : (between vs (first vs.length li) (last vs.length ui)).length < 2 ^ 31 := by
    have : (between vs (first vs.length li) (last vs.length ui)).length ≤ vs.zipIdx.length := by
      unfold between; rw [List.length_map]; exact List.length_filter_le ..
    rw [List.length_zipIdx] at this
    omega
  have h := (C118_element_partial _ w idx i f hvw hlen hi hs).1 p v hp hv
  have e : accessStep t (.ok a) (.slice l u) = some (16, .ok w) := by
    rw [accessChain] at hw
    split at hw
    · cases hw
    · rename_i e; rw [e]; simpa [accessChain] using hw
  rw [accessChain, e]
  exact h

example : accessChain 16 (.ok (newVector [new (.integer 5), new (.integer 6), new (.integer 7)]))
      [.slice (some (some (.ok (new (.tinyInt 1))))) none, .index .other (some (.ok (new (.tinyInt 1))))] = some (20, .ok (new (.integer 7))) :=
  C118_slice_element_partial _ _ _ _ _ (some 1) none _ _ 1 1 _ rfl (by decide) ⟨.inl rfl, by decide⟩ trivial (by decide) (.inl rfl) (by decide)
    (by decide) rfl

/-- Where the full property fails: a slice that goes beyond the end is empty instead of ending at the end; an index of 2^32 is read as 0;
NULL as an index is an error; an index of -2^31 overflows; a bound that does not parse counts as the last position; an element of an array
in an array cannot be reached by two subscripts; a field of a STRUCT can be reached by its number but not by its name. -/
theorem C118_fails :
    accessChain 16 (.ok (newVector [new (.integer 5), new (.integer 6)])) [.slice (some (some (.ok (new (.integer 0))))) (some (some (.ok (new (.integer 3)))))]
        = some (16, .ok (newVector []))
    ∧ accessChain 16 (.ok (newVector [new (.integer 5), new (.integer 6)])) [.index .other (some (.ok (new (.bigInt (2 ^ 32)))))] = some (20, .ok (new (.integer 5)))
    ∧ accessChain 16 (.ok (newVector [new (.integer 5), new (.integer 6)])) [.index .other (some (.ok (new .null)))] = some (20, .err)
    ∧ accessChain 16 (.ok (newVector [new (.integer 5), new (.integer 6)])) [.index .other (some (.ok (new (.integer (-2 ^ 31)))))] = some (20, .overflow)
    ∧ accessChain 16 (.ok (newVector [new (.integer 5), new (.integer 6)])) [.slice none (some none)] = some (16, .ok (newVector [new (.integer 5)]))
    ∧ (∀ t r f g i j as, accessChain t r (.index f i :: .index g j :: as) = none)
    ∧ (∀ names vs s, accessChain 21 (.ok (structValue names vs)) [.dot s] = some (20, .err))
    ∧ accessChain 21 (.ok (structValue ["x".toList] [new (.integer 5)])) [.index (.number 0) (some (.ok (new (.tinyInt 0))))] = some (20, .ok (new (.integer 5))) := by
  refine ⟨rfl, rfl, rfl, rfl, rfl, ?_, fun _ _ _ => rfl, rfl⟩
  have h20 : ∀ r a t' r', accessStep 20 r (.index r' a) = some t' → False := by
    intro r a t' r' h
    cases a with
    | none => simp [accessStep] at h
    | some a => simp [accessStep] at h
  intro t r f g i j as
  rw [accessChain]
  split
  · rfl
  · rename_i t' r' e
    have ht : t' = 20 := by
      cases i with
      | none => simp [accessStep] at e
      | some i =>
        simp only [accessStep] at e
        split at e
        · cases e; rfl
        · split at e
          · cases f <;> simp at e <;> exact e.1.symm
          · cases e
    subst ht
    rw [accessChain]
    split
    · rfl
    · rename_i e'; exact (h20 _ _ _ _ e').elim

end Verif.Sql

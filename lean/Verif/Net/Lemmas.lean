import Verif.Net.Model

/-!
# Decoders read no further than the message
-/

namespace Verif.Net

open Verif.Wire
open Verif.Bytes (Byte)

/-- A decoder that succeeds gives the same when more bytes follow. -/
def Mono {α : Type} (d : Dec α) : Prop := ∀ bs a r x, d bs = some (a, r) → d (bs ++ x) = some (a, r ++ x)

theorem Mono.bind {α β : Type} {d : Dec α} {f : α × List Byte → Option (β × List Byte)} (hd : Mono d)
    (hf : ∀ a r b r' x, f (a, r) = some (b, r') → f (a, r ++ x) = some (b, r' ++ x)) : Mono fun bs => (d bs).bind f := by
  intro bs b r x h
  obtain ⟨⟨a, r'⟩, h1, h2⟩ := Option.bind_eq_some_iff.1 h
  simp only [hd _ _ _ x h1, Option.bind_some]
  exact hf _ _ _ _ x h2

theorem Mono.map {α β : Type} {d : Dec α} (f : α → β) (hd : Mono d) : Mono fun bs => (d bs).map fun r => (f r.1, r.2) := by
  intro bs b r x h
  obtain ⟨⟨a, r'⟩, h1, h2⟩ := Option.map_eq_some_iff.1 h
  cases h2
  simp [hd _ _ _ x h1]

theorem mono_groups (k : Nat) : Mono (decGroups k) := by
  induction k with
  | zero => intro bs a r x h; cases h
  | succ k ih =>
    intro bs a r x h
    cases bs with
    | nil => cases h
    | cons b bs =>
      simp only [decGroups, List.cons_append] at h ⊢
      split at h
      · rename_i hb
        cases h
        simp [hb]
      · rename_i hb
        obtain ⟨⟨n, r'⟩, h1, h2⟩ := Option.map_eq_some_iff.1 h
        cases h2
        simp [hb, ih _ _ _ x h1]

theorem mono_var (k bits : Nat) : Mono (decVar k bits) := by
  refine (mono_groups k).bind fun a r b r' x h => ?_
  simp only at h ⊢
  split at h
  · rename_i hb
    cases h
    simp [hb]
  · cases h

theorem mono_U32 : Mono decU32 := mono_var 5 32
theorem mono_U64 : Mono decU64 := mono_var 10 64
theorem mono_I16 : Mono decI16 := (mono_var 3 16).map unzigzag
theorem mono_I32 : Mono decI32 := mono_U32.map unzigzag
theorem mono_I64 : Mono decI64 := mono_U64.map unzigzag

theorem mono_I8 : Mono decI8 := by
  intro bs a r x h
  cases bs with
  | nil => cases h
  | cons b bs => cases h; rfl

theorem mono_byte : Mono decByte := by
  intro bs a r x h
  cases bs with
  | nil => cases h
  | cons b bs => cases h; rfl

theorem mono_bool : Mono decBool := by
  intro bs a r x h
  cases bs with
  | nil => cases h
  | cons b bs =>
    simp only [decBool, List.cons_append] at h ⊢
    split at h
    · rename_i hb; cases h; simp [hb]
    · rename_i hb
      split at h
      · rename_i hb'; cases h; simp [hb']
      · cases h

theorem mono_fixed (w : Nat) : Mono (decFixed w) := by
  intro bs a r x h
  simp only [decFixed, Bytes.readLE, Bytes.take?] at h ⊢
  obtain ⟨⟨p, q⟩, h1, h2⟩ := Option.map_eq_some_iff.1 h
  cases h2
  split at h1
  · rename_i hw
    cases h1
    simp only [List.length_append]
    rw [if_pos (by omega)]
    simp [List.take_append_of_le_length hw, List.drop_append_of_le_length hw]
  · cases h1

theorem mono_N {α : Type} {d : Dec α} (hd : Mono d) (n : Nat) : Mono (decN d n) := by
  induction n with
  | zero => intro bs a r x h; cases h; rfl
  | succ n ih => exact hd.bind fun a r b r' x h => ih.map (a :: ·) _ _ _ x h

theorem mono_seq {α : Type} {d : Dec α} (hd : Mono d) : Mono (decSeq d) := mono_U64.bind fun n _ _ _ x h => mono_N hd n _ _ _ x h

theorem mono_bytes : Mono decBytes := mono_seq mono_byte

theorem mono_opt {α : Type} {d : Dec α} (hd : Mono d) : Mono (decOpt d) := by
  intro bs a r x h
  cases bs with
  | nil => cases h
  | cons b bs =>
    simp only [decOpt, List.cons_append] at h ⊢
    split at h
    · rename_i hb; cases h; simp [hb]
    · rename_i hb
      split at h
      · rename_i hb'
        rw [if_neg hb, if_pos hb']
        exact hd.map some _ _ _ x h
      · cases h

theorem mono_typeId : Mono decTypeId := mono_U32.bind fun a r b r' x h => by
  simp only at h ⊢
  split at h
  · rename_i hb; cases h; simp [hb]
  · cases h

theorem mono_iso : Mono decIso := mono_U32.bind fun a r b r' x h => by
  simp only at h ⊢
  split at h
  · rename_i hb; cases h; simp [hb]
  · cases h

theorem mono_size : Mono decSize := mono_U32.bind fun a r b r' x h => by
  simp only at h ⊢
  split at h
  · exact mono_U64.map Size.length _ _ _ x h
  · exact mono_typeId.map Size.elem _ _ _ x h
  · cases h

theorem mono_values (d : Nat) : Mono (decVal d) ∧ Mono (decValue d) := by
  induction d with
  | zero => exact ⟨fun bs a r x h => by simp [decVal] at h, fun bs a r x h => by simp [decValue] at h⟩
  | succ d ih =>
    obtain ⟨i1, i2⟩ := ih
    constructor
    · have : decVal (d + 1) = fun bs => (decU32 bs).bind _ := funext fun bs => by rw [decVal]
      rw [this]
      refine mono_U32.bind fun a r b r' x h => ?_
      simp only at h ⊢
      split at h
      · exact mono_bool.map Val.boolean _ _ _ x h
      · exact mono_I8.map Val.tinyInt _ _ _ x h
      · exact mono_I16.map Val.smallInt _ _ _ x h
      · exact mono_I32.map Val.integer _ _ _ x h
      · exact mono_I64.map Val.bigInt _ _ _ x h
      · exact (mono_fixed 8).map Val.decimal _ _ _ x h
      · exact (mono_fixed 4).map Val.float _ _ _ x h
      · exact mono_U64.map Val.timestamp _ _ _ x h
      · exact mono_I32.map Val.date _ _ _ x h
      · exact mono_I32.map Val.time _ _ _ x h
      · exact mono_I64.map Val.interval _ _ _ x h
      · exact mono_bytes.map Val.varLen _ _ _ x h
      · exact mono_bytes.map Val.constLen _ _ _ x h
      · exact mono_bytes.map Val.binary _ _ _ x h
      · exact mono_bytes.map Val.json _ _ _ x h
      · exact mono_bytes.map Val.uuid _ _ _ x h
      · exact mono_U64.bind (fun n r b r' x h => (mono_N i2 n).map Val.vector _ _ _ x h) _ _ _ x h
      · exact mono_U64.bind (fun n r b r' x h => (mono_N i2 n).map Val.array _ _ _ x h) _ _ _ x h
      · exact mono_I32.bind (fun i r b r' x h => mono_bytes.map (Val.enum i) _ _ _ x h) _ _ _ x h
      · exact (mono_fixed 8).bind (fun i r b r' x h => (mono_fixed 8).map (Val.point i) _ _ _ x h) _ _ _ x h
      · cases h; rfl
      · cases h; rfl
      · cases h
    · have : decValue (d + 1) = fun bs => (decVal d bs).bind _ := funext fun bs => by rw [decValue]
      rw [this]
      refine i1.bind fun v r b r' x h => ?_
      refine mono_size.bind (fun s r b r' x h => ?_) _ _ _ x h
      refine mono_bool.bind (fun m r b r' x h => ?_) _ _ _ x h
      refine mono_typeId.bind (fun t r b r' x h => ?_) _ _ _ x h
      exact (mono_opt (mono_U64.bind fun n r b r' x h => mono_N i2 n _ _ _ x h)).map (fun f => Value.mk v s m t f) _ _ _ x h

/-! The bound on the nesting only matters when it is too small. -/

/-- The second decoder succeeds with the same where the first does. -/
def Less {α : Type} (d e : Dec α) : Prop := ∀ bs y, d bs = some y → e bs = some y

theorem less_N {α : Type} {d e : Dec α} (h : Less d e) (n : Nat) : Less (decN d n) (decN e n) := by
  induction n with
  | zero => exact fun _ _ h => h
  | succ n ih =>
    intro bs y hy
    obtain ⟨r, h1, h2⟩ := Option.bind_eq_some_iff.1 hy
    obtain ⟨r', h3, h4⟩ := Option.map_eq_some_iff.1 h2
    exact Option.bind_eq_some_iff.2 ⟨r, h _ _ h1, Option.map_eq_some_iff.2 ⟨r', ih _ _ h3, h4⟩⟩

theorem less_seq {α : Type} {d e : Dec α} (h : Less d e) : Less (fun bs => (decU64 bs).bind fun r => decN d r.1 r.2) (fun bs => (decU64 bs).bind fun r => decN e r.1 r.2) := by
  intro bs y hy
  obtain ⟨r, h1, h2⟩ := Option.bind_eq_some_iff.1 hy
  exact Option.bind_eq_some_iff.2 ⟨r, h1, less_N h _ _ _ h2⟩

theorem less_opt {α : Type} {d e : Dec α} (h : Less d e) : Less (decOpt d) (decOpt e) := by
  intro bs y hy
  cases bs with
  | nil => cases hy
  | cons b bs =>
    simp only [decOpt] at hy ⊢
    split at hy
    · rename_i hb; simpa [hb] using hy
    · rename_i hb
      split at hy
      · rename_i hb'
        obtain ⟨r, h1, h2⟩ := Option.map_eq_some_iff.1 hy
        rw [if_neg hb, if_pos hb', h _ _ h1]
        exact congrArg some h2
      · cases hy

theorem less_values (d : Nat) : Less (decVal d) (decVal (d + 1)) ∧ Less (decValue d) (decValue (d + 1)) := by
  induction d with
  | zero => exact ⟨fun bs y h => by simp [decVal] at h, fun bs y h => by simp [decValue] at h⟩
  | succ d ih =>
    obtain ⟨i1, i2⟩ := ih
    constructor
    · intro bs y h
      rw [decVal] at h ⊢
      obtain ⟨r, h1, h2⟩ := Option.bind_eq_some_iff.1 h
      refine Option.bind_eq_some_iff.2 ⟨r, h1, ?_⟩
      obtain ⟨k, r⟩ := r
      split at h2 <;> rename_i hr <;> (try simp only at hr) <;> (try subst hr) <;> try exact h2
      · obtain ⟨n, h3, h4⟩ := Option.bind_eq_some_iff.1 h2
        obtain ⟨l, h5, h6⟩ := Option.map_eq_some_iff.1 h4
        exact Option.bind_eq_some_iff.2 ⟨n, h3, Option.map_eq_some_iff.2 ⟨l, less_N i2 _ _ _ h5, h6⟩⟩
      · obtain ⟨n, h3, h4⟩ := Option.bind_eq_some_iff.1 h2
        obtain ⟨l, h5, h6⟩ := Option.map_eq_some_iff.1 h4
        exact Option.bind_eq_some_iff.2 ⟨n, h3, Option.map_eq_some_iff.2 ⟨l, less_N i2 _ _ _ h5, h6⟩⟩
    · intro bs y h
      rw [decValue] at h ⊢
      obtain ⟨v, h1, h2⟩ := Option.bind_eq_some_iff.1 h
      obtain ⟨s, h3, h4⟩ := Option.bind_eq_some_iff.1 h2
      obtain ⟨m, h5, h6⟩ := Option.bind_eq_some_iff.1 h4
      obtain ⟨t, h7, h8⟩ := Option.bind_eq_some_iff.1 h6
      obtain ⟨f, h9, h10⟩ := Option.map_eq_some_iff.1 h8
      exact Option.bind_eq_some_iff.2 ⟨v, i1 _ _ h1, Option.bind_eq_some_iff.2 ⟨s, h3, Option.bind_eq_some_iff.2 ⟨m, h5,
        Option.bind_eq_some_iff.2 ⟨t, h7, Option.map_eq_some_iff.2 ⟨f, less_opt (less_seq i2) _ _ h9, h10⟩⟩⟩⟩⟩

theorem less_value {d e : Nat} (h : d ≤ e) : Less (decValue d) (decValue e) := by
  induction h with
  | refl => exact fun _ _ h => h
  | step _ ih => exact fun bs y hy => (less_values _).2 _ _ (ih _ _ hy)

theorem mono_tuple : Mono decTuple := by
  intro bs a r x h
  obtain ⟨n, h1, h2⟩ := Option.bind_eq_some_iff.1 h
  simp only [decTuple, mono_U64 _ _ _ x h1, Option.bind_some]
  exact mono_N (mono_values _).2 _ _ _ _ x (less_N (less_value (by simp)) _ _ _ h2)

theorem mono_request : Mono decRequest := mono_U32.bind fun a r b r' x h => by
  simp only at h ⊢
  split at h
  · exact mono_bytes.map Request.query _ _ _ x h
  · exact mono_iso.map Request.begin _ _ _ x h
  · cases h; rfl
  · cases h; rfl
  · exact mono_bytes.map Request.prepare _ _ _ x h
  · exact mono_U64.bind (fun n r b r' x h => mono_tuple.map (Request.execute n) _ _ _ x h) _ _ _ x h
  · exact mono_U64.map Request.close _ _ _ x h
  · cases h

theorem mono_response : Mono decResponse := mono_U32.bind fun a r b r' x h => by
  simp only at h ⊢
  split at h
  · refine (mono_seq mono_bytes).bind (fun ns r b r' x h => ?_) _ _ _ x h
    refine (mono_seq mono_tuple).bind (fun rs r b r' x h => ?_) _ _ _ x h
    exact (mono_seq mono_bytes).map (fun ms => Response.results ns rs ms) _ _ _ x h
  · exact mono_U64.bind (fun n r b r' x h => (mono_seq mono_typeId).map (Response.prepareOk n) _ _ _ x h) _ _ _ x h
  · exact mono_bytes.map Response.error _ _ _ x h
  · cases h

/-- No proper prefix of a message can be decoded. -/
theorem Mono.prefix {α : Type} {d : Dec α} (hd : Mono d) {p q : List Byte} {a : α} (h : d (p ++ q) = some (a, [])) (hq : q ≠ []) : d p = none := by
  cases hp : d p with
  | none => rfl
  | some y =>
    obtain ⟨b, r⟩ := y
    rw [hd _ _ _ q hp] at h
    cases r <;> simp_all

end Verif.Net

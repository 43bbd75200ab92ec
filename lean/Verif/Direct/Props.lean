import Verif.Direct.Model
import Verif.Io.Lemmas

/-!
# C121: direct I/O

Specification vocabulary, from `Verif.Io.Spec`: `Written f off d g` says that `g` is the file `f` after `d` was written at `off`, `Has f off n d`
that `d` are the `n` bytes of `f` at `off`.
-/

namespace Verif.Direct

open Verif.Bytes (Byte)
open Verif.Io (Data writeAt writeAt_written)
open Verif.Io.Spec (Written Has)

theorem written_append {f g h a b : Data} {off : Nat} (h1 : Written f off a g) (h2 : Written g (off + a.length) b h) : Written f off (a ++ b) h := by
  obtain ⟨l1, g1⟩ := h1
  obtain ⟨l2, g2⟩ := h2
  by_cases ha : a = []
  · subst ha
    have e : g = f := by
      apply List.ext_getElem?
      intro i
      rw [if_pos rfl] at l1
      by_cases hi : i < g.length
      · rw [g1 i hi, if_neg (by simp only [List.length_nil]; omega), if_pos (by omega)]
      · rw [List.getElem?_eq_none (by omega), List.getElem?_eq_none (by omega)]
    subst e
    rw [List.nil_append]
    exact ⟨by simpa using l2, by simpa using g2⟩
  · have hal : 0 < a.length := List.length_pos_iff.2 ha
    rw [if_neg ha] at l1
    refine ⟨?_, fun i hi => ?_⟩
    · rw [if_neg (by simp [ha]), List.length_append, l2]
      split
      · rename_i hb; subst hb; simp [l1]
      · omega
    · rw [g2 i hi, List.length_append]
      have lh : h.length = max f.length (off + (a.length + b.length)) := by
        rw [l2]; split
        · rename_i hb; subst hb; simp [l1]
        · omega
      by_cases hb : off + a.length ≤ i ∧ i < off + a.length + b.length
      · rw [if_pos hb, if_pos (by omega), List.getElem?_append_right (by omega)]
        congr 1; omega
      · rw [if_neg hb]
        by_cases hg : i < g.length
        · rw [if_pos hg, g1 i hg]
          by_cases hin : off ≤ i ∧ i < off + a.length
          · rw [if_pos hin, if_pos (by omega), List.getElem?_append_left (by omega)]
          · have : ¬ (off ≤ i ∧ i < off + (a.length + b.length)) := by omega
            simp only [if_neg hin, if_neg this]
        · rw [if_neg hg, if_neg (by omega), if_neg (by omega)]

/-- What the write loop leaves: a beginning of the bytes written, all of them if it succeeds. -/
theorem writeLoop_spec : ∀ (script : List (Option Nat)) (calls : List Call) (f : Data) (addr off : Nat) (d : Data),
    ∃ d', d' <+: d ∧ Written f off d' (writeLoop script calls f addr off d).2.1 ∧
      ((writeLoop script calls f addr off d).2.2 = .ok () → d' = d) ∧ (writeLoop script calls f addr off d).2.2 ≠ .panic := by
  have nothing : ∀ f off, Written f off [] f := fun f off => by simpa [writeAt] using writeAt_written f off []
  intro script
  induction script with
  | nil =>
    intro calls f addr off d
    unfold writeLoop
    split
    · rename_i h; subst h; exact ⟨[], List.nil_prefix, nothing f off, fun _ => rfl, by simp⟩
    · exact ⟨[], List.nil_prefix, nothing f off, by simp, by simp⟩
  | cons s script ih =>
    intro calls f addr off d
    unfold writeLoop
    split
    · rename_i h; subst h; exact ⟨[], List.nil_prefix, nothing f off, fun _ => rfl, by simp⟩
    · cases s with
      | none => exact ⟨[], List.nil_prefix, nothing f off, by simp, by simp⟩
      | some k =>
        simp only
        obtain ⟨d', hp, hw, hok, hnp⟩ := ih (calls ++ [(addr, off, d.length)]) (writeAt f off (d.take (min (k + 1) d.length))) (addr + min (k + 1) d.length)
          (off + min (k + 1) d.length) (d.drop (min (k + 1) d.length))
        refine ⟨d.take (min (k + 1) d.length) ++ d', ?_, ?_, fun h => ?_, hnp⟩
        · conv => rhs; rw [← List.take_append_drop (min (k + 1) d.length) d]
          exact (List.prefix_append_right_inj _).2 hp
        · apply written_append (writeAt_written f off _)
          rw [List.length_take, Nat.min_eq_left (by omega : min (k + 1) d.length ≤ d.length)]
          exact hw
        · rw [hok h, List.take_append_drop]

theorem readLoop_spec (f : Data) : ∀ (script : List (Option Nat)) (calls : List Call) (addr off n : Nat) (acc : Data),
    (∀ d, (readLoop f script calls addr off n acc).2 = .ok d → ∃ d', d = acc ++ d' ∧ Has f off n d' ∨ (n = 0 ∧ d = acc)) ∧
    (readLoop f script calls addr off n acc).2 ≠ .panic := by
  intro script
  induction script with
  | nil =>
    intro calls addr off n acc
    unfold readLoop
    split
    · rename_i h; exact ⟨fun d hd => by cases hd; exact ⟨[], .inr ⟨h, rfl⟩⟩, by simp⟩
    · exact ⟨by simp, by simp⟩
  | cons s script ih =>
    intro calls addr off n acc
    unfold readLoop
    split
    · rename_i h; exact ⟨fun d hd => by cases hd; exact ⟨[], .inr ⟨h, rfl⟩⟩, by simp⟩
    · rename_i hn
      cases s with
      | none => exact ⟨by simp, by simp⟩
      | some k =>
        simp only
        split
        · exact ⟨by simp, by simp⟩
        · rename_i hg
          have hl : ((f.drop off).take (min (k + 1) n)).length = min (min (k + 1) n) (f.length - off) := by simp
          have hpos : 0 < ((f.drop off).take (min (k + 1) n)).length := List.length_pos_iff.2 hg
          obtain ⟨i1, i2⟩ := ih (calls ++ [(addr, off, n)]) (addr + ((f.drop off).take (min (k + 1) n)).length)
            (off + ((f.drop off).take (min (k + 1) n)).length) (n - ((f.drop off).take (min (k + 1) n)).length) (acc ++ (f.drop off).take (min (k + 1) n))
          refine ⟨fun d hd => ?_, i2⟩
          generalize hgot : (f.drop off).take (min (k + 1) n) = got at *
          have hget : ∀ i, i < got.length → got[i]? = f[off + i]? := by
            intro i hi
            rw [← hgot, List.getElem?_take_of_lt (by omega), List.getElem?_drop]
          obtain ⟨d', h⟩ := i1 d hd
          rcases h with ⟨e, h1, h2, h3⟩ | ⟨h0, e⟩
          · refine ⟨got ++ d', .inl ⟨by rw [e, List.append_assoc], by omega, by rw [List.length_append]; omega, fun i hi => ?_⟩⟩
            by_cases hlt : i < got.length
            · rw [List.getElem?_append_left hlt, hget i hlt]
            · rw [List.getElem?_append_right (by omega), h3 _ (by omega)]
              congr 1; omega
          · refine ⟨got, .inl ⟨e, by omega, by omega, fun i hi => hget i (by omega)⟩⟩

theorem readLoop_ok {f : Data} {script : List (Option Nat)} {addr off n : Nat} {d : Data} (hn : n ≠ 0)
    (h : (readLoop f script [] addr off n []).2 = .ok d) : Has f off n d := by
  obtain ⟨d', h | h⟩ := (readLoop_spec f script [] addr off n []).1 d h
  · rw [h.1, List.nil_append]; exact h.2
  · exact absurd h.1 hn

theorem has_take {f : Data} {off n m : Nat} {d : Data} (h : Has f off n d) (hm : m ≤ n) : Has f off m (d.take m) := by
  obtain ⟨h1, h2, h3⟩ := h
  exact ⟨by omega, by rw [List.length_take]; omega, fun i hi => by rw [List.getElem?_take_of_lt hi, h3 i (by omega)]⟩

theorem roundUp_ge {size a n : Nat} (h : roundUp size a = some n) : size ≤ n := by
  unfold roundUp at h
  split at h
  · cases h; exact Nat.le_refl _
  · split at h
    · cases h
      have h1 := Nat.div_add_mod (size + (a - 1)) a
      rw [Nat.mul_comm] at h1
      have h2 := Nat.mod_lt (size + (a - 1)) (by omega : a > 0)
      omega
    · cases h

/-! ## C121 -/

/-- A write that reports success has put exactly its bytes at the offset and changed nothing else; any other write leaves a beginning of
its bytes, and nothing if it was refused. For all files, settings, addresses and ways in which the operating system cuts the transfer. -/
theorem C121_write (alloc : Nat → Nat → Nat) (cfg : Config) (f : Data) (script : List (Option Nat)) (off addr : Nat) (d : Data) :
    ∃ d', d' <+: d ∧ Written f off d' (writeAligned alloc cfg f script off addr d).2.1 ∧
      ((writeAligned alloc cfg f script off addr d).2.2 = .ok () → d' = d) := by
  have nothing : Written f off [] f := by simpa [writeAt] using writeAt_written f off []
  have loop : ∀ a, ∃ d', d' <+: d ∧ Written f off d' (writeLoop script [] f a off d).2.1 ∧ ((writeLoop script [] f a off d).2.2 = .ok () → d' = d) := by
    intro a
    obtain ⟨d', h1, h2, h3, _⟩ := writeLoop_spec script [] f a off d
    exact ⟨d', h1, h2, h3⟩
  unfold writeAligned
  split
  · rename_i h; subst h; exact ⟨[], List.nil_prefix, nothing, fun _ => rfl⟩
  · split
    · exact ⟨[], List.nil_prefix, nothing, by simp⟩
    · split
      · split
        · exact loop _
        · exact ⟨[], List.nil_prefix, nothing, by simp⟩
      · exact loop _

/-- A read that reports success gives the bytes of the file at the offset: `read_aligned` those and, with direct I/O, some more of the file,
`read_aligned_into` exactly those. -/
theorem C121_read (alloc : Nat → Nat → Nat) (cfg : Config) (f : Data) (script : List (Option Nat)) (off : Nat) :
    (∀ size d, (readAligned alloc cfg f script off size).2 = .ok d → size ≠ 0 → size ≤ d.length ∧ Has f off d.length d ∧ Has f off size (d.take size)) ∧
    (∀ addr len d, (readAlignedInto alloc cfg f script off addr len).2 = .ok d → len ≠ 0 → Has f off len d) := by
  constructor
  · intro size d h hs
    unfold readAligned at h
    rw [if_neg hs] at h
    split at h
    · cases h
    · split at h
      · cases h
      · rename_i n hn
        split at h
        · have hle : size ≤ n := by
            split at hn
            · exact roundUp_ge hn
            · cases hn; exact Nat.le_refl _
          have := readLoop_ok (by omega) h
          exact ⟨by rw [this.2.1]; exact hle, by rw [this.2.1]; exact this, has_take this hle⟩
        · cases h
  · intro addr len d h hs
    unfold readAlignedInto at h
    rw [if_neg hs] at h
    split at h
    · split at h
      · cases h
      · split at h
        · split at h
          · cases h
          · rename_i n hn
            split at h
            · split at h
              · rename_i cs d0 hd
                cases h
                have hok : (readLoop f script [] (alloc n cfg.alignment) off n []).2 = .ok d0 := by rw [hd]
                exact has_take (readLoop_ok (by have := roundUp_ge hn; omega) hok) (roundUp_ge hn)
              · rename_i r hr
                exact (hr _ d (Prod.ext rfl h)).elim
            · cases h
        · exact readLoop_ok hs h
    · exact readLoop_ok hs h

theorem has_unique {f : Data} {off n : Nat} {d e : Data} (h : Has f off n d) (h' : Has f off n e) : d = e := by
  apply List.ext_getElem?
  intro i
  by_cases hi : i < n
  · rw [h.2.2 i hi, h'.2.2 i hi]
  · rw [List.getElem?_eq_none (by rw [h.2.1]; omega), List.getElem?_eq_none (by rw [h'.2.1]; omega)]

/-- What was written is read back. -/
theorem C121_round_trip (alloc : Nat → Nat → Nat) (cfg cfg' : Config) (f : Data) (script script' : List (Option Nat)) (off addr addr' : Nat) (d e : Data)
    (hd : d ≠ []) (hw : (writeAligned alloc cfg f script off addr d).2.2 = .ok ())
    (hr : (readAlignedInto alloc cfg' (writeAligned alloc cfg f script off addr d).2.1 script' off addr' d.length).2 = .ok e) : e = d := by
  obtain ⟨d', _, hw', hok⟩ := C121_write alloc cfg f script off addr d
  rw [hok hw] at hw'
  have h1 := (C121_read alloc cfg' _ script' off).2 addr' d.length e hr (by simp [hd])
  refine has_unique h1 ⟨h1.1, rfl, fun i hi => ?_⟩
  rw [hw'.2 (off + i) (by have := h1.1; omega), if_pos (by omega)]
  congr 1; omega

def settings : Config := ⟨true, 4⟩
def eight : Data := [1, 2, 3, 4, 5, 6, 7, 8]

example : (writeAligned (fun _ _ => 64) settings [9, 9] [some 3, some 0, some 9] 4 17 eight)
      = ([(64, 4, 8), (68, 8, 4), (69, 9, 3)], [9, 9, 0, 0, 1, 2, 3, 4, 5, 6, 7, 8], .ok ()) ∧
    (readAlignedInto (fun _ _ => 64) settings (writeAligned (fun _ _ => 64) settings [9, 9] [some 3, some 0, some 9] 4 17 eight).2.1 [some 7] 4 32 8).2
      = .ok eight := by decide +kernel

/-- With direct I/O on, a write is refused, and the file unchanged, unless offset and length are multiples of the alignment; an alignment
that is not a power of two is refused always. -/
theorem C121_refused (alloc : Nat → Nat → Nat) (a : Nat) (f : Data) (script : List (Option Nat)) (off addr : Nat) (d : Data) (hd : d ≠ [])
    (h : ¬ ((∃ k, k < 64 ∧ a = 2 ^ k) ∧ a ∣ off ∧ a ∣ d.length)) :
    writeAligned alloc ⟨true, a⟩ f script off addr d = ([], f, .err) := by
  unfold writeAligned
  rw [if_neg hd, if_pos]
  simp only [Bool.true_and, Bool.not_eq_true', Bool.and_eq_false_iff, validAlignment, isPow2, multiple]
  rcases Nat.eq_zero_or_pos a with rfl | ha
  · simp
  by_cases h1 : ∃ k, k < 64 ∧ a = 2 ^ k
  · by_cases h2 : a ∣ off
    · right
      have h3 : ¬ a ∣ d.length := fun h3 => h ⟨h1, h2, h3⟩
      rw [Nat.dvd_iff_mod_eq_zero] at h3
      simp [h3]; omega
    · left; right
      rw [Nat.dvd_iff_mod_eq_zero] at h2
      simp [h2]; omega
  · left; left; right; right
    rw [Bool.eq_false_iff]
    intro hany
    apply h1
    simp only [List.any_eq_true, List.mem_range, beq_iff_eq] at hany
    exact hany

example : ¬ ((∃ k, k < 64 ∧ 512 = 2 ^ k) ∧ 512 ∣ 512 ∧ 512 ∣ eight.length) := by
  rintro ⟨_, _, h⟩; revert h; decide

/-- With direct I/O on, a read is refused, and makes no call, unless the offset is a multiple of the alignment and the alignment is a power of
two. -/
theorem C121_read_refused (alloc : Nat → Nat → Nat) (a : Nat) (f : Data) (script : List (Option Nat)) (off addr n : Nat) (hn : n ≠ 0)
    (h : ¬ ((∃ k, k < 64 ∧ a = 2 ^ k) ∧ a ∣ off)) :
    readAligned alloc ⟨true, a⟩ f script off n = ([], .err) ∧ readAlignedInto alloc ⟨true, a⟩ f script off addr n = ([], .err) := by
  have hc : (validAlignment a && multiple off a) = false := by
    simp only [Bool.and_eq_false_iff, validAlignment, isPow2, multiple]
    rcases Nat.eq_zero_or_pos a with rfl | ha
    · simp
    by_cases h1 : ∃ k, k < 64 ∧ a = 2 ^ k
    · have h2 : ¬ a ∣ off := fun h2 => h ⟨h1, h2⟩
      rw [Nat.dvd_iff_mod_eq_zero] at h2
      right; simp [h2]; omega
    · left; right; right
      rw [Bool.eq_false_iff]
      intro hany
      apply h1
      simp only [List.any_eq_true, List.mem_range, beq_iff_eq] at hany
      exact hany
  constructor
  · unfold readAligned
    rw [if_neg hn, if_pos (by simp only [hc]; rfl)]
  · unfold readAlignedInto
    rw [if_neg hn, if_pos rfl, if_pos (by simp only [hc]; rfl)]

example : ¬ ((∃ k, k < 64 ∧ 512 = 2 ^ k) ∧ 512 ∣ 100) := by rintro ⟨_, h⟩; revert h; decide

/-- A call of the operating system is aligned. -/
def AlignedCall (a : Nat) (c : Call) : Prop := a ∣ c.1 ∧ a ∣ c.2.1 ∧ a ∣ c.2.2

theorem writeLoop_aligned (a : Nat) : ∀ (script : List (Option Nat)) (calls : List Call) (f : Data) (addr off : Nat) (d : Data),
    (∀ k, some k ∈ script → a ∣ k + 1) → (∀ c ∈ calls, AlignedCall a c) → a ∣ addr → a ∣ off → a ∣ d.length →
    ∀ c ∈ (writeLoop script calls f addr off d).1, AlignedCall a c := by
  intro script
  induction script with
  | nil => intro calls f addr off d _ hc _ _ _ c h; unfold writeLoop at h; split at h <;> exact hc c h
  | cons s script ih =>
    intro calls f addr off d hs hc ha ho hd c h
    unfold writeLoop at h
    have hc' : ∀ c ∈ calls ++ [(addr, off, d.length)], AlignedCall a c := by
      intro c h
      rcases List.mem_append.1 h with h | h
      · exact hc c h
      · rw [List.mem_singleton] at h; subst h; exact ⟨ha, ho, hd⟩
    split at h
    · exact hc c h
    · cases s with
      | none => exact hc' c h
      | some k =>
        have hm : a ∣ min (k + 1) d.length := by
          rcases Nat.le_total (k + 1) d.length with h | h
          · rw [Nat.min_eq_left h]; exact hs k List.mem_cons_self
          · rw [Nat.min_eq_right h]; exact hd
        refine ih _ _ _ _ _ (fun k hk => hs k (List.mem_cons_of_mem _ hk)) hc' (Nat.dvd_add ha hm) (Nat.dvd_add ho hm) ?_ c h
        rw [List.length_drop]
        exact Nat.dvd_sub hd hm

theorem valid_multiple {a n : Nat} (hv : validAlignment a = true) (h : multiple n a = true) : a ∣ n := by
  simp only [validAlignment, multiple, Bool.and_eq_true, bne_iff_ne, Bool.or_eq_true, beq_iff_eq] at hv h
  rw [Nat.dvd_iff_mod_eq_zero]
  omega

/-- With direct I/O on, an allocator that keeps to the alignment, and an operating system that moves multiples of it, every call a write
makes has an aligned address, offset and length. Full property: however the operating system cuts a transfer; see `C121_short_fails`. -/
theorem C121_aligned_partial (alloc : Nat → Nat → Nat) (halloc : ∀ n a, a ∣ alloc n a) (a : Nat) (f : Data) (script : List (Option Nat))
    (hs : ∀ k, some k ∈ script → a ∣ k + 1) (off addr : Nat) (d : Data) :
    ∀ c ∈ (writeAligned alloc ⟨true, a⟩ f script off addr d).1, AlignedCall a c := by
  unfold writeAligned
  split
  · simp
  · rename_i hd
    split
    · simp
    · rename_i hv
      simp only [Bool.true_and, Bool.not_eq_true', Bool.not_eq_false, Bool.and_eq_true] at hv
      have ho := valid_multiple hv.1.1 hv.1.2
      have hl := valid_multiple hv.1.1 hv.2
      split
      · split
        · exact writeLoop_aligned a _ _ _ _ _ _ hs (by simp) (halloc _ _) ho hl
        · simp
      · rename_i ha
        have : a ∣ addr := by
          simp only [isAligned, Bool.true_and, Bool.not_eq_true', Bool.not_eq_false, Bool.or_eq_true, beq_iff_eq] at ha
          rcases ha with ha | ha
          · exact absurd (List.length_eq_zero_iff.1 ha) hd
          · exact valid_multiple hv.1.1 ha
        exact writeLoop_aligned a _ _ _ _ _ _ hs (by simp) this ho hl

example : (∀ n a : Nat, a ∣ a * n) ∧ (∀ k, some k ∈ [some 3, some 7] → 4 ∣ k + 1) ∧
    (writeAligned (fun n a => a * n) settings [] [some 3, some 7] 4 17 eight).1 = [(32, 4, 8), (36, 8, 4)] := by
  refine ⟨fun n a => Nat.dvd_mul_right a n, fun k hk => ?_, by decide +kernel⟩
  simp only [List.mem_cons, Option.some.injEq, List.not_mem_nil, or_false] at hk
  rcases hk with rfl | rfl <;> decide

/-- Progress: without an I/O error a write of `d` needs at most as many calls as it has bytes, and so does a read of bytes the file has. -/
theorem writeLoop_ok : ∀ (script : List (Option Nat)) (calls : List Call) (f : Data) (addr off : Nat) (d : Data),
    none ∉ script → d.length ≤ script.length → (writeLoop script calls f addr off d).2.2 = .ok () := by
  intro script
  induction script with
  | nil =>
    intro calls f addr off d _ hl
    have : d = [] := List.length_eq_zero_iff.1 (by simpa using hl)
    subst this; rfl
  | cons s script ih =>
    intro calls f addr off d hs hl
    unfold writeLoop
    split
    · rfl
    · rename_i hd
      cases s with
      | none => exact absurd List.mem_cons_self hs
      | some k =>
        refine ih _ _ _ _ _ (fun h => hs (List.mem_cons_of_mem _ h)) ?_
        have := List.length_pos_iff.2 hd
        rw [List.length_drop]
        rw [List.length_cons] at hl
        omega

theorem readLoop_progress (f : Data) : ∀ (script : List (Option Nat)) (calls : List Call) (addr off n : Nat) (acc : Data),
    none ∉ script → n ≤ script.length → off + n ≤ f.length → ∃ d, (readLoop f script calls addr off n acc).2 = .ok d := by
  intro script
  induction script with
  | nil =>
    intro calls addr off n acc _ hl _
    have : n = 0 := by simpa using hl
    subst this; exact ⟨_, rfl⟩
  | cons s script ih =>
    intro calls addr off n acc hs hl hf
    unfold readLoop
    split
    · exact ⟨_, rfl⟩
    · rename_i hn
      cases s with
      | none => exact absurd List.mem_cons_self hs
      | some k =>
        simp only
        have hlen : ((f.drop off).take (min (k + 1) n)).length = min (k + 1) n := by simp; omega
        rw [if_neg (by intro e; rw [e] at hlen; simp at hlen; omega)]
        rw [List.length_cons] at hl
        exact ih _ _ _ _ _ (fun h => hs (List.mem_cons_of_mem _ h)) (by rw [hlen]; omega) (by rw [hlen]; omega)

/-- Without an I/O error, writes that are not refused and reads of bytes the file has succeed. With direct I/O a read needs the file to go on to
the next multiple of the alignment: full property, without that; see `C121_tail_fails`. -/
theorem C121_succeeds_partial (alloc : Nat → Nat → Nat) (a : Nat) (hv : validAlignment a = true) (f : Data) (script : List (Option Nat))
    (hs : none ∉ script) (off addr : Nat) (ho : a ∣ off) :
    (∀ d enabled, a ∣ d.length → d.length ≤ script.length → layoutOk d.length a = true →
      (writeAligned alloc ⟨enabled, a⟩ f script off addr d).2.2 = .ok ()) ∧
    (∀ len, len ≤ script.length → off + len ≤ f.length → ∃ d, (readAlignedInto alloc ⟨false, a⟩ f script off addr len).2 = .ok d) ∧
    (∀ len n, roundUp len a = some n → n ≤ script.length → off + n ≤ f.length → layoutOk n a = true →
      ∃ d, (readAlignedInto alloc ⟨true, a⟩ f script off addr len).2 = .ok d) := by
  have hmul : ∀ n, a ∣ n → multiple n a = true := fun n h => by
    simp [multiple, Nat.dvd_iff_mod_eq_zero.1 h]
  refine ⟨?_, ?_, ?_⟩
  · intro d enabled hd hl hlay
    unfold writeAligned
    split
    · rfl
    · rw [if_neg (by simp [hv, hmul _ ho, hmul _ hd])]
      split
      · simp only [hlay, if_true]
        exact writeLoop_ok _ _ _ _ _ _ hs hl
      · exact writeLoop_ok _ _ _ _ _ _ hs hl
  · intro len hl hf
    unfold readAlignedInto
    split
    · exact ⟨_, rfl⟩
    · rw [if_neg (by simp)]
      exact readLoop_progress f _ _ _ _ _ _ hs hl hf
  · intro len n hn hl hf hlay
    unfold readAlignedInto
    split
    · exact ⟨_, rfl⟩
    · have hle := roundUp_ge hn
      rw [if_pos rfl, if_neg (by simp [hv, hmul _ ho])]
      split
      · rw [hn]
        simp only
        rw [if_pos hlay]
        obtain ⟨d, hd⟩ := readLoop_progress f script [] (alloc n a) off n [] hs hl hf
        generalize readLoop f script [] (alloc n a) off n [] = r at hd
        obtain ⟨cs, r⟩ := r
        cases hd
        exact ⟨_, rfl⟩
      · exact readLoop_progress f _ _ _ _ _ _ hs (by omega) (by omega)

example : validAlignment 4 = true ∧ (none : Option Nat) ∉ [some 1, some 1, some 1, some 1, some 1, some 1, some 1, some 1] ∧ 4 ∣ eight.length ∧
    layoutOk eight.length 4 = true ∧ roundUp 5 4 = some 8 := by decide +kernel

/-- With direct I/O the last bytes of a file whose length is not a multiple of the alignment cannot be read. -/
theorem C121_tail_fails (alloc : Nat → Nat → Nat) : (readAlignedInto alloc settings [1, 2] (List.replicate 9 (some 9)) 0 64 2).2 = .err ∧
    (readAlignedInto alloc ⟨false, 4⟩ [1, 2] (List.replicate 9 (some 9)) 0 64 2).2 = .ok [1, 2] := by
  constructor <;> rfl

/-- After a short transfer the call that goes on is not aligned. -/
theorem C121_short_fails : (69, 9, 3) ∈ (writeAligned (fun _ _ => 64) settings [9, 9] [some 3, some 0, some 9] 4 17 eight).1 ∧ ¬ AlignedCall 4 (69, 9, 3) := by
  refine ⟨by decide +kernel, ?_⟩
  rintro ⟨h, _⟩
  revert h; decide

/-- An alignment that is not a power of two is not refused by reads without direct I/O: they panic. -/
theorem C121_panics_fails (alloc : Nat → Nat → Nat) : (readAligned alloc ⟨false, 3⟩ [1, 2] [some 9] 0 2).2 = .panic := by rfl

end Verif.Direct

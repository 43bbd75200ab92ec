import Verif.Coalesce.Size

/-! # Lemmas on the size analysis of the write coalescer -/

namespace Verif.Coalesce.Size

open Verif.Io (Data)

theorem add_ok {c : Bool} {a b : Nat} (h : a + b < 2 ^ 64) : add c a b = some (a + b) := if_pos h

theorem sub_ok {c : Bool} {a b : Nat} (h : b ≤ a) : sub c a b = some (a - b) := if_pos h

theorem mul_ok {c : Bool} {a b : Nat} (h : a * b < 2 ^ 64) : mul c a b = some (a * b) := if_pos h

theorem foldl_add_ok {c : Bool} : ∀ (l : List Nat) (n : Nat), n + l.sum < 2 ^ 64 → l.foldlM (add c) n = some (n + l.sum)
  | [], n, _ => by simp
  | a :: l, n, h => by
    simp only [List.sum_cons] at h ⊢
    rw [List.foldlM_cons, add_ok (by omega)]
    show l.foldlM (add c) (n + a) = _
    rw [foldl_add_ok l (n + a) (by omega), Nat.add_assoc]

theorem sum_ok {c : Bool} {l : List Nat} (h : l.sum < 2 ^ 64) : sum c l = some l.sum := by
  rw [sum, foldl_add_ok l 0 (by omega), Nat.zero_add]

/-! ## Sorting -/

theorem put_perm (p : Nat) : ∀ l : List Nat, (sortPages.put p l).Perm (p :: l)
  | [] => .rfl
  | q :: l => by
    rw [sortPages.put]
    split
    · exact .rfl
    · exact ((put_perm p l).cons q).trans (.swap _ _ _)

theorem sort_perm : ∀ l : List Nat, (sortPages l).Perm l
  | [] => .rfl
  | p :: l => (put_perm p _).trans ((sort_perm l).cons p)

theorem put_sorted (p : Nat) : ∀ l : List Nat, l.Pairwise (· ≤ ·) → (sortPages.put p l).Pairwise (· ≤ ·)
  | [], _ => List.pairwise_singleton _ _
  | q :: l, h => by
    rw [sortPages.put]
    split
    · rename_i hpq
      refine List.pairwise_cons.2 ⟨fun x hx => ?_, h⟩
      rcases List.mem_cons.1 hx with rfl | hx
      · exact hpq
      · exact Nat.le_trans hpq ((List.pairwise_cons.1 h).1 x hx)
    · rename_i hpq
      refine List.pairwise_cons.2 ⟨fun x hx => ?_, put_sorted p l (List.pairwise_cons.1 h).2⟩
      rcases List.mem_cons.1 ((put_perm p l).mem_iff.1 hx) with rfl | hx
      · omega
      · exact (List.pairwise_cons.1 h).1 x hx

theorem sort_sorted : ∀ l : List Nat, (sortPages l).Pairwise (· ≤ ·)
  | [] => .nil
  | p :: l => put_sorted p _ (sort_sorted l)

theorem sort_strict {l : List Nat} (nd : l.Nodup) : (sortPages l).Pairwise (· < ·) :=
  ((sort_sorted l).and ((sort_perm l).nodup_iff.2 nd)).imp fun ⟨h, h'⟩ => by omega

/-! ## Ranges -/

/-- The pages of a range, in order. -/
def pagesOf (r : PageRange) : List Nat := List.range' r.start (r.last + 1 - r.start)

theorem mem_pagesOf {r : PageRange} {p : Nat} : p ∈ pagesOf r ↔ r.start ≤ p ∧ p ≤ r.last := by
  rw [pagesOf, List.mem_range'_1]; omega

/-- What the loop gives for pages in strictly ascending order. -/
theorem grow_ok {c : Bool} {pending : Map Data} :
    ∀ (ps : List Nat) (s e b : Nat), s ≤ e → (e :: ps).Pairwise (· < ·) → (∀ p ∈ ps, p < 2 ^ 64) →
      b = ((List.range' s (e + 1 - s)).map (pageBytes pending)).sum →
      b + (ps.map (pageBytes pending)).sum < 2 ^ 64 →
      ∃ rs, grow c pending s e b ps = some rs ∧ rs.flatMap pagesOf = List.range' s (e + 1 - s) ++ ps
        ∧ (∀ r ∈ rs, r.start ≤ r.last ∧ r.bytes = ((pagesOf r).map (pageBytes pending)).sum)
        ∧ rs.Pairwise (fun r r' => r.last + 1 < r'.start) ∧ (∃ r rs', rs = r :: rs' ∧ r.start = s)
  | [], s, e, b, hse, _, _, hb, _ => by
    refine ⟨[⟨s, e, b⟩], by rw [grow, if_pos hse], by simp [pagesOf], ?_, List.pairwise_singleton _ _, _, _, rfl, rfl⟩
    intro r hr
    obtain rfl := List.mem_singleton.1 hr
    exact ⟨hse, hb⟩
  | p :: ps, s, e, b, hse, hp, hlt, hb, hs => by
    obtain ⟨hp1, hp2⟩ := List.pairwise_cons.1 hp
    have hep : e < p := hp1 p (List.mem_cons_self ..)
    have hp64 : p < 2 ^ 64 := hlt p (List.mem_cons_self ..)
    simp only [List.map_cons, List.sum_cons] at hs
    rw [grow, add_ok (c := c) (a := e) (b := 1) (by omega)]
    show ∃ rs, (if p = e + 1 then _ else _) = some rs ∧ _
    by_cases hn : p = e + 1
    · rw [if_pos hn, add_ok (by omega)]
      have hr : List.range' s (p + 1 - s) = List.range' s (e + 1 - s) ++ [p] := by
        rw [show p + 1 - s = (e + 1 - s) + 1 by omega, List.range'_concat, show s + 1 * (e + 1 - s) = p by omega]
      obtain ⟨rs, h1, h2, h3⟩ := grow_ok (c := c) (pending := pending) ps s p (b + pageBytes pending p) (by omega) hp2
        (fun q hq => hlt q (List.mem_cons_of_mem _ hq)) (by rw [hr, List.map_append, List.sum_append, ← hb]; simp) (by omega)
      exact ⟨rs, h1, by rw [h2, hr, List.append_assoc, List.singleton_append], h3⟩
    · rw [if_neg hn]
      have hr : List.range' p (p + 1 - p) = [p] := by rw [show p + 1 - p = 1 by omega]; rfl
      obtain ⟨rs, h1, h2, h3, h4, r, rs', rfl, h6⟩ := grow_ok (c := c) (pending := pending) ps p p (pageBytes pending p) (Nat.le_refl _) hp2
        (fun q hq => hlt q (List.mem_cons_of_mem _ hq)) (by rw [hr]; simp) (by omega)
      rw [h1]
      refine ⟨⟨s, e, b⟩ :: r :: rs', rfl, ?_, ?_, ?_, _, _, rfl, rfl⟩
      · rw [List.flatMap_cons, h2, hr]; rfl
      · intro x hx
        rcases List.mem_cons.1 hx with rfl | hx
        · exact ⟨hse, hb⟩
        · exact h3 x hx
      · refine List.pairwise_cons.2 ⟨fun x hx => ?_, h4⟩
        show e + 1 < x.start
        rcases List.mem_cons.1 hx with rfl | hx
        · omega
        · have := (List.pairwise_cons.1 h4).1 x hx
          have := (h3 r (List.mem_cons_self ..)).1
          omega

/-- What `build_page_ranges` gives for different pages. -/
theorem build_ok {c : Bool} {pages : List Nat} {pending : Map Data} (nd : pages.Nodup) (hlt : ∀ p ∈ pages, p < 2 ^ 64)
    (hs : (pages.map (pageBytes pending)).sum < 2 ^ 64) :
    ∃ rs, buildRanges c pages pending = some rs ∧ rs.flatMap pagesOf = sortPages pages
      ∧ (∀ r ∈ rs, r.start ≤ r.last ∧ r.bytes = ((pagesOf r).map (pageBytes pending)).sum)
      ∧ rs.Pairwise (fun r r' => r.last + 1 < r'.start) := by
  have hp := sort_perm pages
  have hst := sort_strict nd
  have hs' : ((sortPages pages).map (pageBytes pending)).sum < 2 ^ 64 := by rwa [(hp.map _).sum_nat]
  have hlt' : ∀ p ∈ sortPages pages, p < 2 ^ 64 := fun p h => hlt p (hp.mem_iff.1 h)
  unfold buildRanges
  revert hst hs' hlt'
  generalize sortPages pages = l
  intro hst hs' hlt'
  match l with
  | [] => exact ⟨[], rfl, rfl, nofun, .nil⟩
  | p :: ps =>
    simp only [List.map_cons, List.sum_cons] at hs'
    have hr : List.range' p (p + 1 - p) = [p] := by rw [show p + 1 - p = 1 by omega]; rfl
    obtain ⟨rs, h1, h2, h3, h4, _⟩ := grow_ok (c := c) (pending := pending) ps p p (pageBytes pending p) (Nat.le_refl _) hst
      (fun q hq => hlt' q (List.mem_cons_of_mem _ hq)) (by rw [hr]; simp) (by omega)
    exact ⟨rs, h1, by rw [h2, hr]; rfl, h3, h4⟩

/-! ## Gaps -/

/-- The gaps between ranges that are apart. -/
theorem gaps_ok {c : Bool} :
    ∀ rs : List PageRange, (∀ r ∈ rs, r.start ≤ r.last ∧ r.last < 2 ^ 64) → rs.Pairwise (fun r r' => r.last + 1 < r'.start) →
      (∀ r ∈ rs, ∀ r' ∈ rs, r'.last < r.start + 2 ^ 52) →
      ∃ gs, gaps c rs = some gs ∧ gs.length = rs.length - 1
        ∧ (∀ g ∈ gs, g.1 ≤ g.2.1 ∧ g.2.2 = 4096 * (g.2.1 + 1 - g.1))
        ∧ gs.Pairwise (fun g g' => g.2.1 + 1 < g'.1)
        ∧ (∀ g ∈ gs, ∃ r ∈ rs, r.last < g.1)
        ∧ (∀ p, (∃ g ∈ gs, g.1 ≤ p ∧ p ≤ g.2.1) ↔
            (¬ ∃ r ∈ rs, r.start ≤ p ∧ p ≤ r.last) ∧ (∃ r ∈ rs, r.start < p) ∧ (∃ r ∈ rs, p < r.last))
        ∧ ∀ r r', rs.head? = some r → rs.getLast? = some r' →
            4096 * (r'.last + 1 - r.start) = 4096 * (rs.map fun r => r.last + 1 - r.start).sum + (gs.map (·.2.2)).sum ∧ r.start ≤ r'.last
  | [], _, _, _ => ⟨[], rfl, rfl, nofun, .nil, nofun, by simp, nofun⟩
  | [r], h, _, _ => by
    refine ⟨[], rfl, rfl, nofun, .nil, nofun, ?_, ?_⟩
    · intro p
      simp
      omega
    · intro a b ha hb
      obtain rfl : r = a := by simpa using ha
      obtain rfl : r = b := by simpa using hb
      exact ⟨by simp, (h r (by simp)).1⟩
  | r :: r' :: rs, h, hp, hw => by
    obtain ⟨hp1, hp2⟩ := List.pairwise_cons.1 hp
    have hr := h r (by simp)
    have hr' := h r' (by simp)
    have hap := hp1 r' (by simp)
    have hwr := hw r (by simp) r' (by simp)
    obtain ⟨gs, g1, g2, g3, g4, g5, g6, g7⟩ := gaps_ok (c := c) (r' :: rs) (fun x hx => h x (List.mem_cons_of_mem _ hx)) hp2
      (fun x hx y hy => hw x (List.mem_cons_of_mem _ hx) y (List.mem_cons_of_mem _ hy))
    have hfar : ∀ x ∈ r' :: rs, r'.start ≤ x.start := by
      intro x hx
      rcases List.mem_cons.1 hx with rfl | hx
      · exact Nat.le_refl _
      · have := (List.pairwise_cons.1 hp2).1 x hx; omega
    have hfar' : ∀ g ∈ gs, r'.start < g.1 := by
      intro g hg
      obtain ⟨x, hx, hxg⟩ := g5 g hg
      have := hfar x hx
      have := (h x (List.mem_cons_of_mem _ hx)).1
      omega
    refine ⟨(r.last + 1, r'.start - 1, 4096 * (r'.start - (r.last + 1))) :: gs, ?_, ?_, ?_, ?_, ?_, ?_, ?_⟩
    · rw [gaps, add_ok (by omega)]
      show (if r'.start > r.last + 1 then _ else _) = _
      rw [if_pos (by omega)]
      simp only [Option.bind_eq_bind, Option.bind_some]
      rw [sub_ok (by omega), Option.bind_some, sub_ok (by omega), Option.bind_some, add_ok (by omega), Option.bind_some, mul_ok (by omega), g1]
      show some ((_, _, _) :: gs) = _
      congr 4
      omega
    · simp only [List.length_cons] at g2 ⊢; omega
    · intro g hg
      rcases List.mem_cons.1 hg with rfl | hg
      · refine ⟨?_, ?_⟩
        · show r.last + 1 ≤ r'.start - 1; omega
        · show 4096 * (r'.start - (r.last + 1)) = 4096 * (r'.start - 1 + 1 - (r.last + 1))
          congr 2; omega
      · exact g3 g hg
    · refine List.pairwise_cons.2 ⟨fun g hg => ?_, g4⟩
      have := hfar' g hg
      show r'.start - 1 + 1 < g.1
      omega
    · intro g hg
      rcases List.mem_cons.1 hg with rfl | hg
      · exact ⟨r, by simp, by show r.last < r.last + 1; omega⟩
      · obtain ⟨x, hx, hxg⟩ := g5 g hg
        exact ⟨x, List.mem_cons_of_mem _ hx, hxg⟩
    · intro p
      have hg6 := g6 p
      constructor
      · rintro ⟨g, hg, hgp⟩
        rcases List.mem_cons.1 hg with rfl | hg
        · have a1 : r.last + 1 ≤ p := hgp.1
          have a2 : p ≤ r'.start - 1 := hgp.2
          refine ⟨?_, ⟨r, by simp, by omega⟩, ⟨r', by simp, by omega⟩⟩
          rintro ⟨x, hx, hxp⟩
          rcases List.mem_cons.1 hx with rfl | hx
          · omega
          · have := hfar x hx; omega
        · obtain ⟨k1, ⟨x, hx, k2⟩, ⟨y, hy, k3⟩⟩ := hg6.1 ⟨g, hg, hgp⟩
          have := hfar' g hg
          refine ⟨?_, ⟨x, List.mem_cons_of_mem _ hx, k2⟩, ⟨y, List.mem_cons_of_mem _ hy, k3⟩⟩
          rintro ⟨z, hz, hzp⟩
          rcases List.mem_cons.1 hz with rfl | hz
          · omega
          · exact k1 ⟨z, hz, hzp⟩
      · rintro ⟨k1, ⟨x, hx, k2⟩, ⟨y, hy, k3⟩⟩
        by_cases hpr : p < r'.start
        · refine ⟨_, List.mem_cons_self .., ?_, ?_⟩
          · show r.last + 1 ≤ p
            have hx0 : r.start < p := by
              rcases List.mem_cons.1 hx with rfl | hx
              · exact k2
              · have := hfar x hx; omega
            have : ¬ p ≤ r.last := fun hle => k1 ⟨r, by simp, by omega, hle⟩
            omega
          · show p ≤ r'.start - 1; omega
        · have hne : p ≠ r'.start := fun he => k1 ⟨r', by simp, by omega, by omega⟩
          obtain ⟨g, hg, hgp⟩ := hg6.2 ⟨fun ⟨z, hz, hzp⟩ => k1 ⟨z, List.mem_cons_of_mem _ hz, hzp⟩, ⟨r', by simp, by omega⟩, by
            rcases List.mem_cons.1 hy with rfl | hy
            · omega
            · exact ⟨y, hy, k3⟩⟩
          exact ⟨g, List.mem_cons_of_mem _ hg, hgp⟩
    · intro a b ha hb
      obtain rfl : r = a := by simpa using ha
      rw [List.getLast?_cons_cons] at hb
      obtain ⟨e1, e2⟩ := g7 r' b rfl hb
      refine ⟨?_, by omega⟩
      simp only [List.map_cons, List.sum_cons] at e1 ⊢
      omega

/-- Rounding up to a power of two. -/
theorem mask_eq {x k : Nat} (hx : x < 2 ^ 64) (hk : k ≤ 64) : x &&& (2 ^ 64 - (2 ^ k - 1 + 1)) = 2 ^ k * (x / 2 ^ k) := by
  apply Nat.eq_of_testBit_eq
  intro i
  have hpos : 0 < 2 ^ k := Nat.two_pow_pos k
  have hle : 2 ^ k ≤ 2 ^ 64 := Nat.pow_le_pow_right (by decide) hk
  rw [Nat.testBit_and, Nat.testBit_two_pow_sub_succ (by omega), Nat.testBit_two_pow_sub_one, Nat.testBit_two_pow_mul, Nat.testBit_div_two_pow]
  by_cases hi : k ≤ i
  · have : ¬ i < k := by omega
    simp only [hi, this, decide_true, decide_false, Bool.not_false, Bool.and_true, Bool.true_and]
    rw [show i - k + k = i by omega]
    by_cases h64 : i < 64
    · simp [h64]
    · have : x.testBit i = false := Nat.testBit_lt_two_pow (Nat.lt_of_lt_of_le hx (Nat.pow_le_pow_right (by decide) (by omega)))
      simp [this]
  · have : i < k := by omega
    simp [hi, this]

theorem roundUp_ok {c : Bool} {size k : Nat} (hk : k < 64) (h0 : size + 2 ^ k < 2 ^ 64) :
    roundUp c size (2 ^ k) = some (2 ^ k * ((size + (2 ^ k - 1)) / 2 ^ k)) := by
  have hpos : 0 < 2 ^ k := Nat.two_pow_pos k
  rw [roundUp, add_ok h0]
  show (sub c (size + 2 ^ k) 1 >>= _) = _
  rw [sub_ok (by omega)]
  show (sub c (2 ^ k) 1 >>= _) = _
  rw [sub_ok (by omega)]
  show some ((size + 2 ^ k - 1) &&& (2 ^ 64 - (2 ^ k - 1 + 1))) = _
  rw [mask_eq (by omega) (by omega), show size + 2 ^ k - 1 = size + (2 ^ k - 1) by omega]

end Verif.Coalesce.Size

import Verif.Coalesce.SizeLemmas

/-!
# C149: the size analysis of the write coalescer

The specification speaks of page numbers and bytes only: which pages are listed, which are missing between the least and the greatest of them, and
how many bytes are pending for each.
-/

namespace Verif.Coalesce.Size

open Verif.Io (Data)

/-! ## Specification -/

/-- The ranges are the maximal runs of consecutive page numbers in `pages`, in ascending order. -/
structure Runs (pages : List Nat) (rs : List PageRange) : Prop where
  /-- No range is empty. -/
  ordered : ∀ r ∈ rs, r.start ≤ r.last
  /-- Between two ranges at least one page is missing. -/
  apart : rs.Pairwise fun r r' => r.last + 1 < r'.start
  /-- The ranges have exactly the listed pages. -/
  same : ∀ p, (∃ r ∈ rs, r.start ≤ p ∧ p ≤ r.last) ↔ p ∈ pages

/-- The bytes pending for a page. -/
def pendingBytes (pending : Map Data) (p : Nat) : Nat := ((get pending p).map List.length).getD 0

/-- The bytes of a page in a range: those pending, or a whole page if nothing is pending. -/
def assumedBytes (pending : Map Data) (p : Nat) : Nat :=
  match get pending p with
  | some d => d.length
  | none => 4096

/-- The listed pages that begin a run. -/
def starts (pages : List Nat) : List Nat := pages.filter fun p => decide (p = 0 ∨ p - 1 ∉ pages)

/-- What the analysis says of different pages between `lo` and `hi`. -/
structure Expected (pages : List Nat) (new : Data) (pending : Map Data) (lo hi : Nat) (i : Info) : Prop where
  /-- The new bytes and the pending ones. -/
  data : i.data = new.length + (pages.map (pendingBytes pending)).sum
  /-- The number of runs. -/
  ranges : i.ranges = (starts pages).length
  /-- 32 bytes for each run, 8 for each page, 16 for each gap. -/
  metadata : i.metadata = 32 * (starts pages).length + 8 * pages.length + 16 * ((starts pages).length - 1)
  /-- 64 bytes for each run, and what is missing to whole pages of data. -/
  padding : ∃ x, i.padding = 64 * (starts pages).length + x ∧ x < 4096 ∧ 4096 ∣ i.data + x
  /-- Compression never counts. -/
  savings : i.savings = 0
  /-- The whole span if the missing pages are at most half of the bytes of the listed ones, and those bytes otherwise. -/
  total : i.total = i.metadata + i.padding +
    (if 2 * (4096 * (hi + 1 - lo - pages.length)) ≤ (pages.map (assumedBytes pending)).sum ∨ (pages.map (assumedBytes pending)).sum = 0
      then 4096 * (hi + 1 - lo) else (pages.map (assumedBytes pending)).sum)
  /-- Less than a quarter more than the data, and at most a fifth of missing pages. -/
  efficient : i.efficient = true ↔
    0 < i.data ∧ 4 * i.total < 5 * i.data ∧ 5 * (4096 * (hi + 1 - lo - pages.length)) ≤ i.data

/-! ## Ranges -/

theorem assumed_eq : assumedBytes = pageBytes := by
  funext m p
  unfold assumedBytes pageBytes
  cases get m p <;> rfl

theorem flat_mem {rs : List PageRange} {l : List Nat} (h : rs.flatMap pagesOf = l) (p : Nat) :
    (∃ r ∈ rs, r.start ≤ p ∧ p ≤ r.last) ↔ p ∈ l := by
  rw [← h, List.mem_flatMap]
  exact ⟨fun ⟨r, hr, hp⟩ => ⟨r, hr, mem_pagesOf.2 hp⟩, fun ⟨r, hr, hp⟩ => ⟨r, hr, mem_pagesOf.1 hp⟩⟩

/-- The ranges begin with the pages that begin a run. -/
theorem runs_count {pages : List Nat} {rs : List PageRange} (nd : pages.Nodup) (h : Runs pages rs) : rs.length = (starts pages).length := by
  rw [← List.length_map (f := PageRange.start)]
  apply List.Perm.length_eq
  have hpw : (rs.map PageRange.start).Pairwise (· < ·) := by
    rw [List.pairwise_map]
    have h2 := h.apart
    refine List.Pairwise.imp_of_mem (fun {a b} ha hb hab => ?_) h2
    have := h.ordered a ha
    omega
  unfold starts
  rw [List.perm_ext_iff_of_nodup (hpw.imp fun hab => by omega) (nd.filter _)]
  intro p
  rw [List.mem_filter, decide_eq_true_eq, List.mem_map]
  constructor
  · rintro ⟨r, hr, rfl⟩
    have ho := h.ordered r hr
    refine ⟨(h.same _).1 ⟨r, hr, Nat.le_refl _, ho⟩, ?_⟩
    by_cases h0 : r.start = 0
    · exact .inl h0
    · refine .inr fun hm => ?_
      obtain ⟨r', hr', h1, h2⟩ := (h.same _).2 hm
      by_cases he : r' = r
      · subst he; omega
      · have hns : ∀ (l : List PageRange), l.Pairwise (fun r r' => r.last + 1 < r'.start) → r ∈ l → r' ∈ l →
            r.last + 1 < r'.start ∨ r'.last + 1 < r.start := by
          intro l hl
          induction l with
          | nil => intro h; cases h
          | cons x l ih =>
            intro ha hb
            obtain ⟨hl1, hl2⟩ := List.pairwise_cons.1 hl
            rcases List.mem_cons.1 ha with ha' | ha' <;> rcases List.mem_cons.1 hb with hb' | hb'
            · exact absurd (hb'.trans ha'.symm) he
            · exact .inl (ha' ▸ hl1 _ hb')
            · exact .inr (hb' ▸ hl1 _ ha')
            · exact ih hl2 ha' hb'
        rcases hns rs h.apart hr hr' with h3 | h3 <;> omega
  · rintro ⟨hm, hs⟩
    obtain ⟨r, hr, h1, h2⟩ := (h.same p).2 hm
    refine ⟨r, hr, ?_⟩
    rcases hs with h0 | hs
    · omega
    · by_cases heq : r.start = p
      · exact heq
      · exact absurd ((h.same (p - 1)).1 ⟨r, hr, by omega, by omega⟩) hs

/-- **C149** (ranges). The ranges built from different pages are their maximal runs of consecutive numbers, in ascending order; each has the bytes
of its pages, where a page without pending data counts as a whole page; there are as many as there are pages whose predecessor is not listed. -/
theorem C149_ranges_partial (c : Bool) (pages : List Nat) (pending : Map Data) (nd : pages.Nodup) (hlt : ∀ p ∈ pages, p < 2 ^ 64)
    (hs : (pages.map (assumedBytes pending)).sum < 2 ^ 64) :
    ∃ rs, buildRanges c pages pending = some rs ∧ Runs pages rs ∧ rs.length = (starts pages).length
      ∧ (∀ r ∈ rs, r.bytes = ((List.range' r.start (r.last + 1 - r.start)).map (assumedBytes pending)).sum)
      ∧ validate rs = true := by
  rw [assumed_eq] at hs ⊢
  obtain ⟨rs, h1, h2, h3, h4⟩ := build_ok (c := c) nd hlt hs
  have hr : Runs pages rs := ⟨fun r hr => (h3 r hr).1, h4, fun p => (flat_mem h2 p).trans (sort_perm pages).mem_iff⟩
  refine ⟨rs, h1, hr, runs_count nd hr, fun r hr => (h3 r hr).2, ?_⟩
  clear h1 h2 h3 hr
  induction rs with
  | nil => rfl
  | cons r rs ih =>
    cases rs with
    | nil => rfl
    | cons r' rs =>
      have := (List.pairwise_cons.1 h4).1 r' (by simp)
      rw [validate, if_neg (by omega)]
      exact ih (List.pairwise_cons.1 h4).2

/-- The runs are determined by the pages: two lists of ranges that are the runs of the same pages have the same ends. -/
theorem runs_head {pages : List Nat} {r r' : PageRange} {rs rs' : List PageRange} (h : Runs pages (r :: rs)) (h' : Runs pages (r' :: rs')) :
    r.start = r'.start ∧ r.last = r'.last := by
  have le : ∀ {a b : PageRange} {as bs : List PageRange}, Runs pages (a :: as) → Runs pages (b :: bs) → b.start ≤ a.start ∧
      (a.start = b.start → a.last ≤ b.last) := by
    intro a b as bs ha hb
    have hord := ha.ordered a (by simp)
    have hbo := hb.ordered b (by simp)
    have hfar : ∀ x ∈ bs, b.last + 1 < x.start := (List.pairwise_cons.1 hb.apart).1
    constructor
    · obtain ⟨x, hx, hx1, hx2⟩ := (hb.same a.start).2 ((ha.same _).1 ⟨a, by simp, Nat.le_refl _, hord⟩)
      rcases List.mem_cons.1 hx with rfl | hx
      · exact hx1
      · have := hfar x hx; omega
    · intro heq
      by_cases hle : a.last ≤ b.last
      · exact hle
      · obtain ⟨x, hx, hx1, hx2⟩ := (hb.same (b.last + 1)).2 ((ha.same _).1 ⟨a, by simp, by omega, by omega⟩)
        rcases List.mem_cons.1 hx with rfl | hx
        · omega
        · have := hfar x hx; omega
  have h1 := le h h'
  have h2 := le h' h
  have h3 : r.start = r'.start := by omega
  exact ⟨h3, Nat.le_antisymm (h1.2 h3) (h2.2 h3.symm)⟩

/-- **C149** (the specification has one answer). Two lists of ranges that are the runs of the same pages are the same but for their bytes. -/
theorem C149_runs_unique : ∀ (pages : List Nat) (rs rs' : List PageRange), Runs pages rs → Runs pages rs' →
    rs.map (fun r => (r.start, r.last)) = rs'.map (fun r => (r.start, r.last)) := by
  intro pages rs
  induction rs generalizing pages with
  | nil =>
    intro rs' h h'
    cases rs' with
    | nil => rfl
    | cons r rs' => exact absurd ((h.same r.start).2 ((h'.same _).1 ⟨r, by simp, Nat.le_refl _, h'.ordered r (by simp)⟩)) (by simp)
  | cons r rs ih =>
    intro rs' h h'
    cases rs' with
    | nil => exact absurd ((h'.same r.start).2 ((h.same _).1 ⟨r, by simp, Nat.le_refl _, h.ordered r (by simp)⟩)) (by simp)
    | cons r' rs' =>
      obtain ⟨e1, e2⟩ := runs_head h h'
      have tl : ∀ {a : PageRange} {as : List PageRange}, Runs pages (a :: as) → a.last = r.last →
          Runs (pages.filter fun p => decide (r.last < p)) as := by
        intro a as ha hl
        refine ⟨fun x hx => ha.ordered x (List.mem_cons_of_mem _ hx), (List.pairwise_cons.1 ha.apart).2, fun p => ?_⟩
        rw [List.mem_filter, decide_eq_true_eq, ← ha.same p]
        constructor
        · rintro ⟨x, hx, hp⟩
          have := (List.pairwise_cons.1 ha.apart).1 x hx
          exact ⟨⟨x, List.mem_cons_of_mem _ hx, hp⟩, by omega⟩
        · rintro ⟨⟨x, hx, hp⟩, hlt⟩
          rcases List.mem_cons.1 hx with rfl | hx
          · omega
          · exact ⟨x, hx, hp⟩
      rw [List.map_cons, List.map_cons, ih _ rs' (tl h rfl) (tl h' e2.symm), e1, e2]

/-- **C149** (gaps). The gaps between the runs of pages are exactly the pages between the least and the greatest that are not listed; there is one
gap less than runs, each has 4096 bytes for each of its pages, and two gaps do not touch. -/
theorem C149_gaps_partial (c : Bool) (pages : List Nat) (rs : List PageRange) (h : Runs pages rs)
    (hlt : ∀ p ∈ pages, p < 2 ^ 64) (hw : ∀ p ∈ pages, ∀ q ∈ pages, q < p + 2 ^ 52) :
    ∃ gs, gaps c rs = some gs ∧ gs.length = rs.length - 1
      ∧ (∀ p, (∃ g ∈ gs, g.1 ≤ p ∧ p ≤ g.2.1) ↔ p ∉ pages ∧ (∃ q ∈ pages, q < p) ∧ ∃ q ∈ pages, p < q)
      ∧ (∀ g ∈ gs, g.1 ≤ g.2.1 ∧ g.2.2 = 4096 * (g.2.1 + 1 - g.1)) ∧ gs.Pairwise (fun g g' => g.2.1 + 1 < g'.1) := by
  have hin : ∀ r ∈ rs, r.start ∈ pages ∧ r.last ∈ pages := fun r hr =>
    ⟨(h.same _).1 ⟨r, hr, Nat.le_refl _, h.ordered r hr⟩, (h.same _).1 ⟨r, hr, h.ordered r hr, Nat.le_refl _⟩⟩
  obtain ⟨gs, g1, g2, g3, g4, _, g6, _⟩ := gaps_ok (c := c) rs (fun r hr => ⟨h.ordered r hr, hlt _ (hin r hr).2⟩) h.apart
    (fun r hr r' hr' => hw _ (hin r hr).1 _ (hin r' hr').2)
  refine ⟨gs, g1, g2, fun p => ?_, g3, g4⟩
  rw [g6 p, h.same p]
  refine and_congr_right fun hnp => ⟨fun ⟨⟨r, hr, h1⟩, ⟨r', hr', h2⟩⟩ => ⟨⟨_, (hin r hr).1, h1⟩, ⟨_, (hin r' hr').2, h2⟩⟩, ?_⟩
  rintro ⟨⟨q, hq, h1⟩, ⟨q', hq', h2⟩⟩
  obtain ⟨r, hr, hr1, hr2⟩ := (h.same q).2 hq
  obtain ⟨r', hr', hr1', hr2'⟩ := (h.same q').2 hq'
  exact ⟨⟨r, hr, by omega⟩, ⟨r', hr', by omega⟩⟩

/-- **C149** (validation). Ranges are accepted exactly if each begins after the end of the one before it. -/
theorem C149_validate (rs : List PageRange) :
    validate rs = true ↔ ∀ i r r', rs[i]? = some r → rs[i + 1]? = some r' → r.last < r'.start := by
  induction rs with
  | nil => exact ⟨fun _ => nofun, fun _ => rfl⟩
  | cons r rs ih =>
    cases rs with
    | nil => exact ⟨fun _ i r r' _ h => by simp at h, fun _ => rfl⟩
    | cons r' rs =>
      rw [validate]
      by_cases hle : r'.start ≤ r.last
      · rw [if_pos hle]
        refine ⟨nofun, fun h => ?_⟩
        have := h 0 r r' rfl rfl
        omega
      · rw [if_neg hle, ih]
        constructor
        · intro h i a b ha hb
          cases i with
          | zero =>
            obtain rfl : r = a := by simpa using ha
            obtain rfl : r' = b := by simpa using hb
            omega
          | succ i => exact h i a b (by simpa using ha) (by simpa using hb)
        · intro h i a b ha hb
          exact h (i + 1) a b (by simpa using ha) (by simpa using hb)

/-! ## The analysis -/

theorem data_ok {c : Bool} {pending : Map Data} : ∀ (pages : List Nat) (n : Nat), n + (pages.map (pendingBytes pending)).sum < 2 ^ 64 →
    pages.foldlM (addPending c pending) n = some (n + (pages.map (pendingBytes pending)).sum)
  | [], n, _ => by simp
  | p :: ps, n, h => by
    simp only [List.map_cons, List.sum_cons] at h ⊢
    rw [List.foldlM_cons, addPending]
    unfold pendingBytes at h ⊢
    cases hg : get pending p with
    | none =>
      rw [hg] at h
      simp only [Option.map_none, Option.getD_none] at h ⊢
      show ps.foldlM _ n = _
      have := data_ok (c := c) (pending := pending) ps n (by unfold pendingBytes; omega)
      unfold pendingBytes at this
      rw [this, Nat.zero_add]
    | some d =>
      rw [hg] at h
      simp only [Option.map_some, Option.getD_some] at h ⊢
      rw [add_ok (by omega)]
      show ps.foldlM _ (n + d.length) = _
      have := data_ok (c := c) (pending := pending) ps (n + d.length) (by unfold pendingBytes; omega)
      unfold pendingBytes at this
      rw [this, Nat.add_assoc]

theorem meta_ok {c : Bool} : ∀ rs : List PageRange, (∀ r ∈ rs, r.start ≤ r.last ∧ r.last < r.start + 2 ^ 52) →
    rs.mapM (rangeMeta c) = some (rs.map fun r => 8 * (r.last + 1 - r.start))
  | [], _ => rfl
  | r :: rs, h => by
    have := h r (by simp)
    rw [List.mapM_cons, rangeMeta, sub_ok this.1]
    show ((add c (r.last - r.start) 1 >>= _) >>= _) = _
    rw [add_ok (by omega)]
    show (mul c (r.last - r.start + 1) 8 >>= _) = _
    rw [mul_ok (by omega), meta_ok rs fun x hx => h x (List.mem_cons_of_mem _ hx)]
    show some ((r.last - r.start + 1) * 8 :: _) = some (8 * (r.last + 1 - r.start) :: _)
    congr 2
    omega

theorem sum_map_mul (k : Nat) {α : Type} (f : α → Nat) : ∀ l : List α, (l.map fun a => k * f a).sum = k * (l.map f).sum
  | [] => rfl
  | a :: l => by simp only [List.map_cons, List.sum_cons, sum_map_mul k f l, Nat.mul_add]

theorem sum_flat (f : Nat → Nat) : ∀ rs : List PageRange,
    ((rs.flatMap pagesOf).map f).sum = (rs.map fun r => ((pagesOf r).map f).sum).sum
  | [] => rfl
  | r :: rs => by
    rw [List.flatMap_cons, List.map_append, List.sum_append, sum_flat f rs, List.map_cons, List.sum_cons]

theorem len_flat : ∀ rs : List PageRange, (rs.flatMap pagesOf).length = (rs.map fun r => r.last + 1 - r.start).sum
  | [] => rfl
  | r :: rs => by
    rw [List.flatMap_cons, List.length_append, len_flat rs, List.map_cons, List.sum_cons, pagesOf, List.length_range']

theorem span_bounds {pages : List Nat} {rs : List PageRange} {lo hi : Nat} (h : Runs pages rs) (hlo : lo ∈ pages ∧ ∀ p ∈ pages, lo ≤ p)
    (hhi : hi ∈ pages ∧ ∀ p ∈ pages, p ≤ hi) :
    ∃ r r', rs.head? = some r ∧ rs.getLast? = some r' ∧ r.start = lo ∧ r'.last = hi := by
  obtain ⟨x, hx, hx1, hx2⟩ := (h.same lo).2 hlo.1
  obtain ⟨y, hy, hy1, hy2⟩ := (h.same hi).2 hhi.1
  have hin : ∀ r ∈ rs, r.start ∈ pages ∧ r.last ∈ pages := fun r hr =>
    ⟨(h.same _).1 ⟨r, hr, Nat.le_refl _, h.ordered r hr⟩, (h.same _).1 ⟨r, hr, h.ordered r hr, Nat.le_refl _⟩⟩
  have hne : rs ≠ [] := List.ne_nil_of_mem hx
  obtain ⟨r, rs', rfl⟩ := List.exists_cons_of_ne_nil hne
  refine ⟨r, (r :: rs').getLast hne, rfl, List.getLast?_eq_some_getLast hne, ?_, ?_⟩
  · have h1 := hlo.2 _ (hin r (by simp)).1
    rcases List.mem_cons.1 hx with rfl | hx
    · omega
    · have := (List.pairwise_cons.1 h.apart).1 x hx
      have := h.ordered r (by simp)
      omega
  · have hl := hhi.2 _ (hin _ (List.getLast_mem hne)).2
    have key : ∀ (l : List PageRange) (hl : l ≠ []), l.Pairwise (fun r r' => r.last + 1 < r'.start) → (∀ r ∈ l, r.start ≤ r.last) →
        ∀ z ∈ l, z.last ≤ (l.getLast hl).last := by
      intro l
      induction l with
      | nil => intro h; exact absurd rfl h
      | cons a l ih =>
        intro hl hp ho z hz
        cases l with
        | nil =>
          obtain rfl := List.mem_singleton.1 hz
          exact Nat.le_refl _
        | cons b l =>
          rw [List.getLast_cons (by simp)]
          have hb := ih (by simp) (List.pairwise_cons.1 hp).2 (fun r hr => ho r (List.mem_cons_of_mem _ hr))
          rcases List.mem_cons.1 hz with rfl | hz
          · have := hb b (by simp)
            have := ho b (by simp)
            have := (List.pairwise_cons.1 hp).1 b (by simp)
            omega
          · exact hb z hz
    have := key _ hne h.apart h.ordered y hy
    omega

/-- **C149** (the analysis). For different pages that span less than 2^39 pages, and less than 2^52 bytes of data, the analysis does not panic, is
the same with and without overflow checks, and says what the specification expects. -/
theorem C149_analysis_partial (c : Bool) (est : Nat → Nat → Nat) (pages : List Nat) (new : Data) (pending : Map Data) (lo hi : Nat)
    (nd : pages.Nodup) (hlo : lo ∈ pages ∧ ∀ p ∈ pages, lo ≤ p) (hhi : hi ∈ pages ∧ ∀ p ∈ pages, p ≤ hi) (h64 : hi < 2 ^ 64)
    (hw : hi < lo + 2 ^ 39) (hb : (pages.map (assumedBytes pending)).sum < 2 ^ 52)
    (hd : new.length + (pages.map (pendingBytes pending)).sum < 2 ^ 52) :
    ∃ i, analyze c est pages new pending = some i ∧ coalescedSize c est pages new pending = some i.total
      ∧ Expected pages new pending lo hi i := by
  rw [assumed_eq] at hb
  obtain ⟨rs, h1, h2, h3, h4⟩ := build_ok (c := c) (pending := pending) nd (fun p hp => Nat.lt_of_le_of_lt (hhi.2 p hp) h64) (by omega)
  have hr : Runs pages rs := ⟨fun r hr => (h3 r hr).1, h4, fun p => (flat_mem h2 p).trans (sort_perm pages).mem_iff⟩
  have hin : ∀ r ∈ rs, r.start ∈ pages ∧ r.last ∈ pages := fun r hr' =>
    ⟨(hr.same _).1 ⟨r, hr', Nat.le_refl _, hr.ordered r hr'⟩, (hr.same _).1 ⟨r, hr', hr.ordered r hr', Nat.le_refl _⟩⟩
  have hbd : ∀ r ∈ rs, lo ≤ r.start ∧ r.last ≤ hi := fun r hr' => ⟨hlo.2 _ (hin r hr').1, hhi.2 _ (hin r hr').2⟩
  obtain ⟨gs, g1, g2, g3, -, -, -, g7⟩ := gaps_ok (c := c) rs (fun r hr' => ⟨hr.ordered r hr', by have := hbd r hr'; omega⟩) hr.apart
    (fun r hr1 r' hr2 => by have := hbd r hr1; have := hbd r' hr2; omega)
  obtain ⟨f, l, hf, hl, hfs, hll⟩ := span_bounds hr hlo hhi
  obtain ⟨hgap, hfl⟩ := g7 f l hf hl
  have hlen : (rs.map fun r => r.last + 1 - r.start).sum = pages.length := by
    rw [← len_flat, h2]; exact (sort_perm pages).length_eq
  have hbytes : (rs.map (·.bytes)).sum = (pages.map (pageBytes pending)).sum := by
    rw [← ((sort_perm pages).map _).sum_nat, ← h2, sum_flat]
    congr 1
    exact List.map_congr_left fun r hr' => (h3 r hr').2
  rw [hlen, hfs, hll] at hgap
  have hR := runs_count nd hr
  have hRN : rs.length ≤ pages.length := by
    rw [hR]; exact List.length_filter_le _ _
  generalize hB : (pages.map (pageBytes pending)).sum = B at hb hbytes
  generalize hG : (gs.map (·.2.2)).sum = G at hgap
  have hGe : G = 4096 * (hi + 1 - lo - pages.length) := by omega
  have hne : pages.isEmpty = false := by
    cases pages with
    | nil => exact absurd hlo.1 (by simp)
    | cons a l => rfl
  have hRpos : 0 < rs.length := by
    cases rs with
    | nil => simp at hf
    | cons a l => simp
  -- the span
  have hspan : span c rs gs = some (some (if 2 * G ≤ B ∨ B = 0 then 4096 * (hi + 1 - lo) else B)) := by
    unfold span
    rw [hf, hl]
    show (sum c (rs.map (·.bytes)) >>= _) = _
    rw [sum_ok (by omega), hbytes]
    show (sum c (gs.map (·.2.2)) >>= _) = _
    rw [sum_ok (by omega), hG]
    show (if B > 0 ∧ 2 * G > B then _ else _) = _
    by_cases hc : B > 0 ∧ 2 * G > B
    · rw [if_pos hc, if_neg (by omega)]
    · rw [if_neg hc, if_pos (by omega), sub_ok (by omega)]
      show (add c (l.last - f.start) 1 >>= _) = _
      rw [add_ok (by omega)]
      show (mul c (l.last - f.start + 1) 4096 >>= _) = _
      rw [mul_ok (by omega)]
      show some (some _) = _
      congr 2
      omega
  have hmeta : metadata c rs gs = some (32 * rs.length + 8 * pages.length + 16 * (rs.length - 1)) := by
    unfold metadata
    rw [mul_ok (by omega)]
    show (rs.mapM (rangeMeta c) >>= _) = _
    rw [meta_ok rs fun r hr' => ⟨hr.ordered r hr', by have := hbd r hr'; omega⟩]
    show (sum c _ >>= _) = _
    rw [sum_ok (by rw [sum_map_mul, hlen]; omega), sum_map_mul, hlen]
    show (mul c gs.length 16 >>= _) = _
    rw [mul_ok (by omega)]
    show (add c _ _ >>= _) = _
    rw [add_ok (by omega)]
    show add c _ _ = _
    rw [add_ok (by omega)]
    congr 1
    omega
  generalize hD : new.length + (pages.map (pendingBytes pending)).sum = D at hd
  have halign : alignment c D rs = some (64 * rs.length + (if D % 4096 ≠ 0 then 4096 - D % 4096 else 0)) := by
    unfold alignment
    rw [mul_ok (by omega)]
    show add c _ _ = _
    rw [add_ok (by split <;> omega)]
    congr 1
    omega
  have hsav : savings est D rs 75 = 0 := by
    unfold savings
    split
    · rfl
    · exact if_neg (by omega)
  generalize hT : (if 2 * G ≤ B ∨ B = 0 then 4096 * (hi + 1 - lo) else B) = T at hspan
  have hTb : T < 2 ^ 52 := by
    rw [← hT]
    split <;> omega
  generalize hM : 32 * rs.length + 8 * pages.length + 16 * (rs.length - 1) = M at hmeta
  have hMb : M < 2 ^ 50 := by omega
  generalize hA : 64 * rs.length + (if D % 4096 ≠ 0 then 4096 - D % 4096 else 0) = A at halign
  have hAb : A < 2 ^ 50 := by rw [← hA]; split <;> omega
  have heff : efficient c D (T + M + A) gs 20 = some (decide (0 < D ∧ 4 * (T + M + A) < 5 * D ∧ 5 * G ≤ D)) := by
    unfold efficient
    by_cases h0 : D = 0
    · rw [if_pos h0]
      congr 1
      exact (decide_eq_false (by omega)).symm
    · rw [if_neg h0]
      show (sum c (gs.map (·.2.2)) >>= _) = _
      rw [sum_ok (by omega), hG]
      show some (_ && _) = _
      congr 1
      rw [← Bool.decide_and]
      apply decide_eq_decide.2
      split <;> omega
  have hres : analyze c est pages new pending = some ⟨T + M + A, D, M, rs.length, 0, A, decide (0 < D ∧ 4 * (T + M + A) < 5 * D ∧ 5 * G ≤ D)⟩ := by
    unfold analyze
    rw [hne, h1]
    show (dataSize c pages new pending >>= _) = _
    unfold dataSize
    rw [data_ok pages new.length (by omega), hD]
    show (gaps c rs >>= _) = _
    rw [g1]
    show (span c rs gs >>= _) = _
    rw [hspan]
    show (metadata c rs gs >>= _) = _
    rw [hmeta]
    show (alignment c D rs >>= _) = _
    rw [halign]
    show (add c T M >>= _) = _
    rw [add_ok (by omega)]
    show (add c (T + M) A >>= _) = _
    rw [add_ok (by omega)]
    show (sub c (T + M + A) (savings est D rs 75) >>= _) = _
    rw [hsav, sub_ok (by omega), Nat.sub_zero]
    show (efficient c D (T + M + A) gs 20 >>= _) = _
    rw [heff]
    rfl
  refine ⟨_, hres, by rw [coalescedSize, hres]; rfl, hD.symm, hR, ?_, ?_, rfl, ?_, ?_⟩
  · rw [← hR]; exact hM.symm
  · refine ⟨if D % 4096 ≠ 0 then 4096 - D % 4096 else 0, by rw [← hR]; exact hA.symm, by split <;> omega, ?_⟩
    show 4096 ∣ D + _
    split <;> omega
  · show T + M + A = M + A + _
    rw [assumed_eq, hB, ← hGe, hT]
    omega
  · show decide _ = true ↔ _
    rw [decide_eq_true_eq, ← hGe]

/-- **C149** (no pages). Without other pages the total is the least multiple of 64 that holds the new data, the padding is the difference, and
writing is efficient. -/
theorem C149_alone (c : Bool) (est : Nat → Nat → Nat) (new : Data) (pending : Map Data) (h : new.length + 64 < 2 ^ 64) :
    ∃ i, analyze c est [] new pending = some i ∧ 64 ∣ i.total ∧ new.length ≤ i.total ∧ i.total < new.length + 64
      ∧ i.data = new.length ∧ i.data + i.padding = i.total ∧ i.metadata = 0 ∧ i.ranges = 1 ∧ i.savings = 0 ∧ i.efficient = true := by
  have hr := roundUp_ok (c := c) (size := new.length) (k := 6) (by decide) h
  have hp : padding c new.length 64 = some (64 * ((new.length + 63) / 64) - new.length) := by
    unfold padding
    rw [show (64 : Nat) = 2 ^ 6 from rfl, hr]
    show sub c (64 * ((new.length + 63) / 64)) new.length = _
    exact sub_ok (by omega)
  refine ⟨⟨64 * ((new.length + 63) / 64), new.length, 0, 1, 0, 64 * ((new.length + 63) / 64) - new.length, true⟩, ?_, ?_, ?_, ?_, rfl, ?_, rfl,
    rfl, rfl, rfl⟩
  · show (alignedSize c new.length >>= _) = _
    rw [show alignedSize c new.length = some (64 * ((new.length + 63) / 64)) from hr]
    show (padding c new.length 64 >>= _) = _
    rw [hp]
    rfl
  all_goals simp only [] <;> omega

/-- **C149** (padding). For every power of two the padding is what is missing to the next multiple. -/
theorem C149_padding (c : Bool) (size k : Nat) (hk : k < 64) (h : size + 2 ^ k < 2 ^ 64) :
    ∃ x, padding c size (2 ^ k) = some x ∧ 2 ^ k ∣ size + x ∧ x < 2 ^ k := by
  have hr := roundUp_ok (c := c) (size := size) (k := k) hk h
  have hpos : 0 < 2 ^ k := Nat.two_pow_pos k
  generalize hn : 2 ^ k = n at *
  have h1 : n * ((size + (n - 1)) / n) ≤ size + (n - 1) := Nat.mul_div_le _ _
  have h2 : size + (n - 1) < n * ((size + (n - 1)) / n) + n := by
    have := Nat.div_add_mod (size + (n - 1)) n
    have := Nat.mod_lt (size + (n - 1)) hpos
    omega
  refine ⟨n * ((size + (n - 1)) / n) - size, ?_, ?_, by omega⟩
  · rw [padding, hr]
    exact sub_ok (by omega)
  · rw [show size + (n * ((size + (n - 1)) / n) - size) = n * ((size + (n - 1)) / n) by omega]
    exact Nat.dvd_mul_right _ _

/-! ## Where the code does otherwise -/

/-- **C149** fails for a page listed twice: it becomes two ranges, which the code's own validation refuses. -/
theorem C149_twice_fails :
    buildRanges true [3, 4, 3] [] = some [⟨3, 3, 4096⟩, ⟨3, 4, 8192⟩] ∧ validate [⟨3, 3, 4096⟩, ⟨3, 4, 8192⟩] = false := by decide +kernel

theorem analyze_none {c : Bool} {est : Nat → Nat → Nat} {pages : List Nat} {new : Data} {pending : Map Data} {rs : List PageRange} {d : Nat}
    (h0 : pages.isEmpty = false) (h1 : buildRanges c pages pending = some rs) (h2 : dataSize c pages new pending = some d)
    (h3 : gaps c rs = none) : analyze c est pages new pending = none := by
  unfold analyze
  simp only [h0, h1, h2, h3, Option.bind_eq_bind, Option.bind_some, Option.bind_none, Bool.false_eq_true, if_false]

theorem analyze_some {c : Bool} {est : Nat → Nat → Nat} {pages : List Nat} {new : Data} {pending : Map Data} {rs : List PageRange}
    {d m a x y t : Nat} {gs : List (Nat × Nat × Nat)} {sp : Option Nat} {e : Bool}
    (h0 : pages.isEmpty = false) (h1 : buildRanges c pages pending = some rs) (h2 : dataSize c pages new pending = some d)
    (h3 : gaps c rs = some gs) (h4 : span c rs gs = some sp) (h5 : metadata c rs gs = some m) (h6 : alignment c d rs = some a)
    (h7 : add c (sp.getD d) m = some x) (h8 : add c x a = some y) (h9 : sub c y (savings est d rs 75) = some t)
    (h10 : efficient c d t gs 20 = some e) :
    analyze c est pages new pending = some ⟨t, d, m, rs.length, savings est d rs 75, a, e⟩ := by
  unfold analyze
  simp only [h0, h1, h2, h3, h4, h5, h6, h7, h8, h9, h10, Option.bind_eq_bind, Option.bind_some, Bool.false_eq_true, if_false]

/-- **C149** fails for pages that are far apart: a build with overflow checks panics on the gap, one without takes a gap of 2^64 bytes for none and
calls the write efficient. -/
theorem C149_far_fails (est : Nat → Nat → Nat) (d e new : Data) (hd : d.length = 4096) (he : e.length = 4096) (hn : new = []) :
    analyze true est [0, 2 ^ 52 + 1] new [(0, d), (2 ^ 52 + 1, e)] = none
      ∧ ∃ i, analyze false est [0, 2 ^ 52 + 1] new [(0, d), (2 ^ 52 + 1, e)] = some i ∧ i.efficient = true := by
  subst hn
  have hg : ∀ p, get [(0, d), (2 ^ 52 + 1, e)] p = if p = 0 then some d else if p = 2 ^ 52 + 1 then some e else none := by
    intro p
    unfold get
    simp only [List.find?]
    by_cases h0 : p = 0
    · subst h0; rfl
    · rw [if_neg h0, show ((0 : Nat) == p) = false by simpa using fun h => h0 h.symm]
      by_cases h1 : p = 2 ^ 52 + 1
      · subst h1; rfl
      · rw [if_neg h1, show ((2 ^ 52 + 1 : Nat) == p) = false by simpa using fun h => h1 h.symm]
        rfl
  have hb : ∀ c, buildRanges c [0, 2 ^ 52 + 1] [(0, d), (2 ^ 52 + 1, e)] = some [⟨0, 0, 4096⟩, ⟨2 ^ 52 + 1, 2 ^ 52 + 1, 4096⟩] := by
    intro c
    have p0 : pageBytes [(0, d), (2 ^ 52 + 1, e)] 0 = 4096 := by rw [pageBytes, hg]; simp [hd]
    have p1 : pageBytes [(0, d), (2 ^ 52 + 1, e)] (2 ^ 52 + 1) = 4096 := by rw [pageBytes, hg]; simp [he]
    show grow c _ 0 0 _ [2 ^ 52 + 1] = _
    rw [grow, p0, p1, add_ok (by decide)]
    rfl
  have hdat : ∀ c, dataSize c [0, 2 ^ 52 + 1] [] [(0, d), (2 ^ 52 + 1, e)] = some 8192 := by
    intro c
    rw [dataSize, data_ok _ _ (by simp [pendingBytes, hg, hd, he])]
    simp [pendingBytes, hg, hd, he]
  have hs : savings est 8192 [⟨0, 0, 4096⟩, ⟨2 ^ 52 + 1, 2 ^ 52 + 1, 4096⟩] 75 = 0 := by
    unfold savings
    rw [if_neg (by decide), if_neg (by decide)]
  constructor
  · exact analyze_none rfl (hb true) (hdat true) (by decide +kernel)
  · refine ⟨⟨8416, 8192, 96, 2, 0, 128, true⟩, ?_, rfl⟩
    have := analyze_some (est := est) (c := false) (gs := [(1, 2 ^ 52, 0)]) (sp := some 8192) (m := 96) (a := 128) (x := 8288) (y := 8416)
      (t := 8416) (e := true) rfl (hb false) (hdat false) (by decide +kernel) (by decide +kernel) (by decide +kernel) (by decide +kernel)
      (by decide +kernel) (by decide +kernel) (by rw [hs]; decide +kernel) (by decide +kernel)
    rw [this, hs]
    rfl

/-- **C149** fails for the new data: they count as data but not in the total, so that the total can be less than the data, and the write is then
called efficient. -/
theorem C149_total_fails (c : Bool) (est : Nat → Nat → Nat) (new d : Data) (hnew : new.length = 8192) (hdl : d.length = 4096) :
    ∃ i, analyze c est [1] new [(1, d)] = some i ∧ i.total < i.data ∧ i.efficient = true := by
  obtain ⟨i, h1, -, h2⟩ := C149_analysis_partial c est [1] new [(1, d)] 1 1 (by simp) (by simp) (by simp)
    (by decide) (by decide) (by simp [assumedBytes, get, hdl]) (by simp [pendingBytes, get, hdl, hnew])
  have hs : (starts [1]).length = 1 := by decide
  have hd := h2.data
  have hm := h2.metadata
  obtain ⟨x, hp, hx1, hx2⟩ := h2.padding
  have ht := h2.total
  have he := h2.efficient
  rw [hs] at hm hp
  simp only [pendingBytes, assumedBytes, get, List.map_cons, List.map_nil, List.sum_cons, List.sum_nil, hdl, hnew, List.find?,
    List.length_singleton, Option.map_some, Option.getD_some, BEq.rfl] at hd hm ht he
  refine ⟨i, h1, ?_, he.2 ?_⟩
  · rw [if_pos (by omega)] at ht; omega
  · rw [if_pos (by omega)] at ht; omega

/-! ## Examples -/

/-- Six pages in any order: three runs, two gaps. -/
example : buildRanges true [7, 1, 10, 3, 2, 6] [] = some [⟨1, 3, 12288⟩, ⟨6, 7, 8192⟩, ⟨10, 10, 4096⟩]
    ∧ gaps true [⟨1, 3, 12288⟩, ⟨6, 7, 8192⟩, ⟨10, 10, 4096⟩] = some [(4, 5, 8192), (8, 9, 8192)]
    ∧ starts [7, 1, 10, 3, 2, 6] = [1, 10, 6] := by decide +kernel

/-- The hypotheses of `C149_ranges_partial`, `C149_gaps_partial` and `C149_analysis_partial` hold for them, and the analysis is not efficient. -/
example : [7, 1, 10, 3, 2, 6].Nodup ∧ (∀ p ∈ [7, 1, 10, 3, 2, 6], 1 ≤ p ∧ p ≤ 10)
    ∧ ([7, 1, 10, 3, 2, 6].map (assumedBytes [(3, [1, 2])])).sum = 20482
    ∧ Runs [7, 1, 10, 3, 2, 6] [⟨1, 3, 8194⟩, ⟨6, 7, 8192⟩, ⟨10, 10, 4096⟩]
    ∧ analyze true (fun _ _ => 0) [7, 1, 10, 3, 2, 6] [9] [(3, [1, 2])] = some ⟨24943, 3, 176, 3, 0, 4285, false⟩ := by
  refine ⟨by decide, by decide, by decide, ⟨by decide, by decide, fun p => ?_⟩, by decide +kernel⟩
  simp
  omega

/-- Two neighbouring pages with their data: the write is efficient. -/
example (d e : Data) (h : d.length = 4096) (h' : e.length = 4096) :
    ∃ i, analyze true (fun _ _ => 0) [2, 3] [] [(2, d), (3, e)] = some i ∧ i.efficient = true := by
  obtain ⟨i, h1, -, h2⟩ := C149_analysis_partial true (fun _ _ => 0) [2, 3] [] [(2, d), (3, e)] 2 3 (by simp) (by simp) (by simp)
    (by decide) (by decide) (by simp [assumedBytes, get, h, h']) (by simp [pendingBytes, get, h, h'])
  have hs : (starts [2, 3]).length = 1 := by decide
  have hd := h2.data
  have hm := h2.metadata
  obtain ⟨x, hp, hx1, hx2⟩ := h2.padding
  have ht := h2.total
  have he := h2.efficient
  rw [hs] at hm hp
  simp [pendingBytes, assumedBytes, get, h, h'] at hd hm ht he
  exact ⟨i, h1, he.2 ⟨by omega, by omega⟩⟩

/-- There are data of any length. -/
example : ∃ new d : Data, new.length = 8192 ∧ d.length = 4096 := ⟨List.replicate 8192 0, List.replicate 4096 0, List.length_replicate, List.length_replicate⟩

/-- The hypotheses of `C149_alone` and `C149_padding`. -/
example : analyze true (fun _ _ => 0) [] [1, 2, 3] [] = some ⟨64, 3, 0, 1, 0, 61, true⟩ ∧ padding true 4097 (2 ^ 12) = some 4095 := by
  decide +kernel

end Verif.Coalesce.Size

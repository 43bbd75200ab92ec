import Verif.Pool.BooksSpec
import Verif.Pool.BooksLemmas
import Verif.Pool.Props
import Verif.Pool.ThreadsProps

/-!
# Theorems on the books of a pool used by several threads (C130)
-/

namespace Verif.Pool

open Verif.Latch (Mode Prog Thread Sys Safe AllSafe total)

variable {B : Type} {keep : Nat → Option (Nat × Nat)}

/-! ## The threads at the start -/

instance (pid : Nat) (d : Doing B) : Decidable (d.fetches pid) := by unfold Doing.fetches; split <;> infer_instance

instance (pid : Nat) (d : Doing B) : Decidable (d.deletes pid) := by unfold Doing.deletes; split <;> infer_instance

/-- The pages in memory that no thread deletes. -/
def kept (w : World B) (threads : List (List (Doing B))) (pid : Nat) : Option (Nat × Nat) :=
  if threads.any (·.any fun d => d.deletes pid) then none else (w.table.get pid).bind fun f => (w.frame f).map fun o => (f, o)

/-- The pages that a thread fetches or deletes, among those below `n`. -/
def touched (keep : Nat → Option (Nat × Nat)) (n : Nat) (ds : List (Doing B)) : List Nat :=
  (List.range n).filter fun pid => (keep pid).isNone && ds.any fun d => d.fetches pid || d.deletes pid

/-- Its tokens at the start. -/
def tokens (keep : Nat → Option (Nat × Nat)) (n : Nat) (ds : List (Doing B)) : List Tok :=
  List.replicate (ds.countP Doing.needsFrame) .reserve ++ (touched keep n ds).map fun pid => .right pid .any

theorem script_safe {R : List Tok} (hR : ∀ t ∈ R, ∃ i, t = .right i .any) : ∀ ds : List (Doing B), (∀ d ∈ ds, ∀ pid, d.fetches pid → keep pid ≠ none ∨ .right pid .any ∈ R) →
    (∀ d ∈ ds, ∀ pid, d.deletes pid → .right pid .any ∈ R) → S keep (List.replicate (ds.countP Doing.needsFrame) .reserve ++ R) (script ds)
  | [], _, _ => by
    refine Safe.done ⟨fun i o => ?_, fun i f o => ?_, fun i f o => ?_, fun i f => ?_⟩
    all_goals
      simp only [List.countP_nil, List.replicate_zero, List.nil_append]
      rw [List.count_eq_zero]
      intro h
      obtain ⟨j, hj⟩ := hR _ h
      cases hj
  | d :: ds, hf, hd => by
    have ih := script_safe hR ds (fun d h => hf d (List.mem_cons_of_mem _ h)) (fun d h => hd d (List.mem_cons_of_mem _ h))
    have hf := hf d List.mem_cons_self
    have hd := hd d List.mem_cons_self
    have pull : ∀ (t : Tok) (m : Nat), t ∈ R → ∀ x, (List.replicate m Tok.reserve ++ R).count x = (t :: (List.replicate m Tok.reserve ++ R.erase t)).count x := by
      intro t m ht x
      have := (List.perm_cons_erase ht).count_eq x
      simp only [List.count_append, List.count_cons] at this ⊢
      omega
    unfold script doC
    rw [List.countP_cons]
    cases d with
    | call e op =>
      simp only [Doing.needsFrame]
      cases op with
      | new c => exact newPageC_safe ih
      | fetch ty pid =>
        simp only [NeedsFrame, if_true, List.replicate_succ, List.cons_append]
        cases hk : keep pid with
        | some fo => exact fetchKeptC_safe hk (S.spare ih (.inl rfl))
        | none =>
          have hm : Tok.right pid .any ∈ R := (hf pid rfl).resolve_left (fun h => h hk)
          refine S.perm (S.swap (fetchMineC_safe (S.perm ih (pull _ _ hm)))) fun x => ?_
          rw [List.count_cons, List.count_cons (l := _ ++ R), pull _ _ hm x]
      | drop g => exact dropC_safe ih
      | write g b => exact writeC_safe ih
      | read g => exact readC_safe ih
      | writePage pid b => exact writePageC_safe ih
      | flush pid => exact flushC_safe ih
      | delete pid =>
        have hm : Tok.right pid .any ∈ R := hd pid rfl
        exact S.perm (deleteC_safe (S.perm ih (pull _ _ hm))) fun x => (pull _ _ hm x).symm
    | flushBatch e most => exact flushBatchC_safe ih
    | latch g m =>
      refine S.look fun w _ _ => ?_
      cases (w.guards[g]?).join with
      | none => exact ih
      | some gd => exact S.lock ih
    | unlatch g m =>
      refine S.look fun w _ _ => ?_
      cases (w.guards[g]?).join with
      | none => exact ih
      | some gd => exact S.unlock ih

theorem books_start {w : World B} {s : Replacer.Spec.State} (h : Inv w s) {n : Tok → Nat} (h1 : n .reserve ≤ w.free.length) (h2 : ∀ pid, n (.right pid .any) ≤ 1)
    (h3 : ∀ pid, 0 < n (.right pid .any) → keep pid = none ∧ pid < w.next) (h4 : ∀ t, t ≠ .reserve → (∀ i, t ≠ .right i .any) → n t = 0)
    (h5 : ∀ pid f o, keep pid = some (f, o) → w.frames[f]? = some (some o) ∧ w.view.objs o = some pid) : Good keep w n := by
  have hR : ∀ i s, 0 < n (.right i s) → s = .any := by
    intro i s hs
    by_cases he : s = .any
    · exact he
    · rw [h4 _ (by simp) (fun j hj => by cases hj; exact he rfl)] at hs
      cases hs
  have hH : ∀ f o i, w.view.frames f = some (some o) → w.view.objs o = some i → ∃ p, w.Holds f o p ∧ p.id = i ∧ w.view.cnt o = p.pin := fun f o i hf ho => by
    obtain ⟨p, hp, hi, hc⟩ := view_obj ho
    exact ⟨p, ⟨hf, hp⟩, hi, hc⟩
  have hObj : ∀ i o, n (.obj i o) = 0 := fun i o => h4 _ (by simp) (by simp)
  have hPl : ∀ i f o, n (.placed i f o) = 0 := fun i f o => h4 _ (by simp) (by simp)
  have hPin : ∀ i f o, n (.pin i f o) = 0 := fun i f o => h4 _ (by simp) (by simp)
  have hFr : ∀ f, n (.frame f) = 0 := fun f => h4 _ (by simp) (by simp)
  have hRs : ∀ i s, s ≠ .any → n (.right i s) = 0 := fun i s hs => by
    rcases Nat.eq_zero_or_pos (n (.right i s)) with h | h
    · exact h
    · exact absurd (hR i s h) hs
  refine ⟨?_, by rw [h.rel.count]; exact Nat.le_refl _⟩
  constructor
  case reserve => exact h1
  case heap =>
    intro f o hf
    obtain ⟨p, hp⟩ := h.heap f o hf
    exact ⟨p.id, by simp [World.view, hp]⟩
  case ids =>
    intro f f' o o' i hf hf' ho ho'
    obtain ⟨p, hp, hi, _⟩ := hH f o i hf ho
    obtain ⟨p', hp', hi', _⟩ := hH f' o' i hf' ho'
    exact h.inj hp hp' (hi.trans hi'.symm)
  case idsF => intro f o i o' _ _; exact hObj _ _
  case idsO => intro i o o' h; rw [hObj] at h; cases h
  case old =>
    intro f o i hf ho
    obtain ⟨p, hp, rfl, _⟩ := hH f o i hf ho
    exact h.old f o p hp
  case oldO => intro i o h; rw [hObj] at h; cases h
  case table =>
    intro i f
    rw [hRs i (.gone f) (by simp)]
    simp only [hPl, Nat.lt_irrefl, or_false, and_true]
    refine (h.tbl i f).trans ⟨?_, ?_⟩
    · rintro ⟨o, p, hp, rfl⟩
      exact ⟨o, hp.1, by simp [World.view, hp.2]⟩
    · rintro ⟨o, hf, ho⟩
      obtain ⟨p, hp, hi, _⟩ := hH f o i hf ho
      exact ⟨o, p, hp, hi⟩
  case free => intro f hf; exact ⟨h.freeOk f hf, hFr f, fun i => hRs _ _ (by simp)⟩
  case nodup => exact h.freeNd
  case frame => intro f; rw [hFr]; omega
  case frameE => intro f hf; rw [hFr] at hf; cases hf
  case gone => intro i f hf; rw [hRs _ _ (by simp)] at hf; cases hf
  case goneU => intro i j f hf; rw [hRs _ _ (by simp)] at hf; cases hf
  case obj => intro i o; rw [hObj]; omega
  case objE => intro i o h; rw [hObj] at h; cases h
  case placed => intro i f o; rw [hPl]; omega
  case placedE => intro i f o h; rw [hPl] at h; cases h
  case guards =>
    intro g i o hg
    simp only [World.view, Option.map_eq_some_iff] at hg
    obtain ⟨gd, hg, he⟩ := hg
    cases he
    obtain ⟨f, p, hp, hi⟩ := h.gd g gd (join_eq_some.1 hg)
    exact ⟨f, hp.1, by simp [World.view, hp.2, hi], hPl _ _ _⟩
  case pins =>
    intro f o i hf ho _
    obtain ⟨p, hp, _, hc⟩ := hH f o i hf ho
    rw [hc, h.pin f o p hp, hPin]
    rfl
  case pinE => intro i f o h; rw [hPin] at h; cases h
  case right =>
    intro i s
    by_cases hs : s = .any
    · subst hs; exact h2 i
    · rw [hRs i s hs]; omega
  case rightU => intro i s s' a b; rw [hR i s a, hR i s' b]
  case rightE =>
    intro i s hs
    have := hR i s hs
    subst this
    exact h3 i hs
  case rightN => intro i s _ _ o; exact ⟨hObj _ _, fun f => hPl _ _ _⟩
  case absent => intro i hs; rw [hRs _ _ (by simp)] at hs; cases hs
  case at_ => intro i f o hs; rw [hRs _ _ (by simp)] at hs; cases hs
  case idle => intro i f o hs; rw [hRs _ _ (by simp)] at hs; cases hs
  case keep =>
    intro i f o hk
    exact ⟨(h5 i f o hk).1, (h5 i f o hk).2, hPl _ _ _⟩

theorem kept_some {w : World B} {s : Replacer.Spec.State} (h : Inv w s) {threads : List (List (Doing B))} {pid f o : Nat} (hk : kept w threads pid = some (f, o)) :
    w.frames[f]? = some (some o) ∧ w.view.objs o = some pid := by
  unfold kept at hk
  split at hk
  · cases hk
  rw [Option.bind_eq_some_iff] at hk
  obtain ⟨f', ht, hk⟩ := hk
  rw [Option.map_eq_some_iff] at hk
  obtain ⟨o', hf, he⟩ := hk
  cases he
  rw [frame_eq] at hf
  obtain ⟨o', p, hp, rfl⟩ := (h.tbl pid f).1 ht
  rw [hp.1] at hf
  cases hf
  exact ⟨hp.1, by simp [World.view, hp.2]⟩

theorem kept_of {w : World B} {s : Replacer.Spec.State} (h : Inv w s) {threads : List (List (Doing B))} {pid f : Nat} (ht : w.table.get pid = some f)
    (hd : ∀ ds ∈ threads, ∀ d ∈ ds, ¬ d.deletes pid) : ∃ o, kept w threads pid = some (f, o) := by
  obtain ⟨o, p, hp, _⟩ := (h.tbl pid f).1 ht
  refine ⟨o, ?_⟩
  unfold kept
  rw [if_neg, ht]
  · simp [frame_eq.2 hp.1]
  · simp only [List.any_eq_true, decide_eq_true_eq]
    rintro ⟨ds, h1, d, h2, h3⟩
    exact hd ds h1 d h2 h3

theorem kept_none {w : World B} {threads : List (List (Doing B))} {pid : Nat} {ds : List (Doing B)} {d : Doing B} (h1 : ds ∈ threads) (h2 : d ∈ ds) (h3 : d.deletes pid) :
    kept w threads pid = none := by
  unfold kept
  rw [if_pos]
  simp only [List.any_eq_true, decide_eq_true_eq]
  exact ⟨ds, h1, d, h2, h3⟩

theorem tokens_right {n : Nat} {ds : List (Doing B)} {pid : Nat} : .right pid .any ∈ tokens keep n ds ↔ pid < n ∧ keep pid = none ∧ ∃ d ∈ ds, d.fetches pid ∨ d.deletes pid := by
  unfold tokens touched
  simp only [List.mem_append, List.mem_replicate, reduceCtorEq, and_false, false_or, List.mem_map, Tok.right.injEq, and_true, exists_eq_right, List.mem_filter, List.mem_range,
    Bool.and_eq_true, Option.isNone_iff_eq_none, List.any_eq_true, Bool.or_eq_true, decide_eq_true_eq]

theorem tokens_count {n : Nat} {ds : List (Doing B)} (pid : Nat) : (tokens keep n ds).count (.right pid .any) ≤ 1 := by
  unfold tokens
  rw [List.count_append, List.count_eq_zero.2 (by simp [List.mem_replicate]), Nat.zero_add]
  have : ((touched keep n ds).map fun pid => Tok.right pid .any).Nodup := by
    refine List.Pairwise.map _ ?_ (List.Pairwise.filter _ List.nodup_range)
    intro a b hab he
    cases he
    exact hab rfl
  exact List.nodup_iff_count.1 this _

theorem tokens_other {n : Nat} {ds : List (Doing B)} {t : Tok} (h1 : t ≠ .reserve) (h2 : ∀ i, t ≠ .right i .any) : (tokens keep n ds).count t = 0 := by
  rw [List.count_eq_zero]
  unfold tokens
  intro h
  rw [List.mem_append, List.mem_replicate, List.mem_map] at h
  rcases h with ⟨_, h⟩ | ⟨i, _, h⟩
  · exact h1 h
  · exact h2 i h.symm

theorem tokens_reserve {n : Nat} {ds : List (Doing B)} : (tokens keep n ds).count .reserve = ds.countP Doing.needsFrame := by
  unfold tokens
  rw [List.count_append, List.count_replicate_self, List.count_eq_zero.2, Nat.add_zero]
  intro h
  rw [List.mem_map] at h
  obtain ⟨_, _, h⟩ := h
  cases h

theorem sum_zero : ∀ l : List Nat, (∀ x ∈ l, x = 0) → l.sum = 0
  | [], _ => rfl
  | x :: l, h => by
    rw [List.sum_cons, h x List.mem_cons_self, sum_zero l fun y hy => h y (List.mem_cons_of_mem _ hy)]

theorem total_le_one {f : List Tok → Nat} : ∀ (ls : List (List Tok)), (∀ l ∈ ls, f l ≤ 1) →
    (∀ (i j : Nat) (li lj : List Tok), ls[i]? = some li → ls[j]? = some lj → 0 < f li → 0 < f lj → i = j) → (ls.map f).sum ≤ 1
  | [], _, _ => by simp
  | l :: ls, h1, h2 => by
    have ih := total_le_one ls (fun l h => h1 l (List.mem_cons_of_mem _ h)) (fun i j li lj a b c d => by
      have := h2 (i + 1) (j + 1) li lj (by simpa using a) (by simpa using b) c d
      omega)
    simp only [List.map_cons, List.sum_cons]
    have hl := h1 l List.mem_cons_self
    by_cases h0 : f l = 0
    · omega
    · have : (ls.map f).sum = 0 := by
        rcases Nat.eq_zero_or_pos ((ls.map f).sum) with h | h
        · exact h
        · have : ∃ x ∈ ls, 0 < f x := by
            refine Classical.byContradiction fun hn => ?_
            have : ∀ x ∈ ls.map f, x = 0 := by
              intro x hx
              rw [List.mem_map] at hx
              obtain ⟨y, hy, rfl⟩ := hx
              have : ¬ 0 < f y := fun hp => hn ⟨y, hy, hp⟩
              omega
            rw [sum_zero _ this] at h
            cases h
          obtain ⟨x, hx, hp⟩ := this
          obtain ⟨j, hj⟩ := List.getElem?_of_mem hx
          have := h2 0 (j + 1) l x (by simp) (by simpa using hj) (by omega) hp
          omega
      omega

theorem total_map {α : Type} (g : α → List Tok) (x : Tok) : ∀ ts : List α, total (ts.map fun t => fun x => (g t).count x) x = ((ts.map g).map fun l => l.count x).sum
  | [] => rfl
  | t :: ts => by
    simp only [List.map_cons, total, List.sum_cons]
    rw [total_map g x ts]

/-- The threads at the start, each with its tokens. -/
theorem allSafe_start {w : World B} {s : Replacer.Spec.State} (h : Inv w s) {threads : List (List (Doing B))} (hf : framesFor threads ≤ w.free.length) (hs : Separate w threads) :
    AllSafe (Good (kept w threads)) Over (start w threads) := by
  refine ⟨threads.map fun ds => ({ prog := script ds }, fun x => (tokens (kept w threads) w.next ds).count x), ?_, ?_, ?_⟩
  · simp [start]
  · have hm : ((threads.map fun ds => (({ prog := script ds } : Thread Lock (World B)), fun x => (tokens (kept w threads) w.next ds).count x)).map Prod.snd) =
        threads.map fun ds => fun x => (tokens (kept w threads) w.next ds).count x := by simp
    rw [hm]
    have hsum : ∀ x, 0 < total (threads.map fun ds => fun x => (tokens (kept w threads) w.next ds).count x) x → ∃ ds ∈ threads, x ∈ tokens (kept w threads) w.next ds := by
      intro x hx
      refine Classical.byContradiction fun hn => ?_
      rw [total_map] at hx
      rw [sum_zero] at hx
      · cases hx
      intro y hy
      rw [List.map_map, List.mem_map] at hy
      obtain ⟨ds, hds, rfl⟩ := hy
      exact List.count_eq_zero.2 fun hm => hn ⟨ds, hds, hm⟩
    refine books_start h ?_ ?_ ?_ ?_ ?_
    · rw [total_map, List.map_map]
      have : ((fun l : List Tok => l.count Tok.reserve) ∘ tokens (kept w threads) w.next) = fun ds : List (Doing B) => ds.countP Doing.needsFrame := funext fun ds => tokens_reserve
      rw [this]
      exact hf
    · intro pid
      rw [total_map]
      refine total_le_one _ ?_ ?_
      · intro l hl
        rw [List.mem_map] at hl
        obtain ⟨ds, _, rfl⟩ := hl
        exact tokens_count pid
      · intro i j li lj hi hj h1 h2
        rw [List.getElem?_map, Option.map_eq_some_iff] at hi hj
        obtain ⟨di, hi, rfl⟩ := hi
        obtain ⟨dj, hj, rfl⟩ := hj
        obtain ⟨_, hk, t1⟩ := tokens_right.1 (List.count_pos_iff.1 h1)
        obtain ⟨_, _, t2⟩ := tokens_right.1 (List.count_pos_iff.1 h2)
        rcases hs.apart i j di dj pid hi hj t1 t2 with h | ⟨h3, h4⟩
        · exact h
        · obtain ⟨f, hf⟩ := Option.isSome_iff_exists.1 h3
          obtain ⟨o, ho⟩ := kept_of h hf h4
          rw [hk] at ho
          cases ho
    · intro pid hp
      obtain ⟨ds, _, hm⟩ := hsum _ hp
      obtain ⟨h1, h2, _⟩ := tokens_right.1 hm
      exact ⟨h2, h1⟩
    · intro t h1 h2
      rcases Nat.eq_zero_or_pos (total (threads.map fun ds => fun x => (tokens (kept w threads) w.next ds).count x) t) with h0 | h0
      · exact h0
      · obtain ⟨ds, _, hm⟩ := hsum _ h0
        exact absurd hm (List.count_eq_zero.1 (tokens_other h1 h2))
    · intro pid f o hk
      exact kept_some h hk
  · intro x hx
    rw [List.mem_map] at hx
    obtain ⟨ds, hds, rfl⟩ := hx
    refine script_safe ?_ ds ?_ ?_
    · intro t ht
      rw [List.mem_map] at ht
      obtain ⟨i, _, rfl⟩ := ht
      exact ⟨i, rfl⟩
    · intro d hd pid hp
      by_cases hk : kept w threads pid = none
      · right
        have := tokens_right.2 ⟨hs.existed ds hds d hd pid (.inl hp), hk, d, hd, .inl hp⟩
        unfold tokens at this
        simpa using this
      · exact .inl hk
    · intro d hd pid hp
      have := tokens_right.2 ⟨hs.existed ds hds d hd pid (.inr hp), kept_none (w := w) hds hd hp, d, hd, .inr hp⟩
      unfold tokens at this
      simpa using this

theorem over_total : ∀ ns : List (Tok → Nat), (∀ n ∈ ns, Over n) → Over (total ns)
  | [], _ => ⟨fun _ _ => rfl, fun _ _ _ => rfl, fun _ _ _ => rfl, fun _ _ => rfl⟩
  | n :: ns, h => by
    obtain ⟨a, b, c, d⟩ := over_total ns fun n hn => h n (List.mem_cons_of_mem _ hn)
    obtain ⟨a', b', c', d'⟩ := h n List.mem_cons_self
    refine ⟨fun i o => ?_, fun i f o => ?_, fun i f o => ?_, fun i f => ?_⟩ <;> simp only [total, a, b, c, d, a', b', c', d']

theorem consistent_of_books {w : World B} {n : Tok → Nat} (h : Books keep w.view n) (hn : Over n) : Consistent w := by
  obtain ⟨_, hp, hq, hg⟩ := hn
  have hv : ∀ {f o p}, w.Holds f o p → w.view.frames f = some (some o) ∧ w.view.objs o = some p.id ∧ w.view.cnt o = p.pin := fun {f o p} h =>
    ⟨h.1, by simp [World.view, h.2], by simp [World.view, h.2]⟩
  constructor
  · intro pid f
    have := h.table pid f
    rw [hg] at this
    simp only [hp, Nat.lt_irrefl, or_false, and_true] at this
    refine this.trans ⟨?_, ?_⟩
    · rintro ⟨o, h1, h2⟩
      obtain ⟨p, h3, h4, _⟩ := view_obj h2
      exact ⟨o, p, ⟨h1, h3⟩, h4⟩
    · rintro ⟨o, p, h1, rfl⟩
      exact ⟨o, (hv h1).1, (hv h1).2.1⟩
  · intro f f' o o' p p' h1 h2 h3
    exact h.ids f f' o o' p.id (hv h1).1 (hv h2).1 (hv h1).2.1 (h3 ▸ (hv h2).2.1)
  · exact fun f hf => (h.free f hf).1
  · exact h.nodup
  · intro g gd hgd
    have : w.view.guards g = some (gd.pid, gd.obj) := by
      simp only [World.view]
      rw [hgd]
      rfl
    obtain ⟨f, h1, h2, _⟩ := h.guards g _ _ this
    obtain ⟨p, h3, h4, _⟩ := view_obj h2
    exact ⟨f, p, ⟨h1, h3⟩, h4⟩
  · intro f o p h1
    have := h.pins f o p.id (hv h1).1 (hv h1).2.1 (hp _ _ _)
    rw [hq, (hv h1).2.2] at this
    rw [this]
    exact isCount_pins w.guards o

/-! ## C130: the books of a pool used by several threads agree -/

/-- **C130 (proved part).** Threads that have enough free frames and do not fetch or delete the same page, except pages in memory that nobody deletes, use a pool together. When all have
finished, whatever the schedule, the books agree as in C26, and a page that was in memory and that nobody deleted is in the frame it was in. -/
theorem C130_books_partial (size k : Nat) (hk : 1 ≤ k) (hk2 : k ≤ Replacer.u64Max) (disk : Nat → Option (Content B)) (calls : List (Env × Op B)) (w : World B) (outs : List (Out B))
    (hw : run (init size k disk) calls = some (w, outs)) (threads : List (List (Doing B))) (hf : framesFor threads ≤ w.free.length) (hs : Separate w threads)
    (schedule : List Nat) (s : Sys Lock (World B)) (hr : (start w threads).run schedule = some s) (hfin : s.finished = true) :
    Consistent s.world ∧ ∀ pid f, w.table.get pid = some f → (∀ ds ∈ threads, ∀ d ∈ ds, ¬ d.deletes pid) → s.world.table.get pid = some f := by
  obtain ⟨w1, outs1, st, h1, h2, _⟩ := run_ok calls _ _ (inv_init size k hk hk2 disk)
  rw [hw] at h1
  cases h1
  obtain ⟨ns, hn, hall⟩ := ((allSafe_start h2 hf hs).run hr).finished hfin
  refine ⟨consistent_of_books hn.1 (over_total ns hall), fun pid f ht hd => ?_⟩
  obtain ⟨o, ho⟩ := kept_of h2 ht hd
  obtain ⟨a, b, c⟩ := hn.1.keep pid f o ho
  exact (hn.1.table pid f).2 (.inl ⟨o, a, b, c⟩)

/-- **C130 (proved part).** And in the middle of the calls: a page that somebody has a guard for is in a frame, the page table names that frame and no other frame holds the page. -/
theorem C130_guards_partial (size k : Nat) (hk : 1 ≤ k) (hk2 : k ≤ Replacer.u64Max) (disk : Nat → Option (Content B)) (calls : List (Env × Op B)) (w : World B) (outs : List (Out B))
    (hw : run (init size k disk) calls = some (w, outs)) (threads : List (List (Doing B))) (hf : framesFor threads ≤ w.free.length) (hs : Separate w threads)
    (schedule : List Nat) (s : Sys Lock (World B)) (hr : (start w threads).run schedule = some s) (g : Nat) (gd : Guard) (hg : s.world.Live g gd) :
    ∃ f p, s.world.Holds f gd.obj p ∧ p.id = gd.pid ∧ s.world.table.get gd.pid = some f ∧ 0 < p.pin ∧ ∀ f' o' p', s.world.Holds f' o' p' → p'.id = gd.pid → f' = f := by
  obtain ⟨w1, outs1, st, h1, h2, _⟩ := run_ok calls _ _ (inv_init size k hk hk2 disk)
  rw [hw] at h1
  cases h1
  obtain ⟨ts, _, hb, _⟩ := (allSafe_start h2 hf hs).run hr
  have hv : s.world.view.guards g = some (gd.pid, gd.obj) := by
    simp only [World.view]
    rw [hg]
    rfl
  obtain ⟨f, h3, h4, h5⟩ := hb.1.guards g _ _ hv
  obtain ⟨p, h6, h7, h8⟩ := view_obj h4
  refine ⟨f, p, ⟨h3, h6⟩, h7, (hb.1.table _ _).2 (.inl ⟨_, h3, h4, h5⟩), ?_, ?_⟩
  · have := hb.1.pins f gd.obj gd.pid h3 h4 h5
    have hp : 0 < s.world.view.pins gd.obj := view_pos.2 ⟨g, _, hv⟩
    omega
  · intro f' o' p' h hi
    exact hb.1.ids f' f o' gd.obj gd.pid h.1 h3 (by simp [World.view, h.2, hi]) h4

/-- **C130 (proved part).** So all guards of a page show the same bytes: who reads through one of them sees what was last written through any of them. -/
theorem C130_same_page_partial (size k : Nat) (hk : 1 ≤ k) (hk2 : k ≤ Replacer.u64Max) (disk : Nat → Option (Content B)) (calls : List (Env × Op B)) (w : World B) (outs : List (Out B))
    (hw : run (init size k disk) calls = some (w, outs)) (threads : List (List (Doing B))) (hf : framesFor threads ≤ w.free.length) (hs : Separate w threads)
    (schedule : List Nat) (s : Sys Lock (World B)) (hr : (start w threads).run schedule = some s) (g g' : Nat) (gd gd' : Guard) (hg : s.world.Live g gd) (hg' : s.world.Live g' gd')
    (he : gd.pid = gd'.pid) : gd.obj = gd'.obj := by
  obtain ⟨f, p, h1, _, _, _, h2⟩ := C130_guards_partial size k hk hk2 disk calls w outs hw threads hf hs schedule s hr g gd hg
  obtain ⟨f', p', h3, h4, _⟩ := C130_guards_partial size k hk hk2 disk calls w outs hw threads hf hs schedule s hr g' gd' hg'
  have := h2 f' gd'.obj p' h3 (h4.trans he.symm)
  subst this
  have := h1.1.symm.trans h3.1
  simpa using this

/-- What is true at the end of a schedule, if it is one. -/
def endsWith (s : Sys Lock (World B)) (schedule : List Nat) (p : World B → Bool) : Bool := match s.run schedule with
  | none => false
  | some s' => s'.finished && p s'.world

theorem endsWith_elim {s : Sys Lock (World B)} {schedule : List Nat} {p : World B → Bool} (h : endsWith s schedule p = true) :
    ∃ s', s.run schedule = some s' ∧ s'.finished = true ∧ p s'.world = true := by
  unfold endsWith at h
  split at h
  · cases h
  · rename_i s' hs
    rw [Bool.and_eq_true] at h
    exact ⟨s', hs, h.1, h.2⟩

/-- **C130 (what the code does).** One thread drops the only guard of the only page, another fetches the page and then creates one. `fetch_page` tells the replacer that the page is in use
before it pins it, so the drop can come between and tell the opposite: the page, now in use, is evicted by the next call. -/
theorem C130_in_use_fails : ∃ schedule s, (callers (after 1 [(at_ 0, .new ⟨1, 10⟩)]) [[(at_ 4, .drop 0)], [(at_ 5, .fetch 1 0), (at_ 6, .new ⟨1, 30⟩)]]).run schedule = some s ∧
    s.finished = true ∧ s.world.Live 1 ⟨0, 0, false⟩ ∧ ¬ (∃ f p, s.world.Holds f 0 p) ∧ s.world.table.get 0 = none := by
  obtain ⟨s, h1, h2, h3⟩ := endsWith_elim (s := callers (after 1 [(at_ 0, .new ⟨1, 10⟩)]) [[(at_ 4, .drop 0)], [(at_ 5, .fetch 1 0), (at_ 6, .new ⟨1, 30⟩)]])
    (schedule := List.replicate 17 1 ++ List.replicate 17 0 ++ List.replicate 53 1)
    (p := fun w => w.guards[1]? == some (some ⟨0, 0, false⟩) && w.frames == [some 1] && (w.table.get 0).isNone) (by decide +kernel)
  simp only [Bool.and_eq_true, beq_iff_eq, Option.isNone_iff_eq_none] at h3
  refine ⟨_, s, h1, h2, h3.1.1, ?_, h3.2⟩
  rintro ⟨f, p, hp, _⟩
  rw [h3.1.2] at hp
  match f with
  | 0 => cases hp
  | f + 1 => cases hp

/-- A page that is not in memory and two free frames. -/
def twoFree : World Nat := after 3 [(at_ 0, .new ⟨1, 10⟩), (at_ 1, .new ⟨1, 20⟩), (at_ 2, .new ⟨1, 30⟩), (at_ 3, .write 0 11), (at_ 4, .drop 0), (at_ 5, .drop 1), (at_ 6, .drop 2),
  (at_ 7, .new ⟨1, 40⟩), (at_ 8, .delete 1), (at_ 9, .delete 2)]

/-- **C130 (what the code does).** Two threads fetch a page that is not in memory: it gets into two frames, and each has a guard of its own copy. What the one writes, the other does not
see. -/
theorem C130_two_frames_fails : ∃ schedule s, (callers twoFree [[(at_ 10, .fetch 1 0), (at_ 12, .write 4 12)], [(at_ 11, .fetch 1 0)]]).run schedule = some s ∧ s.finished = true ∧
    s.world.Holds 0 4 ⟨0, ⟨1, 12⟩, 1, true⟩ ∧ s.world.Holds 1 5 ⟨0, ⟨1, 11⟩, 1, true⟩ ∧ (run s.world [(at_ 13, .read 4), (at_ 14, .read 5)]).map (·.2) =
      some [.content (some ⟨1, 12⟩), .content (some ⟨1, 11⟩)] := by
  obtain ⟨s, h1, h2, h3⟩ := endsWith_elim (s := callers twoFree [[(at_ 10, .fetch 1 0), (at_ 12, .write 4 12)], [(at_ 11, .fetch 1 0)]])
    (schedule := List.replicate 4 1 ++ List.replicate 38 0 ++ List.replicate 29 1)
    (p := fun w => w.frames[0]? == some (some 4) && w.objs[4]? == some ⟨0, ⟨1, 12⟩, 1, true⟩ && w.frames[1]? == some (some 5) && w.objs[5]? == some ⟨0, ⟨1, 11⟩, 1, true⟩ &&
      (run w [(at_ 13, .read 4), (at_ 14, .read 5)]).map (·.2) == some [.content (some ⟨1, 12⟩), .content (some ⟨1, 11⟩)]) (by decide +kernel)
  simp only [Bool.and_eq_true, beq_iff_eq] at h3
  exact ⟨_, s, h1, h2, ⟨h3.1.1.1.1, h3.1.1.1.2⟩, ⟨h3.1.1.2, h3.1.2⟩, h3.2⟩

/-- **C130 (what the code does).** `delete_page` looks whether the page is in use, and then deletes it: a fetch can come between, and its guard is then one of a page that is in no frame. -/
theorem C130_deleted_fails : ∃ schedule s, (callers (after 1 [(at_ 0, .new ⟨1, 10⟩), (at_ 1, .drop 0)]) [[(at_ 10, .delete 0)], [(at_ 11, .fetch 1 0)]]).run schedule = some s ∧
    s.finished = true ∧ s.world.Live 1 ⟨0, 0, false⟩ ∧ s.world.frames = [none] ∧ s.world.free = [0] := by
  obtain ⟨s, h1, h2, h3⟩ := endsWith_elim (s := callers (after 1 [(at_ 0, .new ⟨1, 10⟩), (at_ 1, .drop 0)]) [[(at_ 10, .delete 0)], [(at_ 11, .fetch 1 0)]])
    (schedule := List.replicate 8 0 ++ List.replicate 23 1 ++ List.replicate 18 0)
    (p := fun w => w.guards[1]? == some (some ⟨0, 0, false⟩) && w.frames == [none] && w.free == [0]) (by decide +kernel)
  simp only [Bool.and_eq_true, beq_iff_eq] at h3
  exact ⟨_, s, h1, h2, h3.1.1, h3.1.2, h3.2⟩

/-- **C130 (what the code does).** A flush copies the bytes of a page and later clears its dirty flag: what another thread wrote in between, through a guard it then dropped, is lost when
the page is evicted. -/
theorem C130_flush_fails : ∃ schedule s, (callers (after 1 [(at_ 0, .new ⟨1, 10⟩), (at_ 1, .write 0 11)]) [[(at_ 10, .flush 0)], [(at_ 11, .write 0 12), (at_ 12, .drop 0)]]).run schedule =
    some s ∧ s.finished = true ∧ (run s.world [(at_ 13, .new ⟨1, 30⟩), (at_ 14, .drop 1), (at_ 15, .fetch 1 0), (at_ 16, .read 2)]).map (·.2) =
      some [.guard (some (1, 1)), .unit, .guard (some (2, 0)), .content (some ⟨1, 11⟩)] := by
  obtain ⟨s, h1, h2, h3⟩ := endsWith_elim
    (s := callers (after 1 [(at_ 0, .new ⟨1, 10⟩), (at_ 1, .write 0 11)]) [[(at_ 10, .flush 0)], [(at_ 11, .write 0 12), (at_ 12, .drop 0)]])
    (schedule := List.replicate 9 0 ++ List.replicate 22 1 ++ List.replicate 5 0)
    (p := fun w => (run w [(at_ 13, .new ⟨1, 30⟩), (at_ 14, .drop 1), (at_ 15, .fetch 1 0), (at_ 16, .read 2)]).map (·.2) ==
      some [.guard (some (1, 1)), .unit, .guard (some (2, 0)), .content (some ⟨1, 11⟩)]) (by decide +kernel)
  simp only [beq_iff_eq] at h3
  exact ⟨_, s, h1, h2, h3⟩

/-- **C130 (what the code does).** A flush looks up the frame of page 0, and then takes the page that is in that frame: if page 0 has been evicted in between, it writes the bytes of
another page to the place of page 0. Page 0 then shows the bytes of page 1, and what was written to it is lost. -/
theorem C130_flush_other_fails : ∃ schedule s, (callers (after 1 [(at_ 0, .new ⟨1, 10⟩), (at_ 1, .write 0 11), (at_ 2, .drop 0)]) [[(at_ 10, .flush 0)], [(at_ 11, .new ⟨1, 20⟩)]]).run
    schedule = some s ∧ s.finished = true ∧ (run s.world [(at_ 14, .drop 1), (at_ 15, .fetch 1 0), (at_ 16, .read 2)]).map (·.2) =
      some [.unit, .guard (some (2, 0)), .content (some ⟨1, 20⟩)] := by
  obtain ⟨s, h1, h2, h3⟩ := endsWith_elim
    (s := callers (after 1 [(at_ 0, .new ⟨1, 10⟩), (at_ 1, .write 0 11), (at_ 2, .drop 0)]) [[(at_ 10, .flush 0)], [(at_ 11, .new ⟨1, 20⟩)]])
    (schedule := List.replicate 3 0 ++ List.replicate 55 1 ++ List.replicate 11 0)
    (p := fun w => (run w [(at_ 14, .drop 1), (at_ 15, .fetch 1 0), (at_ 16, .read 2)]).map (·.2) == some [.unit, .guard (some (2, 0)), .content (some ⟨1, 20⟩)]) (by decide +kernel)
  simp only [beq_iff_eq] at h3
  exact ⟨_, s, h1, h2, h3⟩

/-- The example of C130: page 3 is in memory, page 0 is not, two frames are free. -/
def exampleThreads : List (List (Doing Nat)) :=
  [[.call (at_ 10) (.fetch 1 3), .call (at_ 11) (.drop 3)], [.call (at_ 10) (.fetch 1 3), .flushBatch (at_ 11) 5, .call (at_ 12) (.write 3 41)], [.call (at_ 13) (.flush 3), .call (at_ 13) (.delete 1)]]

theorem exampleThreads_separate : Separate twoFree exampleThreads := by
  have hn : twoFree.next = 4 := by decide +kernel
  constructor
  · intro ds hds d hd pid hp
    rw [hn]
    simp only [exampleThreads, List.mem_cons, List.not_mem_nil, or_false] at hds
    rcases hds with rfl | rfl | rfl <;> simp only [List.mem_cons, List.not_mem_nil, or_false] at hd
    · rcases hd with rfl | rfl <;> simp only [Doing.fetches, Doing.deletes, or_false, false_or] at hp
      omega
    · rcases hd with rfl | rfl | rfl <;> simp only [Doing.fetches, Doing.deletes, or_false, false_or] at hp
      omega
    · rcases hd with rfl | rfl <;> simp only [Doing.fetches, Doing.deletes, or_false, false_or] at hp
      omega
  · have key : ∀ (i : Nat) (ds : List (Doing Nat)) (pid : Nat), exampleThreads[i]? = some ds → (∃ d ∈ ds, d.fetches pid ∨ d.deletes pid) →
        (pid = 3 ∧ (i = 0 ∨ i = 1)) ∨ (pid = 1 ∧ i = 2) := by
      intro i ds pid hi hd
      unfold exampleThreads at hi
      match i, hi with
      | 0, hi =>
        cases hi
        simp [Doing.fetches, Doing.deletes] at hd
        exact .inl ⟨hd.symm, .inl rfl⟩
      | 1, hi =>
        cases hi
        simp [Doing.fetches, Doing.deletes] at hd
        exact .inl ⟨hd.symm, .inr rfl⟩
      | 2, hi =>
        cases hi
        simp [Doing.fetches, Doing.deletes] at hd
        exact .inr ⟨hd.symm, rfl⟩
      | i + 3, hi => cases hi
    intro i j di dj pid hi hj h1 h2
    rcases key i di pid hi h1 with ⟨rfl, _⟩ | ⟨rfl, rfl⟩
    · right
      refine ⟨by decide +kernel, ?_⟩
      simp [exampleThreads, Doing.deletes]
    · rcases key j dj 1 hj h2 with ⟨h, _⟩ | ⟨_, h⟩
      · cases h
      · exact .inl h.symm

/-- C130: three threads, two of which fetch the same page while a third flushes it and deletes another, meet the hypotheses, and a schedule that takes turns ends with the page in its
frame and two guards. -/
example : framesFor exampleThreads ≤ twoFree.free.length ∧ Separate twoFree exampleThreads ∧
    endsWith (start twoFree exampleThreads) ((List.replicate 13 [0, 1, 2]).flatten ++ [0, 2, 0, 2, 0, 2, 0, 1, 2] ++ (List.replicate 14 [0, 1]).flatten ++ [0, 0, 0, 1, 0, 1, 1, 1, 1])
      (fun w => w.frames == [none, none, some 3] && w.guards == [none, none, none, none, some ⟨3, 3, false⟩, some ⟨3, 3, false⟩]) = true := by
  refine ⟨by decide +kernel, exampleThreads_separate, ?_⟩
  decide +kernel

end Verif.Pool

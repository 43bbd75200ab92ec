import Verif.Pool.Books
import Verif.Pool.Steps

/-!
# Every call keeps the books
-/

namespace Verif.Pool

open Verif.Latch (Mode Prog Safe)

variable {B : Type}

/-- What matters of the pool for the books. -/
def World.view (w : World B) : View :=
  { next := w.next, frames := fun f => w.frames[f]?, objs := fun o => (w.objs[o]?).map (·.id), cnt := fun o => ((w.objs[o]?).map (·.pin)).getD 0, table := w.table.get,
    free := w.free, guards := fun g => ((w.guards[g]?).join).map fun gd => (gd.pid, gd.obj), pins := pinsOn w.guards }

/-- The books are kept, and the replacer does not panic. -/
def Good (keep : Nat → Option (Nat × Nat)) (w : World B) (n : Tok → Nat) : Prop := Books keep w.view n ∧ w.rep.deque.length ≤ w.rep.currSize

/-- The tokens of a list, besides others. -/
def adds (l : List Tok) (n : Tok → Nat) : Tok → Nat := l.foldr add n

theorem adds_cons (t : Tok) (l : List Tok) (n : Tok → Nat) : adds (t :: l) n = add t (adds l n) := rfl

theorem adds_count (l : List Tok) (n : Tok → Nat) : adds l n = fun x => l.count x + n x := by
  induction l with
  | nil => funext x; simp [adds]
  | cons t l ih =>
    rw [adds_cons, ih]
    funext x
    simp only [add, List.count_cons, beq_iff_eq]
    split
    · subst_vars
      simp
      omega
    · rename_i h
      rw [if_neg (fun h' => h h'.symm)]
      omega

theorem add_add (a b : Tok) (n : Tok → Nat) : add a (add b n) = add b (add a n) := by
  funext x
  simp only [add]
  grind

/-- A thread may end with frames nobody uses any more, frames set aside, and rights. -/
def Over (n : Tok → Nat) : Prop := (∀ i o, n (.obj i o) = 0) ∧ (∀ i f o, n (.placed i f o) = 0) ∧ (∀ i f o, n (.pin i f o) = 0) ∧ ∀ i f, n (.right i (.gone f)) = 0

/-- The program keeps the books when the thread starts it with these tokens. -/
def S (keep : Nat → Option (Nat × Nat)) (l : List Tok) (p : Code B) : Prop := Safe (Good keep) Over (fun x => l.count x) p

variable {keep : Nat → Option (Nat × Nat)} {l l' : List Tok} {k p : Code B}

theorem S.perm (h : S keep l p) (hp : ∀ x, l.count x = l'.count x) : S keep l' p := by
  unfold S at *
  rw [← funext hp]
  exact h

theorem S.lock {x : Lock} {m : Mode} (h : S keep l k) : S keep l (.lock x m k) := Safe.lock h

theorem S.unlock {x : Lock} {m : Mode} (h : S keep l k) : S keep l (.unlock x m k) := Safe.unlock h

theorem S.act {f : World B → World B} {k : World B → Code B} (l' : World B → List Tok) (h1 : ∀ w rest, Good keep w (adds l rest) → Good keep (f w) (adds (l' w) rest))
    (h2 : ∀ w rest, Good keep w (adds l rest) → S keep (l' w) (k w)) : S keep l (.act f k) := by
  refine Safe.act (fun w x => (l' w).count x) (fun w rest h => ?_) (fun w rest h => ?_)
  · have := h1 w rest (by rw [adds_count]; exact h)
    rw [adds_count] at this
    exact this
  · exact h2 w rest (by rw [adds_count]; exact h)

/-- A step that matters neither for the books nor for the replacer. -/
theorem S.quiet {f : World B → World B} {k : World B → Code B} (h1 : ∀ w, (f w).view = w.view ∧ (f w).rep = w.rep) (h2 : ∀ w rest, Good keep w (adds l rest) → S keep l (k w)) :
    S keep l (.act f k) :=
  S.act (fun _ => l) (fun w rest h => by
    unfold Good
    rw [(h1 w).1, (h1 w).2]
    exact h) h2

theorem S.look {k : World B → Code B} (h : ∀ w rest, Good keep w (adds l rest) → S keep l (k w)) : S keep l (look k) := S.quiet (fun _ => ⟨rfl, rfl⟩) h

/-- A step that only changes the replacer. -/
theorem S.rep {r : World B → Replacer.Rep} {k : World B → Code B} (h1 : ∀ w, w.rep.deque.length ≤ w.rep.currSize → (r w).deque.length ≤ (r w).currSize) (h2 : ∀ w, S keep l (k w)) :
    S keep l (.act (fun w => { w with rep := r w }) k) := S.act (fun _ => l) (fun w _ h => ⟨h.1, h1 w h.2⟩) fun w _ _ => h2 w

theorem S.spare {t : Tok} (h : S keep l p) (ht : t = .reserve ∨ ∃ f, t = .frame f) : S keep (t :: l) p := by
  have := Safe.more h (fun x => if x = t then 1 else 0) (fun n hn => by
    unfold Over at *
    rcases ht with rfl | ⟨f, rfl⟩ <;> simpa using hn)
  refine Eq.mp ?_ this
  unfold S
  congr 1
  funext x
  rw [List.count_cons]
  by_cases hx : x = t
  · subst hx; simp
  · rw [if_neg hx]
    simp [Ne.symm hx]

/-! ## The replacer -/

theorem recordAccess_size (r : Replacer.Rep) (f now : Nat) : (Replacer.recordAccess r f now).deque = r.deque ∧ (Replacer.recordAccess r f now).currSize = r.currSize := ⟨rfl, rfl⟩

theorem setEvictable_size {r : Replacer.Rep} (f : Nat) (b : Bool) (h : r.deque.length ≤ r.currSize) :
    ∃ r' x, Replacer.setEvictable r f b = some (r', x) ∧ r'.deque.length ≤ r'.currSize := by
  unfold Replacer.setEvictable
  split
  · exact ⟨_, _, rfl, h⟩
  split
  · exact ⟨_, _, rfl, h⟩
  dsimp only
  split
  · exact ⟨_, _, rfl, by simp; omega⟩
  split
  · rename_i hm
    have : 0 < r.deque.length := List.length_pos_of_mem hm
    rw [if_neg (by omega)]
    refine ⟨_, _, rfl, ?_⟩
    simp only [List.length_erase_of_mem hm]
    omega
  · exact ⟨_, _, rfl, h⟩

theorem touch_size {w : World B} (e : Env) (f : Nat) (b : Bool) (h : w.rep.deque.length ≤ w.rep.currSize) : ∃ w', w.touch e f b = some w' ∧ w'.rep.deque.length ≤ w'.rep.currSize := by
  obtain ⟨r, x, h1, h2⟩ := setEvictable_size (r := Replacer.recordAccess w.rep f e.now) f b h
  exact ⟨_, by unfold World.touch; rw [h1], h2⟩

theorem remove_size {r : Replacer.Rep} (f : Nat) (h : r.deque.length ≤ r.currSize) : (Replacer.remove r f).deque.length ≤ (Replacer.remove r f).currSize := by
  unfold Replacer.remove
  split
  · exact h
  · split <;> exact h

theorem touchC_safe {e : Env} {f : Nat} {b : Bool} {held : List (Lock × Mode)} (h : S keep l k) : S keep l (touchC e f b held k) := by
  refine S.lock (S.look fun w rest hw => ?_)
  obtain ⟨w', h1, h2⟩ := touch_size e f b hw.2
  rw [h1]
  exact S.rep (fun _ _ => h2) fun _ => S.unlock h

/-! ## Steps that matter only for the contents of pages -/

theorem view_modify (w : World B) (o : Nat) (g : Page B → Page B) (h1 : ∀ p, (g p).id = p.id) (h2 : ∀ p, (g p).pin = p.pin) : (w.modifyObj o g).view = w.view ∧ (w.modifyObj o g).rep = w.rep := by
  refine ⟨?_, rfl⟩
  unfold World.view World.modifyObj
  simp only [View.mk.injEq, true_and, and_true]
  constructor <;> funext x <;> rw [List.getElem?_modify] <;> split <;> cases w.objs[x]? <;> simp [h1, h2]

theorem view_noteWrite (w : World B) (g : Nat) : (w.noteWrite g).view = w.view ∧ (w.noteWrite g).rep = w.rep := by
  unfold World.noteWrite
  split
  · exact ⟨rfl, rfl⟩
  rename_i gd hg
  rw [join_eq_some] at hg
  refine ⟨?_, rfl⟩
  unfold World.view
  simp only [View.mk.injEq, true_and]
  constructor
  · funext x
    rw [List.getElem?_set]
    split
    · subst_vars
      rw [hg]
      rw [if_pos (List.getElem?_eq_some_iff.1 hg).1]
      rfl
    · rfl
  · funext o
    exact pinsOn_dirty hg true o

theorem view_fold (found : List (Nat × Content B)) (w : World B) : (found.foldl (fun w x => w.store x.1 x.2) w).view = w.view ∧ (found.foldl (fun w x => w.store x.1 x.2) w).rep = w.rep := by
  induction found generalizing w with
  | nil => exact ⟨rfl, rfl⟩
  | cons x found ih => exact ih (w.store x.1 x.2)

theorem writeOutC_safe {e : Env} {pid o : Nat} (h : S keep l k) : S keep l (writeOutC e pid o k) := by
  refine S.lock (S.look fun w _ _ => S.unlock ?_)
  split
  · exact h
  split
  · exact S.quiet (fun _ => ⟨rfl, rfl⟩) fun _ _ _ => S.lock (S.quiet (fun w => view_modify w _ _ (fun _ => rfl) (fun _ => rfl)) fun _ _ _ => S.unlock h)
  · exact h

theorem writeC_safe {g : Nat} {b : B} (h : S keep l k) : S keep l (writeC g b k) := by
  refine S.quiet (fun w => view_noteWrite w g) fun w _ _ => ?_
  split
  · exact h
  · exact S.lock (S.quiet (fun w => view_modify w _ _ (fun _ => rfl) (fun _ => rfl)) fun _ _ _ => S.unlock h)

theorem readC_safe {g : Nat} (h : S keep l k) : S keep l (readC g k) := by
  refine S.look fun w _ _ => ?_
  split
  · exact h
  · exact S.lock (S.unlock h)

theorem searchC_safe {pid : Nat} {k : Option Nat → Code B} (h : ∀ x, S keep l (k x)) : ∀ fs, S keep l (searchC pid k fs)
  | [] => S.unlock (h none)
  | f :: fs => by
    refine S.look fun w _ _ => ?_
    split
    · exact searchC_safe h fs
    refine S.lock (S.look fun w _ _ => S.unlock ?_)
    split
    · exact searchC_safe h fs
    split
    · exact S.unlock (h _)
    · exact searchC_safe h fs

theorem writePageC_safe {pid : Nat} {b : B} (h : S keep l k) : S keep l (writePageC pid b k) := by
  refine S.lock (S.look fun w _ _ => searchC_safe (fun x => ?_) _)
  cases x with
  | none => exact h
  | some o => exact S.lock (S.quiet (fun w => view_modify w _ _ (fun _ => rfl) (fun _ => rfl)) fun _ _ _ => S.unlock h)

theorem flushC_safe {e : Env} {pid : Nat} (h : S keep l k) : S keep l (flushC e pid k) := by
  refine S.lock (S.look fun w _ _ => S.unlock ?_)
  split
  · exact h
  refine S.lock (S.look fun w _ _ => S.unlock ?_)
  split
  · exact h
  · exact writeOutC_safe h

theorem collectC_safe {k : List (Nat × Content B) → Code B} (h : ∀ x, S keep l (k x)) : ∀ (fs : List Nat) (n : Nat) (found : List (Nat × Content B)), S keep l (collectC k n fs found)
  | [], n, found => by cases n <;> exact h _
  | f :: fs, 0, found => h _
  | f :: fs, n + 1, found => by
    unfold collectC
    refine S.look fun w _ _ => ?_
    split
    · exact collectC_safe h fs _ _
    refine S.lock (S.look fun w _ _ => S.unlock ?_)
    split
    · exact collectC_safe h fs _ _
    split
    · exact collectC_safe h fs _ _
    · exact collectC_safe h fs _ _

theorem clearC_safe (h : S keep l k) : ∀ found, S keep l (clearC k found)
  | [] => h
  | (pid, _) :: rest => by
    refine S.lock (S.look fun w _ _ => ?_)
    split
    · exact S.unlock (clearC_safe h rest)
    · exact S.lock (S.quiet (fun w => view_modify w _ _ (fun _ => rfl) (fun _ => rfl)) fun _ _ _ => S.unlock (S.unlock (clearC_safe h rest)))

theorem flushBatchC_safe {e : Env} {most : Nat} (h : S keep l k) : S keep l (flushBatchC e most k) := by
  refine S.lock (S.look fun w _ _ => collectC_safe (fun found => S.unlock ?_) _ _ _)
  split
  · exact h
  split
  · exact S.quiet (fun w => view_fold found w) fun _ _ _ => S.lock (clearC_safe (S.unlock h) _)
  · exact h

/-! ## Guards -/

theorem view_pos {w : World B} {o : Nat} : 0 < w.view.pins o ↔ ∃ g i, w.view.guards g = some (i, o) := by
  simp only [World.view]
  rw [pinsOn_pos]
  constructor
  · rintro ⟨g, gd, h1, rfl⟩
    exact ⟨g, gd.pid, by rw [h1]; rfl⟩
  · rintro ⟨g, i, h⟩
    rw [Option.map_eq_some_iff] at h
    obtain ⟨gd, h1, h2⟩ := h
    cases h2
    exact ⟨g, gd, join_eq_some.1 h1, rfl⟩

theorem good_hand {w : World B} {rest : Tok → Nat} {i f o : Nat} (hw : Good keep w (adds (.pin i f o :: l) rest)) :
    Good keep { w with guards := w.guards ++ [some ⟨i, o, false⟩] } (adds l rest) := by
  refine ⟨?_, hw.2⟩
  have := Books.hand (g := w.guards.length) hw.1 (by simp [World.view])
  refine Eq.mp (congrArg (Books keep · _) ?_) this
  unfold World.view
  simp only [View.mk.injEq, true_and]
  constructor
  · funext g
    unfold put
    split
    · subst_vars; simp
    · rename_i hg
      by_cases hl : g < w.guards.length
      · rw [List.getElem?_append_left hl]
      · have h1 : (w.guards ++ [some (⟨i, o, false⟩ : Guard)])[g]? = none := List.getElem?_eq_none (by simp; omega)
        have h2 : w.guards[g]? = none := List.getElem?_eq_none (by omega)
        simp only [h1, h2]
  · funext o'
    rw [pinsOn_append]
    unfold put
    by_cases ho : o' = o
    · subst ho; simp
    · simp [ho, Ne.symm ho]

theorem handOut_safe {i f o : Nat} (h : S keep l k) : S keep (.pin i f o :: l) (handOut i o k) := S.act (fun _ => l) (fun _ _ hw => good_hand hw) fun _ _ _ => h

theorem view_cnt (w : World B) (o : Nat) (g : Page B → Page B) (h1 : ∀ p, (g p).id = p.id) (c : Nat → Nat) (h2 : ∀ p, (g p).pin = c p.pin) {p : Page B} (hp : w.objs[o]? = some p) :
    (w.modifyObj o g).view = { w.view with cnt := put w.view.cnt o (c (w.view.cnt o)) } := by
  unfold World.view World.modifyObj
  simp only [View.mk.injEq, true_and, and_true]
  constructor
  · funext x
    rw [List.getElem?_modify]
    split <;> cases w.objs[x]? <;> simp [h1]
  · funext x
    rw [List.getElem?_modify]
    unfold put
    by_cases hx : x = o
    · subst hx
      rw [hp]
      simp [h2]
    · rw [if_neg hx]
      simp [Ne.symm hx]

theorem view_obj {w : World B} {o i : Nat} (h : w.view.objs o = some i) : ∃ p, w.objs[o]? = some p ∧ p.id = i ∧ w.view.cnt o = p.pin := by
  simp only [World.view] at h
  rw [Option.map_eq_some_iff] at h
  obtain ⟨p, h1, h2⟩ := h
  exact ⟨p, h1, h2, by simp [World.view, h1]⟩

theorem unpinC_safe {e : Env} {i f o : Nat} {dirty : Bool} (h : S keep l k) : S keep (.pin i f o :: l) (unpinC e i dirty k) := by
  refine S.lock (S.look fun w rest hw => S.unlock ?_)
  obtain ⟨h1, h2, h3⟩ := hw.1.pinE i f o (add_pos _ _)
  have ht : w.table.get i = some f := (hw.1.table i f).2 (.inl ⟨o, h1, h2, h3⟩)
  rw [ht]
  refine S.lock (S.look fun w rest hw => ?_)
  obtain ⟨h1, h2, h3⟩ := hw.1.pinE i f o (add_pos _ _)
  have hf : w.frame f = some o := frame_eq.2 h1
  simp only [hf]
  refine S.lock (S.quiet (fun w => ?_) fun w rest hw => ?_)
  · split
    · exact view_modify w _ _ (fun _ => rfl) (fun _ => rfl)
    · exact ⟨rfl, rfl⟩
  obtain ⟨h1, h2, h3⟩ := hw.1.pinE i f o (add_pos _ _)
  obtain ⟨p, hp, _, hc⟩ := view_obj h2
  have h0 := (Books.unpin hw.1).1
  simp only [hp]
  rw [if_pos (by rw [hc] at h0; exact h0)]
  refine S.act (fun _ => l) (fun w rest hw => ⟨?_, hw.2⟩) fun w _ _ => ?_
  · obtain ⟨_, h2, _⟩ := hw.1.pinE i f o (add_pos _ _)
    obtain ⟨p, hp, _, _⟩ := view_obj h2
    rw [view_cnt w o _ (by intro; rfl) (fun n => n - 1) (by intro; rfl) hp]
    exact (Books.unpin hw.1).2
  · split
    · exact touchC_safe (S.unlock (S.unlock h))
    · exact S.unlock (S.unlock h)

theorem dropC_safe {e : Env} {g : Nat} (h : S keep l k) : S keep l (dropC e g k) := by
  refine S.act (fun w => match (w.guards[g]?).join with | none => l | some gd => .pin gd.pid ((w.table.get gd.pid).getD 0) gd.obj :: l) (fun w rest hw => ⟨?_, hw.2⟩) fun w rest hw => ?_
  · cases hg : (w.guards[g]?).join with
    | none =>
      simp only
      refine Eq.mp (congrArg (Books keep · _) ?_) hw.1
      unfold World.view
      simp only [View.mk.injEq, true_and]
      constructor
      · funext x
        rw [List.getElem?_set]
        split
        · subst_vars
          rw [hg]
          split <;> rfl
        · rfl
      · funext o
        cases hx : w.guards[g]? with
        | none => rw [List.set_eq_of_length_le (by rw [List.getElem?_eq_none_iff] at hx; exact hx)]
        | some x =>
          rw [hx] at hg
          cases x with
          | none =>
            congr 1
            apply List.ext_getElem?
            intro y
            rw [List.getElem?_set]
            split
            · subst_vars
              rw [hx, if_pos (List.getElem?_eq_some_iff.1 hx).1]
            · rfl
          | some gd => cases hg
    | some gd =>
      simp only
      have hv : w.view.guards g = some (gd.pid, gd.obj) := by simp [World.view, hg]
      obtain ⟨f, h1, h2, h3⟩ := hw.1.guards g _ _ hv
      have ht : w.table.get gd.pid = some f := (hw.1.table gd.pid f).2 (.inl ⟨gd.obj, h1, h2, h3⟩)
      rw [ht]
      have := Books.drop hw.1 hv ht (view_pos.2 ⟨g, _, hv⟩)
      refine Eq.mp (congrArg (Books keep · _) ?_) this
      rw [join_eq_some] at hg
      unfold World.view
      simp only [View.mk.injEq, true_and]
      constructor
      · funext x
        rw [List.getElem?_set]
        unfold put
        by_cases hx : x = g
        · subst hx
          rw [if_pos rfl, if_pos rfl, if_pos (List.getElem?_eq_some_iff.1 hg).1]
          rfl
        · rw [if_neg hx, if_neg (Ne.symm hx)]
      · funext o
        have := pinsOn_drop hg o
        unfold put
        by_cases ho : o = gd.obj
        · subst ho
          rw [if_pos rfl] at this ⊢
          omega
        · rw [if_neg (Ne.symm ho)] at this
          rw [if_neg ho]
          omega
  · cases hg : (w.guards[g]?).join with
    | none => exact h
    | some gd => exact unpinC_safe h

/-! ## Frames -/

theorem view_frames (w : World B) (f : Nat) (x : Option Nat) (hf : f < w.frames.length) : (fun g => (w.frames.set f x)[g]?) = put (fun g => w.frames[g]?) f (some x) := by
  funext g
  rw [List.getElem?_set]
  unfold put
  by_cases hg : g = f
  · subst hg; simp [hf]
  · simp [hg, Ne.symm hg]

theorem getFrameC_safe {e : Env} {k : Option Nat → Code B} (h : ∀ f, S keep (.frame f :: l) (k (some f))) : S keep (.reserve :: l) (getFrameC e k) := by
  refine S.lock (S.act (fun w => .frame (w.free.getLast?.getD 0) :: l) (fun w rest hw => ⟨?_, hw.2⟩) fun w rest hw => S.unlock ?_)
  all_goals
    have hr := hw.1.reserve
    rw [adds_cons] at hr
    simp only [add, World.view, if_true] at hr
    have hne : w.free ≠ [] := by intro h0; rw [h0] at hr; simp at hr
    have hl := List.getLast?_eq_some_getLast hne
    rw [hl]
  · exact Books.take hw.1 (List.dropLast_concat_getLast hne).symm
  · exact h _

theorem evictIfNecessaryC_safe {e : Env} {f : Nat} (h : S keep (.frame f :: l) k) : S keep (.frame f :: l) (evictIfNecessaryC e f k) := by
  refine S.lock (S.look fun w rest hw => ?_)
  have h1 : w.frames[f]? = some none := (hw.1.frameE f (add_pos _ _)).1
  have : w.frame f = none := by unfold World.frame; rw [h1]; rfl
  rw [this]
  exact S.unlock h

theorem metadataC_safe {e : Env} {f i o : Nat} (h : S keep (.pin i f o :: l) k) : S keep (.frame f :: .obj i o :: l) (metadataC e f i o k) := by
  refine S.lock (S.look fun w rest hw => ?_)
  have h1 : w.frames[f]? = some none := (hw.1.frameE f (add_pos _ _)).1
  rw [if_pos (List.getElem?_eq_some_iff.1 h1).1]
  refine S.act (fun _ => .placed i f o :: l) (fun w rest hw => ⟨?_, hw.2⟩) fun _ _ _ => S.unlock (S.lock (S.act (fun _ => .pin i f o :: l) (fun w rest hw => ⟨?_, hw.2⟩) fun _ _ _ =>
    S.unlock (touchC_safe h)))
  · have h1 : w.frames[f]? = some none := (hw.1.frameE f (add_pos _ _)).1
    refine Eq.mp (congrArg (Books keep · _) ?_) (Books.place hw.1)
    unfold World.view
    simp only [View.mk.injEq, true_and, and_true]
    exact (view_frames w f (some o) (List.getElem?_eq_some_iff.1 h1).1).symm
  · refine Eq.mp (congrArg (Books keep · _) ?_) (Books.enter hw.1 view_pos.1)
    unfold World.view
    simp only [View.mk.injEq, true_and, and_true]
    funext j
    rw [AMap.get_set]
    unfold put
    by_cases hj : j = i
    · subst hj; simp
    · simp [hj, Ne.symm hj]

theorem view_new (w : World B) (p : Page B) : (fun o => ((w.objs ++ [p])[o]?).map (·.id)) = put w.view.objs w.objs.length (some p.id) ∧
    (fun o => (((w.objs ++ [p])[o]?).map (·.pin)).getD 0) = put w.view.cnt w.objs.length p.pin := by
  constructor
  all_goals
    funext o
    unfold put
    by_cases ho : o = w.objs.length
    · subst ho; simp
    · rw [if_neg ho]
      simp only [World.view]
      by_cases hl : o < w.objs.length
      · rw [List.getElem?_append_left hl]
      · have h1 : (w.objs ++ [p])[o]? = none := List.getElem?_eq_none (by simp; omega)
        have h2 : w.objs[o]? = none := List.getElem?_eq_none (by omega)
        rw [h1, h2]

theorem newPageC_safe {e : Env} {c : Content B} (h : S keep l k) : S keep (.reserve :: l) (newPageC e c k) := by
  refine getFrameC_safe fun f => evictIfNecessaryC_safe ?_
  refine S.act (fun w => .frame f :: .obj w.next w.objs.length :: l) (fun w rest hw => ⟨?_, hw.2⟩) fun w rest hw => metadataC_safe (S.lock (S.unlock (handOut_safe h)))
  have := Books.create (o := w.objs.length) hw.1 (by simp [World.view])
  refine Eq.mp (congr (congrArg (Books keep) ?_) ?_) this
  · have := view_new w ⟨w.next, c, 1, false⟩
    unfold World.view at *
    simp only [View.mk.injEq, true_and, and_true] at *
    exact ⟨this.1.symm, this.2.symm⟩
  · simp only [adds_cons]
    exact add_add _ _ _

/-! ## Pages that only this thread fetches or deletes -/

theorem swap_count (a b : Tok) (l : List Tok) (x : Tok) : (a :: b :: l).count x = (b :: a :: l).count x := by simp only [List.count_cons]; omega

theorem S.swap {a b : Tok} (h : S keep (a :: b :: l) p) : S keep (b :: a :: l) p := S.perm h (swap_count a b l)

/-- What the thread knows of the page may be forgotten, if the state allows it. -/
theorem S.exchange {t t' : Tok} (h1 : ∀ (w : World B) rest, Books keep w.view (add t (adds l rest)) → Books keep w.view (add t' (adds l rest)))
    (h2 : ∃ i s s', t = .right i s ∧ t' = .right i s' ∧ ∀ f, s ≠ .gone f) (h : S keep (t' :: l) p) : S keep (t :: l) p := by
  refine Safe.exchange h (fun w rest hw => ?_) ?_
  · rw [← adds_count, adds_cons] at hw ⊢
    exact ⟨h1 w rest hw.1, hw.2⟩
  · obtain ⟨i, s, s', rfl, rfl, hs⟩ := h2
    rintro ⟨a, b, c, d⟩
    refine ⟨fun i o => ?_, fun i f o => ?_, fun i f o => ?_, fun j f => ?_⟩
    · simpa using a i o
    · simpa using b i f o
    · simpa using c i f o
    · have := d j f
      simp only at this ⊢
      rw [List.count_cons] at this ⊢
      rw [if_neg (by simp; intro _; exact hs f)]
      omega

theorem S.any_of_absent {i : Nat} (h : S keep (.right i .any :: l) p) : S keep (.right i .absent :: l) p :=
  S.exchange (fun _ _ h => Books.forgetAbsent h) ⟨i, _, _, rfl, rfl, by simp⟩ h

theorem S.any_of_at {i f o : Nat} (h : S keep (.right i .any :: l) p) : S keep (.right i (.at_ f o) :: l) p :=
  S.exchange (fun _ _ h => Books.forgetAt h) ⟨i, _, _, rfl, rfl, by simp⟩ h

theorem handLoaded_safe {i f o : Nat} (h : S keep (.right i .any :: l) k) : S keep (.pin i f o :: .right i .busy :: l) (handOut i o k) := by
  refine S.act (fun _ => .right i .any :: l) (fun w rest hw => ?_) fun _ _ _ => h
  have hw1 : Good keep w (adds (.pin i f o :: .right i .any :: l) rest) := by
    refine ⟨?_, hw.2⟩
    have := hw.1
    simp only [adds_cons] at this ⊢
    rw [add_add] at this ⊢
    exact Books.loaded this
  exact good_hand hw1

theorem loadC_safe {e : Env} {ty i : Nat} (h : S keep (.right i .any :: l) k) : S keep (.right i .absent :: .reserve :: l) (loadC e ty i k) := by
  refine S.swap (getFrameC_safe fun f => evictIfNecessaryC_safe (S.look fun w _ _ => ?_))
  split
  · exact S.spare (S.any_of_absent h) (.inr ⟨f, rfl⟩)
  rename_i c _
  split
  · refine S.act (fun w => .frame f :: .obj i w.objs.length :: .right i .busy :: l) (fun w rest hw => ⟨?_, hw.2⟩) fun w rest hw =>
      S.lock (S.unlock (S.lock (S.unlock (metadataC_safe (handLoaded_safe h)))))
    have hb := hw.1
    rw [adds_cons, adds_cons, add_add] at hb
    have := Books.load (o := w.objs.length) hb (by simp [World.view])
    refine Eq.mp (congr (congrArg (Books keep) ?_) ?_) this
    · have := view_new w ⟨i, c, 1, true⟩
      unfold World.view at *
      simp only [View.mk.injEq, true_and, and_true] at *
      exact ⟨this.1.symm, this.2.symm⟩
    · simp only [adds_cons]
      rw [add_add (.right i .busy), add_add (.right i .busy), add_add (.obj i _)]
  · exact S.spare (S.any_of_absent h) (.inr ⟨f, rfl⟩)

/-- A page that is in memory: it is pinned and a guard is handed out. `t` is what the thread knows of the page before, `t'` after. -/
theorem fetchResidentC_safe {e : Env} {ty i f o : Nat} {a b : List Tok} (h0 : ∀ (w : World B) rest, Good keep w (adds a rest) → w.view.objs o = some i)
    (h1 : ∀ (w : World B) rest, Good keep w (adds a rest) → Books keep { w.view with cnt := put w.view.cnt o (w.view.cnt o + 1) } (add (.pin i f o) (adds b rest)))
    (h2 : S keep a k) (h3 : S keep b k) : S keep a (fetchResidentC e ty i o k) := by
  refine S.lock (S.look fun w rest hw => S.unlock ?_)
  obtain ⟨p, hp, _, _⟩ := view_obj (h0 w rest hw)
  rw [hp]
  simp only
  split
  · exact h2
  have hpin : S keep a (.lock (.page o) .write (.act (·.modifyObj o fun p => { p with pin := p.pin + 1 }) fun _ => .unlock (.page o) .write (handOut i o k)) : Code B) := by
    refine S.lock (S.act (fun _ => .pin i f o :: b) (fun w rest hw => ⟨?_, hw.2⟩) fun _ _ _ => S.unlock (handOut_safe h3))
    obtain ⟨p, hp, _, _⟩ := view_obj (h0 w rest hw)
    rw [view_cnt w o _ (by intro; rfl) (fun n => n + 1) (by intro; rfl) hp]
    exact h1 w rest hw
  refine S.lock (S.look fun w rest hw => ?_)
  split
  · exact touchC_safe (S.unlock hpin)
  · exact S.unlock hpin

/-- Fetching a page that no other thread fetches or deletes. -/
theorem fetchMineC_safe {e : Env} {ty i : Nat} (h : S keep (.right i .any :: l) k) : S keep (.right i .any :: .reserve :: l) (fetchPageC e ty i k) := by
  have hk : S keep (.right i .any :: .reserve :: l) k := S.swap (S.spare h (.inl rfl))
  refine S.look fun w _ _ => ?_
  split
  · exact hk
  refine S.lock (S.act (f := id) (fun w => match w.table.get i with | none => .right i .absent :: .reserve :: l | some f => .right i (.at_ f ((w.frame f).getD 0)) :: .reserve :: l)
    (fun w rest hw => ⟨?_, hw.2⟩) fun w rest hw => ?_)
  · cases ht : w.table.get i with
    | none => exact Books.notThere hw.1 ht
    | some f =>
      obtain ⟨o, h1, _, h3⟩ := Books.there hw.1 ht
      have : w.frame f = some o := frame_eq.2 h1
      simp only [this]
      exact h3
  · cases ht : w.table.get i with
    | none => exact S.unlock (loadC_safe h)
    | some f =>
      simp only
      obtain ⟨o, h1, _, h3⟩ := Books.there hw.1 ht
      have hf : w.frame f = some o := frame_eq.2 h1
      rw [hf]
      refine S.lock (S.look fun w rest hw => ?_)
      have h1 : w.frames[f]? = some (some o) := (hw.1.at_ i f o (add_pos _ _)).1
      rw [if_pos (List.getElem?_eq_some_iff.1 h1).1, frame_eq.2 h1]
      refine S.unlock (S.unlock (fetchResidentC_safe (b := .right i .any :: .reserve :: l) (fun w rest hw => (hw.1.at_ i f o (add_pos _ _)).2) (fun w rest hw => Books.pinMine hw.1)
        (S.any_of_at hk) hk))

/-- Fetching a page in memory that nobody deletes. -/
theorem fetchKeptC_safe {e : Env} {ty i f o : Nat} (hk : keep i = some (f, o)) (h : S keep l k) : S keep l (fetchPageC e ty i k) := by
  refine S.look fun w _ _ => ?_
  split
  · exact h
  refine S.lock (S.look fun w rest hw => ?_)
  obtain ⟨h1, h2, h3⟩ := hw.1.keep i f o hk
  have ht : w.table.get i = some f := (hw.1.table i f).2 (.inl ⟨o, h1, h2, h3⟩)
  rw [ht]
  refine S.lock (S.look fun w rest hw => ?_)
  have h1 : w.frames[f]? = some (some o) := (hw.1.keep i f o hk).1
  rw [if_pos (List.getElem?_eq_some_iff.1 h1).1, frame_eq.2 h1]
  exact S.unlock (S.unlock (fetchResidentC_safe (f := f) (fun w rest hw => (hw.1.keep i f o hk).2.1) (fun w rest hw => Books.pinKept hw.1 hk) h h))

theorem deleteFrameC_safe {i f o : Nat} (h : S keep (.right i .any :: l) k) : S keep (.right i (.idle f o) :: l) (deleteFrameC f i k) := by
  refine S.lock (S.look fun w rest hw => ?_)
  have h1 : w.frames[f]? = some (some o) := (hw.1.idle i f o (add_pos _ _)).1
  rw [if_pos (List.getElem?_eq_some_iff.1 h1).1]
  refine S.act (fun _ => .right i (.gone f) :: l) (fun w rest hw => ⟨?_, hw.2⟩) fun _ _ _ => S.unlock (S.lock
    (S.act (fun _ => .frame f :: .right i .any :: l) (fun w rest hw => ⟨?_, hw.2⟩) fun _ _ _ => S.unlock (S.lock
      (S.act (fun _ => .right i .any :: l) (fun w rest hw => ⟨Books.give hw.1, hw.2⟩) fun _ _ _ => S.unlock (S.lock (S.rep (fun w hw => remove_size f hw) fun _ => S.unlock h))))))
  · have h1 : w.frames[f]? = some (some o) := (hw.1.idle i f o (add_pos _ _)).1
    refine Eq.mp (congrArg (Books keep · _) ?_) (Books.empty hw.1 fun g j hg => view_pos.2 ⟨g, j, hg⟩)
    unfold World.view
    simp only [View.mk.injEq, true_and, and_true]
    exact (view_frames w f none (List.getElem?_eq_some_iff.1 h1).1).symm
  · refine Eq.mp (congrArg (Books keep · _) ?_) (Books.erase hw.1)
    unfold World.view
    simp only [View.mk.injEq, true_and, and_true]
    funext j
    rw [AMap.get_erase]
    unfold put
    by_cases hj : j = i
    · subst hj; simp
    · simp [hj, Ne.symm hj]

/-- Deleting a page that no other thread fetches or deletes. -/
theorem deleteC_safe {i : Nat} (h : S keep (.right i .any :: l) k) : S keep (.right i .any :: l) (deleteC i k) := by
  refine S.lock (S.act (f := id) (fun w => match w.table.get i with | none => .right i .any :: l | some f => .right i (.at_ f ((w.frame f).getD 0)) :: l)
    (fun w rest hw => ⟨?_, hw.2⟩) fun w rest hw => S.unlock ?_)
  · cases ht : w.table.get i with
    | none => exact hw.1
    | some f =>
      obtain ⟨o, h1, _, h3⟩ := Books.there hw.1 ht
      have : w.frame f = some o := frame_eq.2 h1
      simp only [this]
      exact h3
  · cases ht : w.table.get i with
    | none => exact h
    | some f =>
      simp only
      obtain ⟨o, h1, _, h3⟩ := Books.there hw.1 ht
      have hf : w.frame f = some o := frame_eq.2 h1
      rw [hf]
      refine S.lock (S.look fun w rest hw => ?_)
      have h1 : w.frames[f]? = some (some o) := (hw.1.at_ i f o (add_pos _ _)).1
      rw [frame_eq.2 h1]
      refine S.lock (S.act (f := id) (fun w => if ((w.objs[o]?).map (·.pin)).getD 0 > 0 then .right i (.at_ f o) :: l else .right i (.idle f o) :: l)
        (fun w rest hw => ⟨?_, hw.2⟩) fun w rest hw => S.unlock (S.unlock ?_))
      · split
        · exact hw.1
        · rename_i hc
          exact Books.unused hw.1 (by simp only [World.view, id_eq]; omega)
      · obtain ⟨p, hp, _, _⟩ := view_obj (hw.1.at_ i f o (add_pos _ _)).2
        rw [hp]
        simp only [Option.map_some, Option.getD_some]
        split
        · exact S.any_of_at h
        · exact deleteFrameC_safe h

end Verif.Pool

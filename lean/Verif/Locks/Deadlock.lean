import Verif.Base.AMap
import Verif.Locks.Queue

/-!
# Deadlock detector (`DeadlockDetector`, `src/concurrency/lock_manager.rs`)
-/

namespace Verif.Locks

/-- The waits-for graph (lock_manager.rs:281). -/
abbrev Graph := AMap TxnId (List TxnId)

/-- How a search ends. `outOfFuel` is not an outcome of the code: the recursion there has no counter, and
`C13_search_terminates` shows the counter never runs out. -/
inductive Search where
  | found (victim : TxnId)
  | done (visited : List TxnId)
  | outOfFuel
  deriving DecidableEq, Repr

/-- `path.iter().skip_while(|x| x != next).max().unwrap_or(next)` (lock_manager.rs:610-614). -/
def victimOf (path : List TxnId) (next : TxnId) : TxnId :=
  match path.dropWhile (· != next) with
  | [] => next
  | x :: xs => xs.foldl max x

/-- The loop over the edges of one node (lock_manager.rs:607-622). The set `on_path` has the same elements as
the vector `path`: they are pushed and popped together. -/
def edgeLoop (rec : TxnId → List TxnId → Search) (path : List TxnId) : List TxnId → List TxnId → Search
  | [], visited => .done visited
  | next :: es, visited =>
    if next ∈ path then .found (victimOf path next)
    else if next ∈ visited then edgeLoop rec path es visited
    else match rec next visited with
      | .done visited' => edgeLoop rec path es visited'
      | r => r

/-- `dfs_cycle` (lock_manager.rs:594-628). -/
def dfs (g : Graph) : Nat → List TxnId → TxnId → List TxnId → Search
  | 0, _, _, _ => .outOfFuel
  | n + 1, path, curr, visited =>
    match g.get curr with
    | none => .done (curr :: visited)
    | some es => edgeLoop (dfs g n (path ++ [curr])) (path ++ [curr]) es (curr :: visited)

/-- The loop over the keys (lock_manager.rs:577-590), in the order `keys`. -/
def keyLoop (g : Graph) (fuel : Nat) : List TxnId → List TxnId → Search
  | [], visited => .done visited
  | k :: ks, visited =>
    if k ∈ visited then keyLoop g fuel ks visited
    else match dfs g fuel [] k visited with
      | .done visited' => keyLoop g fuel ks visited'
      | r => r

/-- All transactions mentioned in the graph. -/
def nodes (g : Graph) : List TxnId := g.flatMap (fun e => e.1 :: e.2)

/-- `find_cycle_in_graph` (lock_manager.rs:572-592) when the hash map yields its keys in the order `keys`. -/
def findCycle (g : Graph) (keys : List TxnId) : Search := keyLoop g ((nodes g).length + 1) keys []

/-! ## Specification -/

/-- `a` waits for `b`. -/
def Waits (g : Graph) (a b : TxnId) : Prop := ∃ es, g.get a = some es ∧ b ∈ es

/-- Each transaction of the list waits for the next one. -/
def IsPath (g : Graph) : List TxnId → Prop
  | [] => True
  | [_] => True
  | a :: b :: l => Waits g a b ∧ IsPath g (b :: l)

/-- A deadlock: a non-empty list of transactions, each waiting for the next and the last for the first. -/
def IsCycle (g : Graph) (c : List TxnId) : Prop :=
  ∃ a l, c = a :: l ∧ IsPath g (a :: l ++ [a])

/-- A vector of keys a `HashMap` iteration may produce. -/
def KeyOrder (g : Graph) (keys : List TxnId) : Prop := ∀ k, k ∈ keys ↔ (g.get k).isSome

/-! ## Soundness -/

theorem isPath_append {g : Graph} {l1 l2 : List TxnId} {x : TxnId} :
    IsPath g (l1 ++ x :: l2) ↔ IsPath g (l1 ++ [x]) ∧ IsPath g (x :: l2) := by
  induction l1 with
  | nil => simp [IsPath]
  | cons a l ih =>
    cases l with
    | nil => cases l2 <;> simp [IsPath]
    | cons b l => simp only [List.cons_append, IsPath] at ih ⊢; rw [ih]; exact and_assoc.symm

theorem dropWhile_mem {p : List TxnId} {n : TxnId} (h : n ∈ p) :
    ∃ a b, p = a ++ n :: b ∧ p.dropWhile (· != n) = n :: b := by
  induction p with
  | nil => cases h
  | cons x p ih =>
    by_cases hx : x = n
    · subst hx; exact ⟨[], p, rfl, by simp⟩
    · obtain ⟨a, b, h1, h2⟩ := ih (by simpa [Ne.symm hx] using h)
      refine ⟨x :: a, b, by rw [h1]; rfl, ?_⟩
      rw [List.dropWhile_cons, if_pos (by simpa using hx)]; exact h2

theorem foldl_max (l : List Nat) : ∀ x : Nat,
    l.foldl max x ∈ x :: l ∧ ∀ y ∈ x :: l, y ≤ l.foldl max x := by
  induction l with
  | nil => intro x; simp
  | cons a l ih =>
    intro x
    simp only [List.foldl_cons]
    obtain ⟨h1, h2⟩ := ih (max x a)
    constructor
    · rcases List.mem_cons.1 h1 with h | h
      · rw [h]
        rcases Nat.le_total x a with hxa | hxa
        · rw [Nat.max_eq_right hxa]; simp
        · rw [Nat.max_eq_left hxa]; simp
      · simp [h]
    · have h3 := h2 (max x a) (by simp)
      intro y hy
      rcases List.mem_cons.1 hy with h | h
      · omega
      · rcases List.mem_cons.1 h with h | h
        · omega
        · exact h2 y (by simp [h])

/-- What a victim is: the greatest transaction of some deadlock. -/
def GoodVictim (g : Graph) (v : TxnId) : Prop := ∃ c, IsCycle g c ∧ v ∈ c ∧ ∀ u ∈ c, u ≤ v

theorem victim_good {g : Graph} {path : List TxnId} {curr next : TxnId}
    (hp : IsPath g (path ++ [curr])) (he : Waits g curr next) (hn : next ∈ path ++ [curr]) :
    GoodVictim g (victimOf (path ++ [curr]) next) := by
  obtain ⟨a, b, h1, h2⟩ := dropWhile_mem hn
  unfold victimOf
  rw [h2]
  obtain ⟨h3, h4⟩ := foldl_max b next
  refine ⟨next :: b, ⟨next, b, rfl, ?_⟩, h3, h4⟩
  rw [h1, isPath_append] at hp
  have hlast : next :: b = (next :: b).dropLast ++ [curr] := by
    have h5 := congrArg List.getLast? h1
    simp only [List.getLast?_append, List.getLast?_singleton, Option.some_or] at h5
    cases hh : (next :: b).getLast? with
    | none => simp at hh
    | some z =>
      rw [hh] at h5
      simp at h5
      subst h5
      have h6 := List.dropLast_concat_getLast (l := next :: b) (by simp)
      rw [List.getLast?_eq_some_getLast (by simp)] at hh
      simp only [Option.some.injEq] at hh
      rw [hh] at h6
      exact h6.symm
  rw [hlast, List.append_assoc]
  show IsPath g ((next :: b).dropLast ++ curr :: [next])
  rw [isPath_append]
  refine ⟨?_, he, trivial⟩
  rw [← hlast]; exact hp.2

theorem edgeLoop_found {g : Graph} {rec : TxnId → List TxnId → Search} {path : List TxnId} {curr : TxnId}
    (hp : IsPath g (path ++ [curr]))
    (hrec : ∀ n vis v, Waits g curr n → rec n vis = .found v → GoodVictim g v) (es : List TxnId) :
    ∀ vis v, (∀ n ∈ es, Waits g curr n) → edgeLoop rec (path ++ [curr]) es vis = .found v → GoodVictim g v := by
  induction es with
  | nil => intro vis v _ h; simp [edgeLoop] at h
  | cons n es ih =>
    intro vis v hes h
    have hn := hes n (by simp)
    have hes' : ∀ n ∈ es, Waits g curr n := fun m hm => hes m (by simp [hm])
    unfold edgeLoop at h
    split at h
    · next hin => cases h; exact victim_good hp hn hin
    · split at h
      · exact ih vis v hes' h
      · split at h
        · exact ih _ v hes' h
        · exact hrec n vis v hn h

theorem dfs_found {g : Graph} (n : Nat) : ∀ path curr vis v, IsPath g (path ++ [curr]) →
    dfs g n path curr vis = .found v → GoodVictim g v := by
  induction n with
  | zero => intro path curr vis v _ h; simp [dfs] at h
  | succ n ih =>
    intro path curr vis v hp h
    unfold dfs at h
    split at h
    · cases h
    · next es hes =>
      refine edgeLoop_found hp ?_ es _ v (fun m hm => ⟨es, hes, hm⟩) h
      intro m vis v hw hf
      refine ih _ m vis v ?_ hf
      rw [List.append_assoc]
      show IsPath g (path ++ curr :: [m])
      rw [isPath_append]
      exact ⟨hp, hw, trivial⟩

theorem keyLoop_found {g : Graph} {fuel : Nat} (ks : List TxnId) : ∀ vis v,
    keyLoop g fuel ks vis = .found v → GoodVictim g v := by
  induction ks with
  | nil => intro vis v h; simp [keyLoop] at h
  | cons k ks ih =>
    intro vis v h
    unfold keyLoop at h
    split at h
    · exact ih vis v h
    · split at h
      · exact ih _ v h
      · exact dfs_found fuel [] k vis v trivial h

/-! ## Completeness -/

/-- At least one step along edges. -/
inductive Plus (g : Graph) : TxnId → TxnId → Prop where
  | one {a b} : Waits g a b → Plus g a b
  | step {a b c} : Waits g a b → Plus g b c → Plus g a c

/-- What holds of the visited set between steps of the search: finished nodes (visited, not on the path) only
lead to finished nodes and lie on no cycle. -/
structure SInv (g : Graph) (vis path : List TxnId) : Prop where
  sub : ∀ x ∈ path, x ∈ vis
  closed : ∀ x ∈ vis, x ∉ path → ∀ y, Waits g x y → y ∈ vis ∧ y ∉ path
  acyc : ∀ x ∈ vis, x ∉ path → ¬ Plus g x x

theorem plus_closed {g : Graph} {vis path : List TxnId} (h : SInv g vis path) {a b : TxnId} (hp : Plus g a b) :
    a ∈ vis → a ∉ path → b ∈ vis ∧ b ∉ path := by
  induction hp with
  | one hw => intro h1 h2; exact h.closed _ h1 h2 _ hw
  | step hw _ ih => intro h1 h2; obtain ⟨h3, h4⟩ := h.closed _ h1 h2 _ hw; exact ih h3 h4

theorem edgeLoop_done {g : Graph} {rec : TxnId → List TxnId → Search} {path : List TxnId}
    (hrec : ∀ n vis vis', SInv g vis path → n ∉ vis → rec n vis = .done vis' →
      SInv g vis' path ∧ (∀ x ∈ vis, x ∈ vis') ∧ n ∈ vis') (es : List TxnId) :
    ∀ vis vis', SInv g vis path → edgeLoop rec path es vis = .done vis' →
      SInv g vis' path ∧ (∀ x ∈ vis, x ∈ vis') ∧ ∀ n ∈ es, n ∈ vis' ∧ n ∉ path := by
  induction es with
  | nil =>
    intro vis vis' h hd
    simp only [edgeLoop, Search.done.injEq] at hd
    subst hd
    exact ⟨h, fun x hx => hx, by simp⟩
  | cons n es ih =>
    intro vis vis' h hd
    unfold edgeLoop at hd
    split at hd
    · cases hd
    · next hnp =>
      split at hd
      · next hv =>
        obtain ⟨h1, h2, h3⟩ := ih vis vis' h hd
        refine ⟨h1, h2, fun m hm => ?_⟩
        rcases List.mem_cons.1 hm with hm | hm
        · subst hm; exact ⟨h2 _ hv, hnp⟩
        · exact h3 m hm
      · next hv =>
        split at hd
        · next vis1 hr =>
          obtain ⟨g1, g2, g3⟩ := hrec n vis vis1 h hv hr
          obtain ⟨h1, h2, h3⟩ := ih vis1 vis' g1 hd
          refine ⟨h1, fun x hx => h2 x (g2 x hx), fun m hm => ?_⟩
          rcases List.mem_cons.1 hm with hm | hm
          · subst hm; exact ⟨h2 _ g3, hnp⟩
          · exact h3 m hm
        · next hne => exact absurd hd (fun he => hne _ he)

theorem sinv_push {g : Graph} {vis path : List TxnId} {curr : TxnId} (h : SInv g vis path) (hc : curr ∉ vis) :
    SInv g (curr :: vis) (path ++ [curr]) := by
  constructor
  · intro x hx
    rcases List.mem_append.1 hx with hx | hx
    · exact List.mem_cons_of_mem _ (h.sub x hx)
    · simp at hx; simp [hx]
  · intro x hx hxp y hw
    have hxp' : x ∉ path := fun hh => hxp (List.mem_append_left _ hh)
    have hxc : x ≠ curr := by rintro rfl; exact hxp (by simp)
    have hxv : x ∈ vis := by simpa [hxc] using hx
    obtain ⟨h1, h2⟩ := h.closed x hxv hxp' y hw
    refine ⟨List.mem_cons_of_mem _ h1, ?_⟩
    have : y ≠ curr := by rintro rfl; exact hc h1
    simp [h2, this]
  · intro x hx hxp
    have hxp' : x ∉ path := fun hh => hxp (List.mem_append_left _ hh)
    have hxc : x ≠ curr := by rintro rfl; exact hxp (by simp)
    have hxv : x ∈ vis := by simpa [hxc] using hx
    exact h.acyc x hxv hxp'

theorem dfs_done {g : Graph} (n : Nat) : ∀ path curr vis vis', SInv g vis path → curr ∉ vis →
    dfs g n path curr vis = .done vis' →
    SInv g vis' path ∧ (∀ x ∈ vis, x ∈ vis') ∧ curr ∈ vis' := by
  induction n with
  | zero => intro path curr vis vis' _ _ h; simp [dfs] at h
  | succ n ih =>
    intro path curr vis vis' hi hc h
    have hcp : curr ∉ path := fun hh => hc (hi.sub _ hh)
    unfold dfs at h
    split at h
    · next hn =>
      simp only [Search.done.injEq] at h
      subst h
      have hno : ∀ y, ¬ Waits g curr y := by rintro y ⟨es, he, _⟩; rw [hn] at he; cases he
      refine ⟨⟨fun x hx => List.mem_cons_of_mem _ (hi.sub x hx), ?_, ?_⟩, fun x hx => List.mem_cons_of_mem _ hx, by simp⟩
      · intro x hx hxp y hw
        rcases List.mem_cons.1 hx with hx | hx
        · subst hx; exact absurd hw (hno y)
        · obtain ⟨h1, h2⟩ := hi.closed x hx hxp y hw
          exact ⟨List.mem_cons_of_mem _ h1, h2⟩
      · intro x hx hxp hpl
        rcases List.mem_cons.1 hx with hx | hx
        · subst hx
          cases hpl with
          | one hw => exact hno _ hw
          | step hw _ => exact hno _ hw
        · exact hi.acyc x hx hxp hpl
    · next es hes =>
      obtain ⟨h1, h2, h3⟩ := edgeLoop_done (fun m v v' => ih (path ++ [curr]) m v v') es _ vis'
        (sinv_push hi hc) h
      have hcv : curr ∈ vis' := h2 _ (by simp)
      refine ⟨⟨fun x hx => h1.sub x (List.mem_append_left _ hx), ?_, ?_⟩,
        fun x hx => h2 x (List.mem_cons_of_mem _ hx), hcv⟩
      · intro x hx hxp y hw
        by_cases hxc : x = curr
        · subst hxc
          obtain ⟨es', he', hy⟩ := hw
          rw [hes] at he'; cases he'
          obtain ⟨h4, h5⟩ := h3 y hy
          exact ⟨h4, fun hh => h5 (List.mem_append_left _ hh)⟩
        · obtain ⟨h4, h5⟩ := h1.closed x hx (by simp [hxp, hxc]) y hw
          exact ⟨h4, fun hh => h5 (List.mem_append_left _ hh)⟩
      · intro x hx hxp hpl
        by_cases hxc : x = curr
        · subst hxc
          cases hpl with
          | one hw =>
            obtain ⟨es', he', hy⟩ := hw
            rw [hes] at he'; cases he'
            exact (h3 _ hy).2 (by simp)
          | step hw hp =>
            obtain ⟨es', he', hy⟩ := hw
            rw [hes] at he'; cases he'
            obtain ⟨h4, h5⟩ := h3 _ hy
            exact (plus_closed h1 hp h4 h5).2 (by simp)
        · exact h1.acyc x hx (by simp [hxp, hxc]) hpl

theorem keyLoop_done {g : Graph} {fuel : Nat} (ks : List TxnId) : ∀ vis vis', SInv g vis [] →
    keyLoop g fuel ks vis = .done vis' → SInv g vis' [] ∧ (∀ x ∈ vis, x ∈ vis') ∧ ∀ k ∈ ks, k ∈ vis' := by
  induction ks with
  | nil => intro vis vis' h hd; simp only [keyLoop, Search.done.injEq] at hd; subst hd; exact ⟨h, fun x hx => hx, by simp⟩
  | cons k ks ih =>
    intro vis vis' h hd
    unfold keyLoop at hd
    split at hd
    · next hv =>
      obtain ⟨h1, h2, h3⟩ := ih vis vis' h hd
      refine ⟨h1, h2, fun m hm => ?_⟩
      rcases List.mem_cons.1 hm with hm | hm
      · subst hm; exact h2 _ hv
      · exact h3 m hm
    · next hv =>
      split at hd
      · next vis1 hr =>
        obtain ⟨g1, g2, g3⟩ := dfs_done fuel [] k vis vis1 h hv hr
        obtain ⟨h1, h2, h3⟩ := ih vis1 vis' g1 hd
        refine ⟨h1, fun x hx => h2 x (g2 x hx), fun m hm => ?_⟩
        rcases List.mem_cons.1 hm with hm | hm
        · subst hm; exact h2 _ g3
        · exact h3 m hm
      · next hne => exact absurd hd (fun he => hne _ he)

theorem path_plus {g : Graph} {b : TxnId} (l : List TxnId) : ∀ a, IsPath g (a :: l ++ [b]) → Plus g a b := by
  induction l with
  | nil => intro a h; exact Plus.one h.1
  | cons c l ih => intro a h; exact Plus.step h.1 (ih c h.2)

theorem plus_head {g : Graph} {a b : TxnId} (h : Plus g a b) : (g.get a).isSome := by
  cases h with
  | one hw => obtain ⟨es, he, _⟩ := hw; simp [he]
  | step hw _ => obtain ⟨es, he, _⟩ := hw; simp [he]

/-! ## Termination -/

/-- Nodes still to visit. -/
def todo (g : Graph) (vis : List TxnId) : Nat := ((nodes g).filter (fun x => decide (x ∉ vis))).length

theorem todo_mono {g : Graph} {vis vis' : List TxnId} (h : ∀ x ∈ vis, x ∈ vis') : todo g vis' ≤ todo g vis := by
  unfold todo
  generalize nodes g = l
  induction l with
  | nil => simp
  | cons a l ih =>
    by_cases h1 : a ∈ vis
    · simp [h1, h a h1]; simpa using ih
    · by_cases h2 : a ∈ vis'
      · simp [h1, h2]; simp at ih; omega
      · simp [h1, h2]; simpa using ih

theorem todo_lt {g : Graph} {vis : List TxnId} {c : TxnId} (hc : c ∉ vis) (hn : c ∈ nodes g) :
    todo g (c :: vis) < todo g vis := by
  unfold todo
  revert hn
  generalize nodes g = l
  intro hn
  induction l with
  | nil => cases hn
  | cons a l ih =>
    have hm : (l.filter (fun x => decide (x ∉ c :: vis))).length ≤ (l.filter (fun x => decide (x ∉ vis))).length := by
      clear ih hn
      induction l with
      | nil => simp
      | cons b l ih =>
        by_cases h1 : b ∈ vis
        · simp [h1]; simpa using ih
        · by_cases h2 : b = c
          · simp [h2, hc]; simp at ih; omega
          · simp [h1, h2]; simpa using ih
    by_cases ha : a = c
    · subst ha
      simp [hc]; simp at hm; omega
    · have := ih (by simpa [Ne.symm ha] using hn)
      by_cases h1 : a ∈ vis
      · simp [h1]; simpa using this
      · simp [h1, ha]; simpa using this

theorem waits_nodes {g : Graph} {a b : TxnId} (h : Waits g a b) : b ∈ nodes g := by
  obtain ⟨es, he, hb⟩ := h
  have := AMap.mem_of_get he
  exact List.mem_flatMap.2 ⟨_, this, by simp [hb]⟩

theorem edgeLoop_fuel {g : Graph} {rec : TxnId → List TxnId → Search} {path : List TxnId} {n : Nat}
    (hrec : ∀ m vis, m ∈ nodes g → m ∉ vis → todo g vis ≤ n → rec m vis ≠ .outOfFuel)
    (hrecs : ∀ m vis vis', rec m vis = .done vis' → ∀ x ∈ vis, x ∈ vis') (es : List TxnId) :
    ∀ vis, (∀ m ∈ es, m ∈ nodes g) → todo g vis ≤ n → edgeLoop rec path es vis ≠ .outOfFuel := by
  induction es with
  | nil => intro vis _ _; simp [edgeLoop]
  | cons m es ih =>
    intro vis hes hn
    have hes' : ∀ m ∈ es, m ∈ nodes g := fun k hk => hes k (by simp [hk])
    unfold edgeLoop
    split
    · simp
    · split
      · exact ih vis hes' hn
      · next hv =>
        split
        · next vis' hr => exact ih vis' hes' (Nat.le_trans (todo_mono (hrecs m vis vis' hr)) hn)
        · exact hrec m vis (hes m (by simp)) hv hn

theorem edgeLoop_grows {rec : TxnId → List TxnId → Search} {path : List TxnId}
    (hrecs : ∀ m vis vis', rec m vis = .done vis' → ∀ x ∈ vis, x ∈ vis') (es : List TxnId) :
    ∀ vis vis', edgeLoop rec path es vis = .done vis' → ∀ x ∈ vis, x ∈ vis' := by
  induction es with
  | nil => intro vis vis' h; simp only [edgeLoop, Search.done.injEq] at h; subst h; exact fun x hx => hx
  | cons m es ih =>
    intro vis vis' h x hx
    unfold edgeLoop at h
    split at h
    · cases h
    · split at h
      · exact ih vis vis' h x hx
      · split at h
        · next v1 hr => exact ih v1 vis' h x (hrecs m vis v1 hr x hx)
        · next hne => exact absurd h (fun he => hne _ he)

theorem dfs_grows {g : Graph} (n : Nat) : ∀ path c vis vis', dfs g n path c vis = .done vis' →
    ∀ x ∈ vis, x ∈ vis' := by
  induction n with
  | zero => intro path c vis vis' h; simp [dfs] at h
  | succ n ih =>
    intro path c vis vis' h x hx
    unfold dfs at h
    split at h
    · simp only [Search.done.injEq] at h; subst h; exact List.mem_cons_of_mem _ hx
    · exact edgeLoop_grows (fun m v v' => ih _ m v v') _ _ _ h x (List.mem_cons_of_mem _ hx)

theorem dfs_fuel {g : Graph} (n : Nat) : ∀ path c vis, c ∈ nodes g → c ∉ vis → todo g vis ≤ n →
    dfs g n path c vis ≠ .outOfFuel := by
  induction n with
  | zero =>
    intro path c vis hc hv hn
    have := todo_lt hv hc
    omega
  | succ n ih =>
    intro path c vis hc hv hn
    unfold dfs
    split
    · simp
    · next es hes =>
      refine edgeLoop_fuel (g := g) (n := n) (fun m v => ih _ m v) (fun m v v' => dfs_grows n _ m v v') es _
        (fun m hm => waits_nodes ⟨es, hes, hm⟩) ?_
      have := todo_lt hv hc
      omega

theorem keyLoop_fuel {g : Graph} {fuel : Nat} (hf : (nodes g).length ≤ fuel) (ks : List TxnId) : ∀ vis,
    (∀ k ∈ ks, k ∈ nodes g) → keyLoop g fuel ks vis ≠ .outOfFuel := by
  induction ks with
  | nil => intro vis _; simp [keyLoop]
  | cons k ks ih =>
    intro vis hk
    unfold keyLoop
    split
    · exact ih vis (fun k h => hk k (by simp [h]))
    · next hv =>
      split
      · exact ih _ (fun k h => hk k (by simp [h]))
      · exact dfs_fuel fuel [] k vis (hk k (by simp)) hv (Nat.le_trans (List.length_filter_le _ _) hf)

/-! ## Property -/

/-- The search always ends. -/
theorem C13_search_terminates (g : Graph) (keys : List TxnId) (hk : KeyOrder g keys) :
    findCycle g keys ≠ .outOfFuel := by
  refine keyLoop_fuel (Nat.le_succ _) keys [] ?_
  intro k h
  have h1 := (hk k).1 h
  cases he : g.get k with
  | none => rw [he] at h1; cases h1
  | some es => exact List.mem_flatMap.2 ⟨_, AMap.mem_of_get he, by simp⟩

/-- C13. Whatever the order in which the hash map yields its keys, a victim is reported exactly when the
waits-for graph contains a cycle. -/
theorem C13_detects_iff_cycle (g : Graph) (keys : List TxnId) (hk : KeyOrder g keys) :
    (∃ v, findCycle g keys = .found v) ↔ ∃ c, IsCycle g c := by
  constructor
  · rintro ⟨v, h⟩
    obtain ⟨c, hc, _⟩ := keyLoop_found keys [] v h
    exact ⟨c, hc⟩
  · rintro ⟨c, a, l, rfl, hp⟩
    cases hr : findCycle g keys with
    | found v => exact ⟨v, rfl⟩
    | outOfFuel => exact absurd hr (C13_search_terminates g keys hk)
    | done vis =>
      obtain ⟨h1, _, h3⟩ := keyLoop_done keys [] vis ⟨by simp, by simp, by simp⟩ hr
      have hpl := path_plus l a hp
      exact absurd hpl (h1.acyc a (h3 a ((hk a).2 (plus_head hpl))) (by simp))

/-- C13. The victim is the transaction with the greatest id of some cycle. -/
theorem C13_victim_is_greatest_on_a_cycle (g : Graph) (keys : List TxnId) (v : TxnId)
    (h : findCycle g keys = .found v) : ∃ c, IsCycle g c ∧ v ∈ c ∧ ∀ u ∈ c, u ≤ v :=
  keyLoop_found keys [] v h

/-- Two graphs, one with a cycle not through the first key. -/
example : findCycle [(1, [2]), (2, [5, 3]), (3, [2])] [1, 2, 3] = .found 3 := by decide
example : findCycle [(1, [2, 3]), (2, [3]), (3, [4])] [3, 1, 2] = .done [2, 1, 4, 3] := by decide

end Verif.Locks

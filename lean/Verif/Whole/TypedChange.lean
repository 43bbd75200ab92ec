import Verif.Whole.TypedLemmas

/-!
# INSERT and UPDATE in the values of SQL
-/

namespace Verif.Whole

open Verif.Wire Verif.Bytes Verif.Sql Verif.Exec Verif.Dml
open Verif.Catalog (Cat Tab Col ColDef FkDef ObjName)

/-! ## Lists -/

theorem list_ok {α β : Type} {f : α → PR β} {xs : List α} {ys : List β} (h : PR.list f xs = .ok ys) :
    ys.length = xs.length ∧ ∀ (i : Nat) x y, xs[i]? = some x → ys[i]? = some y → f x = .ok y := by
  induction xs generalizing ys with
  | nil => cases h; exact ⟨rfl, nofun⟩
  | cons a as ih =>
    obtain ⟨y, h1, h⟩ := bind_ok h
    obtain ⟨zs, h2, h⟩ := bind_ok h
    cases h
    obtain ⟨g1, g2⟩ := ih h2
    refine ⟨by simp [g1], fun i x z hx hz => ?_⟩
    cases i with
    | zero => cases hx; cases hz; exact h1
    | succ i => exact g2 i x z (by simpa using hx) (by simpa using hz)

theorem list_some {α β : Type} {f : α → PR β} {xs : List α} : (∃ ys, PR.list f xs = .ok ys) ↔ ∀ x ∈ xs, ∃ y, f x = .ok y := by
  induction xs with
  | nil => exact ⟨fun _ => nofun, fun _ => ⟨[], rfl⟩⟩
  | cons a as ih =>
    constructor
    · rintro ⟨ys, h⟩ x hx
      obtain ⟨y, h1, h⟩ := bind_ok h
      obtain ⟨zs, h2, h⟩ := bind_ok h
      rcases List.mem_cons.1 hx with rfl | hx
      · exact ⟨y, h1⟩
      · exact ih.1 ⟨zs, h2⟩ x hx
    · intro h
      obtain ⟨y, h1⟩ := h a List.mem_cons_self
      obtain ⟨ys, h2⟩ := ih.2 fun x hx => h x (List.mem_cons_of_mem _ hx)
      exact ⟨y :: ys, by simp only [PR.list, h1, h2, PR.bind]⟩

theorem list_split {α β : Type} {f : α → PR β} {pre : List β} {y : β} {post : List β} {xs : List α} (h : PR.list f xs = .ok (pre ++ y :: post)) :
    ∃ pre' x post', xs = pre' ++ x :: post' ∧ f x = .ok y ∧ PR.list f post' = .ok post := by
  induction pre generalizing xs with
  | nil =>
    cases xs with
    | nil => cases h
    | cons a as =>
      obtain ⟨z, h1, h⟩ := bind_ok h
      obtain ⟨zs, h2, h⟩ := bind_ok h
      cases h
      exact ⟨[], a, as, rfl, h1, h2⟩
  | cons b bs ih =>
    cases xs with
    | nil => cases h
    | cons a as =>
      obtain ⟨z, h1, h⟩ := bind_ok h
      obtain ⟨zs, h2, h⟩ := bind_ok h
      cases h
      obtain ⟨pre', x, post', rfl, g1, g2⟩ := ih h2
      exact ⟨a :: pre', x, post', rfl, g1, g2⟩

/-! ## Casts -/

theorem cast_rep {ext : Value → Nat → Option Value} {t t' : Nat} {f : Fam} {s : SV} {v : Value} (h : Rep t' s v) (hf : InFam t' f) (ht : famOf t = some f) :
    (∀ w, cast ext v t = some w → Rep t s w ∧ Keeps t s) ∧ (Keeps t s → ∃ w, cast ext v t = some w) := by
  cases s with
  | null =>
    have h : isNull v = true := h
    have hk : Keeps t .null := nofun
    have : ∃ w, castTo v t = .ok w ∧ isNull w = true := by
      unfold castTo
      split
      · exact ⟨v, rfl, h⟩
      · exact ⟨_, rfl, rfl⟩
    obtain ⟨w, h1, h2⟩ := this
    unfold Dml.cast
    rw [h1]
    exact ⟨fun w' e => by cases e; exact ⟨h2, hk⟩, fun _ => ⟨w, rfl⟩⟩
  | int i =>
    obtain ⟨hi, rfl⟩ := h
    have hn : 1 ≤ t ∧ t ≤ 4 := by
      rcases hf with hf | hf
      · have := hi.2.1; omega
      · have : famOf t' = some .num := by
          rcases fits_cases hi with ⟨rfl, _⟩ | ⟨rfl, _⟩ | ⟨rfl, _⟩ | ⟨rfl, _⟩ <;> rfl
        rw [this] at hf
        cases hf
        exact fam_num ht
    obtain ⟨h1, h2⟩ := C39_cast hi hn
    unfold Dml.cast
    by_cases hfit : Fits t i
    · rw [h1 hfit]
      exact ⟨fun w e => by cases e; exact ⟨⟨hfit, rfl⟩, fun j e => by cases e; exact hfit⟩, fun _ => ⟨_, rfl⟩⟩
    · rw [h2 hfit]
      exact ⟨nofun, fun h => absurd (h i rfl) hfit⟩
  | bool b =>
    obtain ⟨rfl, rfl⟩ := h
    have : t = 0 := by
      rcases hf with hf | hf
      · omega
      · cases hf; exact fam_bool ht
    subst this
    have e : castTo (new (.boolean b)) 0 = .ok (new (.boolean b)) := rfl
    unfold Dml.cast
    rw [e]
    exact ⟨fun w e => by cases e; exact ⟨⟨rfl, rfl⟩, nofun⟩, fun _ => ⟨_, rfl⟩⟩
  | str b =>
    obtain ⟨rfl, rfl⟩ := h
    have : t = 11 := by
      rcases hf with hf | hf
      · omega
      · cases hf; exact fam_str ht
    subst this
    have e : castTo (new (.varLen b)) 11 = .ok (new (.varLen b)) := rfl
    unfold Dml.cast
    rw [e]
    exact ⟨fun w e => by cases e; exact ⟨⟨rfl, rfl⟩, nofun⟩, fun _ => ⟨_, rfl⟩⟩

/-! ## INSERT -/

theorem rowOf_nil : RowOf [] [] [] := ⟨rfl, rfl, nofun⟩

theorem str_inj {a b : Catalog.Name} (h : str a = str b) : a = b := by
  unfold str at h
  exact String.ofList_injective h

theorem given_at {α : Type} {cols : List Col} (hnd : (cols.map Col.name).Nodup) (xs : List α) {j : Nat} {c : Col} (hc : cols[j]? = some c) :
    given (cols.map typed) [] xs (typed c) = xs[j]? := by
  have : (filled (cols.map typed) []).findIdx? (· == (typed c).name) = some j := by
    unfold filled
    rw [if_pos rfl, List.map_map]
    rw [List.findIdx?_eq_some_iff_getElem]
    obtain ⟨hj, hc'⟩ := List.getElem?_eq_some_iff.1 hc
    refine ⟨by simpa using hj, by simp [typed, hc'], fun k hk => ?_⟩
    simp only [List.getElem_map, Function.comp, typed, beq_iff_eq]
    intro he
    have he := str_inj he
    have := (List.getElem_inj (h₀ := by simp; omega) (h₁ := by simpa using hj) hnd (i := k) (j := j)).1 (by simpa [hc'] using he)
    omega
  unfold given
  rw [this, Option.bind_some]

/-- What `TStmt.Typed` asks of a row of VALUES. -/
def RowTyped (ts : List Nat) (es : List Ast) : Prop := (∀ a ∈ es, (∃ f, WT [] a f) ∧ LitItems a) ∧ ∀ (k : Nat) a t, es[k]? = some a → ts[k]? = some t → ∃ f, famOf t = some f ∧ WT [] a f

theorem planRow_ok {ts : List Nat} {es : List Ast} {xs : List Expr} (h : planRow ts es = .ok xs) : es.length = ts.length ∧ xs.length = es.length ∧
    ∀ (i : Nat) a e, es[i]? = some a → xs[i]? = some e → ∃ t, parse ts a = .ok (e, t) := by
  unfold planRow at h
  split at h
  · cases h
  next hl =>
  obtain ⟨h1, h2⟩ := list_ok h
  refine ⟨by simpa using hl, h1, fun i a e ha he => ?_⟩
  obtain ⟨x, hx, h3⟩ := bind_ok (h2 i a e ha he)
  cases h3
  exact ⟨x.2, hx⟩

theorem at_lt {α : Type} {l : List α} {i n : Nat} (h : l.length = n) (hi : i < n) : ∃ x, l[i]? = some x := ⟨_, List.getElem?_eq_getElem (h ▸ hi)⟩

theorem lt_of_at {α : Type} {l : List α} {i : Nat} {x : α} (h : l[i]? = some x) : i < l.length := (List.getElem?_eq_some_iff.1 h).1

theorem types_at {cols : List Col} {j : Nat} {c : Col} (h : cols[j]? = some c) : (typesOf cols)[j]? = some c.ty := by
  unfold typesOf
  rw [List.getElem?_map, h]
  rfl

theorem col_at {cols : List Col} {j t : Nat} (h : (typesOf cols)[j]? = some t) : ∃ c, cols[j]? = some c ∧ c.ty = t := by
  unfold typesOf at h
  rw [List.getElem?_map] at h
  obtain ⟨c, h1, h2⟩ := Option.map_eq_some_iff.1 h
  exact ⟨c, h1, h2⟩

theorem stored_made {ext : Value → Nat → Option Value} {cols : List Col} (hnd : (cols.map Col.name).Nodup) {es : List Ast} {xs : List Expr} {row : Row}
    (hp : planRow (typesOf cols) es = .ok xs) (hty : RowTyped (typesOf cols) es) (hs : Stored ext (cols.map typed) [] xs row) :
    Made (typesOf cols) es (reads row) ∧ RowOf (typesOf cols) (reads row) row := by
  obtain ⟨l1, l2, l3⟩ := planRow_ok hp
  obtain ⟨s1, s2⟩ := hs
  have hlen : row.length = (typesOf cols).length := by rw [s1]; simp [typesOf]
  have key : ∀ (k : Nat) a t, es[k]? = some a → (typesOf cols)[k]? = some t → ∃ s v, den [] a = some s ∧ row[k]? = some v ∧ Rep t s v ∧ Keeps t s := by
    intro k a t ha ht
    obtain ⟨c, hc, rfl⟩ := col_at ht
    obtain ⟨f, hf, hw⟩ := hty.2 k a _ ha ht
    obtain ⟨v, hv, hg⟩ := s2 k (typed c) (by rw [List.getElem?_map, hc]; rfl)
    rw [given_at hnd xs hc] at hg
    obtain ⟨e, he⟩ := at_lt l2 (lt_of_at ha)
    rw [he] at hg
    obtain ⟨v0, w, g1, g2, g3⟩ := hg
    obtain ⟨t', hpa⟩ := l3 k a e ha he
    rw [parse_closed _ a hw] at hpa
    obtain ⟨s, d1, d2⟩ := C124_value_partial rowOf_nil hw (hty.1 a (List.mem_of_getElem? ha)).2 hpa g1
    obtain ⟨r1, r2⟩ := (cast_rep (ext := ext) d2 (parse_ty [] a hw hpa).1 hf).1 w g2
    have : v = w := by
      unfold Kept at g3
      rw [if_neg (by simp [typed])] at g3
      exact g3
    subst this
    exact ⟨s, v, d1, hv, r1, r2⟩
  refine ⟨⟨l1, by simp [reads, hlen], fun k a t ha ht => ?_⟩, by simp [reads, hlen], hlen, fun i t s v ht hsv hv => ?_⟩
  · obtain ⟨s, v, h1, h2, h3, h4⟩ := key k a t ha ht
    refine ⟨s, h1, ?_, h4⟩
    unfold reads
    rw [List.getElem?_map, h2, Option.map_some, rep_sv h3]
  · obtain ⟨a, ha⟩ := at_lt l1 (lt_of_at ht)
    obtain ⟨s', v', h1, h2, h3, h4⟩ := key i a t ha ht
    rw [hv] at h2
    cases h2
    unfold reads at hsv
    rw [List.getElem?_map, hv, Option.map_some, rep_sv h3] at hsv
    cases hsv
    exact h3

theorem sound_gen {ext : Value → Nat → Option Value} {all cols : List Col} {into : List String} (hfill : (cols.map typed).map (·.name) = filled (all.map typed) into)
    (hsub : ∀ c ∈ cols, c ∈ all) {vals : List (List Ast)} {xss : List (List Expr)} (hp : PR.list (planRow (typesOf cols)) vals = .ok xss)
    (hty : ∀ es ∈ vals, RowTyped (typesOf cols) es) (hb : ¬BadValue (typesOf cols) vals) : Sound ext (all.map typed) into xss := by
  obtain ⟨p1, p2⟩ := list_ok hp
  have row : ∀ xs ∈ xss, ∃ es ∈ vals, planRow (typesOf cols) es = .ok xs := by
    intro xs hxs
    obtain ⟨i, hi⟩ := List.mem_iff_getElem?.1 hxs
    obtain ⟨es, hes⟩ := at_lt p1.symm (lt_of_at hi)
    exact ⟨es, List.mem_of_getElem? hes, p2 i es xs hes hi⟩
  refine ⟨fun c hc => ?_, cols.map typed, hfill, fun c hc => (by obtain ⟨x, hx, rfl⟩ := List.mem_map.1 hc; exact List.mem_map_of_mem (hsub x hx)), fun xs hxs => ?_, fun xs hxs k e c he hc ρ => ?_⟩
  · obtain ⟨x, _, rfl⟩ := List.mem_map.1 hc
    rfl
  · obtain ⟨es, _, h⟩ := row xs hxs
    obtain ⟨l1, l2, _⟩ := planRow_ok h
    rw [l2, l1]
    simp [typesOf]
  · obtain ⟨es, hes, h⟩ := row xs hxs
    obtain ⟨l1, l2, l3⟩ := planRow_ok h
    rw [List.getElem?_map] at hc
    obtain ⟨c0, hc0, rfl⟩ := Option.map_eq_some_iff.1 hc
    obtain ⟨a, ha⟩ := at_lt l2.symm (lt_of_at he)
    obtain ⟨t', hpa⟩ := l3 k a e ha he
    obtain ⟨f, hf, hw⟩ := (hty es hes).2 k a _ ha (types_at hc0)
    rw [parse_closed _ a hw] at hpa
    have hl := ((hty es hes).1 a (List.mem_of_getElem? ha)).2
    have hsafe : Safe [] [] a := Classical.byContradiction fun hn => hb ⟨es, hes, k, a, c0.ty, ha, types_at hc0, .inl hn⟩
    obtain ⟨v, hv⟩ := (C124_evaluates_partial rowOf_nil hw hl hpa).2 hsafe
    obtain ⟨s, d1, d2⟩ := C124_value_partial rowOf_nil hw hl hpa hv
    have hk : Keeps c0.ty s := Classical.byContradiction fun hn => hb ⟨es, hes, k, a, c0.ty, ha, types_at hc0, .inr ⟨s, d1, hn⟩⟩
    obtain ⟨w, hw'⟩ := (cast_rep (ext := ext) d2 (parse_ty [] a hw hpa).1 hf).2 hk
    exact ⟨v, w, by rw [← hv]; exact eval_closed a hw hpa ρ _, hw'⟩

theorem sound_of {ext : Value → Nat → Option Value} {cols : List Col} {vals : List (List Ast)} {xss : List (List Expr)} (hp : PR.list (planRow (typesOf cols)) vals = .ok xss)
    (hty : ∀ es ∈ vals, RowTyped (typesOf cols) es) (hb : ¬BadValue (typesOf cols) vals) : Sound ext (cols.map typed) [] xss :=
  sound_gen (by simp [filled]) (fun _ h => h) hp hty hb

/-! ### With a list of columns -/

theorem pick_at {α β : Type} {f : α → Option β} : ∀ {l : List α}, (∀ x ∈ l, (f x).isSome = true) → ∀ k : Nat, (l.filterMap f)[k]? = l[k]?.bind f
  | [], _, k => by simp
  | x :: l, h, k => by
    obtain ⟨y, hy⟩ := Option.isSome_iff_exists.1 (h x List.mem_cons_self)
    rw [List.filterMap_cons_some hy]
    cases k with
    | zero => simp [hy]
    | succ k =>
      rw [List.getElem?_cons_succ, List.getElem?_cons_succ]
      exact pick_at (fun z hz => h z (List.mem_cons_of_mem _ hz)) k

theorem pick_length {α β : Type} {f : α → Option β} : ∀ {l : List α}, (∀ x ∈ l, (f x).isSome = true) → (l.filterMap f).length = l.length
  | [], _ => rfl
  | x :: l, h => by
    obtain ⟨y, hy⟩ := Option.isSome_iff_exists.1 (h x List.mem_cons_self)
    rw [List.filterMap_cons_some hy, List.length_cons, List.length_cons, pick_length fun z hz => h z (List.mem_cons_of_mem _ hz)]

theorem types_pick (cols : List Col) (into : List Nat) : typesOf (colsAt cols into) = typesAt (typesOf cols) into := by
  unfold typesOf colsAt typesAt
  rw [List.map_filterMap]
  congr 1
  funext i
  rw [List.getElem?_map]

theorem in_range {cols : List Col} {into : List Nat} (h : ∀ i ∈ into, i < cols.length) : ∀ i ∈ into, (cols[i]?).isSome = true := by
  intro i hi
  rw [List.getElem?_eq_getElem (h i hi)]
  rfl

theorem colsAt_sub {cols : List Col} {into : List Nat} : ∀ c ∈ colsAt cols into, c ∈ cols := by
  intro c hc
  obtain ⟨i, _, hi⟩ := List.mem_filterMap.1 hc
  exact List.mem_of_getElem? hi

/-- The names of the columns that are listed. -/
def listed (cols : List Col) (into : List Nat) : List String := (colsAt cols into).map fun c => str c.name

theorem listed_at {cols : List Col} {into : List Nat} (h : ∀ i ∈ into, i < cols.length) {k : Nat} {n : String} (hn : (listed cols into)[k]? = some n) :
    ∃ j c, into[k]? = some j ∧ cols[j]? = some c ∧ str c.name = n := by
  unfold listed colsAt at hn
  rw [List.getElem?_map, pick_at (in_range h)] at hn
  obtain ⟨c, h1, h2⟩ := Option.map_eq_some_iff.1 hn
  obtain ⟨j, h3, h4⟩ := Option.bind_eq_some_iff.1 h1
  exact ⟨j, c, h3, h4, h2⟩

theorem filled_listed {cols : List Col} {into : List Nat} (h : ∀ i ∈ into, i < cols.length) (h0 : into ≠ []) : filled (cols.map typed) (listed cols into) = listed cols into := by
  unfold filled
  refine if_neg fun e => h0 ?_
  have := congrArg List.length e
  unfold listed colsAt at this
  rw [List.length_map, pick_length (in_range h)] at this
  exact List.eq_nil_of_length_eq_zero this

theorem same_col {cols : List Col} (hnd : (cols.map Col.name).Nodup) {i j : Nat} {c c' : Col} (h1 : cols[i]? = some c) (h2 : cols[j]? = some c') (h : str c.name = str c'.name) : i = j := by
  obtain ⟨hi, e1⟩ := List.getElem?_eq_some_iff.1 h1
  obtain ⟨hj, e2⟩ := List.getElem?_eq_some_iff.1 h2
  exact (List.getElem_inj (h₀ := by simpa using hi) (h₁ := by simpa using hj) hnd (i := i) (j := j)).1 (by simpa [e1, e2] using str_inj h)

theorem firstAt_mem {into : List Nat} {j : Nat} (h : j ∈ into) : ∃ k, FirstAt into j k := by
  induction into with
  | nil => cases h
  | cons x l ih =>
    by_cases hx : x = j
    · exact ⟨0, by simp [hx], fun i hi => absurd hi (Nat.not_lt_zero i)⟩
    · obtain ⟨k, h1, h2⟩ := ih ((List.mem_cons.1 h).resolve_left fun e => hx e.symm)
      refine ⟨k + 1, by simpa using h1, fun i hi => ?_⟩
      cases i with
      | zero => simpa using hx
      | succ i => simpa using h2 i (by omega)

theorem given_listed {α : Type} {cols : List Col} (hnd : (cols.map Col.name).Nodup) {into : List Nat} (h : ∀ i ∈ into, i < cols.length) (h0 : into ≠ []) (xs : List α)
    {k j : Nat} {c : Col} (hk : FirstAt into j k) (hc : cols[j]? = some c) : given (cols.map typed) (listed cols into) xs (typed c) = xs[k]? := by
  have hl : (listed cols into)[k]? = some (str c.name) := by
    unfold listed colsAt
    rw [List.getElem?_map, pick_at (in_range h), hk.1, Option.bind_some, hc]
    rfl
  have : (filled (cols.map typed) (listed cols into)).findIdx? (· == (typed c).name) = some k := by
    rw [filled_listed h h0, List.findIdx?_eq_some_iff_getElem]
    obtain ⟨hlt, e⟩ := List.getElem?_eq_some_iff.1 hl
    refine ⟨hlt, by rw [e]; simp [typed], fun i hi => ?_⟩
    intro he
    have he := eq_of_beq he
    obtain ⟨j', c', g1, g2, g3⟩ := listed_at h (List.getElem?_eq_getElem (l := listed cols into) (i := i) (by omega))
    have := same_col hnd g2 hc (g3.trans he)
    subst this
    exact hk.2 i hi g1
  unfold given
  rw [this, Option.bind_some]

theorem given_other {α : Type} {cols : List Col} (hnd : (cols.map Col.name).Nodup) {into : List Nat} (h : ∀ i ∈ into, i < cols.length) (h0 : into ≠ []) (xs : List α)
    {j : Nat} {c : Col} (hj : j ∉ into) (hc : cols[j]? = some c) : given (cols.map typed) (listed cols into) xs (typed c) = none := by
  have : (filled (cols.map typed) (listed cols into)).findIdx? (· == (typed c).name) = none := by
    rw [filled_listed h h0, List.findIdx?_eq_none_iff]
    intro n hn
    obtain ⟨k, hk⟩ := List.mem_iff_getElem?.1 hn
    obtain ⟨j', c', g1, g2, g3⟩ := listed_at h hk
    cases hb : n == (typed c).name
    · rfl
    · have := same_col hnd g2 hc (g3.trans (eq_of_beq hb))
      subst this
      exact absurd (List.mem_of_getElem? g1) hj
  unfold given
  rw [this, Option.bind_none]

theorem stored_into {ext : Value → Nat → Option Value} {cols : List Col} (hnd : (cols.map Col.name).Nodup) {into : List Nat} (h : ∀ i ∈ into, i < cols.length) (h0 : into ≠ [])
    {es : List Ast} {xs : List Expr} {row : Row} (hp : planRow (typesOf (colsAt cols into)) es = .ok xs) (hty : RowTyped (typesAt (typesOf cols) into) es)
    (hs : Stored ext (cols.map typed) (listed cols into) xs row) : MadeInto (typesOf cols) into es (reads row) ∧ RowOf (typesOf cols) (reads row) row := by
  obtain ⟨l1, l2, l3⟩ := planRow_ok hp
  have l1 : es.length = into.length := by
    rw [l1]
    unfold typesOf colsAt
    rw [List.length_map, pick_length (in_range h)]
  obtain ⟨s1, s2⟩ := hs
  have hlen : row.length = (typesOf cols).length := by rw [s1]; simp [typesOf]
  have keep : ∀ {c : Col} {w v : Value}, Kept (typed c) w v → v = w := by
    intro c w v g3
    unfold Kept at g3
    rw [if_neg (by simp [typed])] at g3
    exact g3
  have key : ∀ (k j : Nat) a t, FirstAt into j k → es[k]? = some a → (typesOf cols)[j]? = some t → ∃ s v, den [] a = some s ∧ row[j]? = some v ∧ Rep t s v ∧ Keeps t s := by
    intro k j a t hk ha ht
    obtain ⟨c, hc, rfl⟩ := col_at ht
    obtain ⟨f, hf, hw⟩ := hty.2 k a c.ty ha (by
      rw [← types_pick]
      refine types_at ?_
      unfold colsAt
      rw [pick_at (in_range h), hk.1, Option.bind_some, hc])
    obtain ⟨v, hv, hg⟩ := s2 j (typed c) (by rw [List.getElem?_map, hc]; rfl)
    rw [given_listed hnd h h0 xs hk hc] at hg
    obtain ⟨e, he⟩ := at_lt l2 (lt_of_at ha)
    rw [he] at hg
    obtain ⟨v0, w, g1, g2, g3⟩ := hg
    obtain ⟨t', hpa⟩ := l3 k a e ha he
    rw [parse_closed _ a hw] at hpa
    obtain ⟨s, d1, d2⟩ := C124_value_partial rowOf_nil hw (hty.1 a (List.mem_of_getElem? ha)).2 hpa g1
    obtain ⟨r1, r2⟩ := (cast_rep (ext := ext) d2 (parse_ty [] a hw hpa).1 hf).1 w g2
    cases keep g3
    exact ⟨s, v, d1, hv, r1, r2⟩
  have rest : ∀ (j : Nat) t, j ∉ into → (typesOf cols)[j]? = some t → ∃ v, row[j]? = some v ∧ Rep t .null v := by
    intro j t hj ht
    obtain ⟨c, hc, rfl⟩ := col_at ht
    obtain ⟨v, hv, hg⟩ := s2 j (typed c) (by rw [List.getElem?_map, hc]; rfl)
    rw [given_other hnd h h0 xs hj hc] at hg
    cases keep hg
    exact ⟨_, hv, rfl⟩
  refine ⟨⟨l1, by simp [reads, hlen], fun j t ht => ⟨fun k a hk ha => ?_, fun hj => ?_⟩⟩, by simp [reads, hlen], hlen, fun j t s v ht hsv hv => ?_⟩
  · obtain ⟨s, v, h1, h2, h3, h4⟩ := key k j a t hk ha ht
    refine ⟨s, h1, ?_, h4⟩
    unfold reads
    rw [List.getElem?_map, h2, Option.map_some, rep_sv h3]
  · obtain ⟨v, h2, h3⟩ := rest j t hj ht
    unfold reads
    rw [List.getElem?_map, h2, Option.map_some, rep_sv h3]
  · have : ∃ s, Rep t s v := by
      by_cases hj : j ∈ into
      · obtain ⟨k, hk⟩ := firstAt_mem hj
        obtain ⟨a, ha⟩ := at_lt l1 (lt_of_at hk.1)
        obtain ⟨s', v', h1, h2, h3, h4⟩ := key k j a t hk ha ht
        rw [hv] at h2
        cases h2
        exact ⟨s', h3⟩
      · obtain ⟨v', h2, h3⟩ := rest j t hj ht
        rw [hv] at h2
        cases h2
        exact ⟨_, h3⟩
    obtain ⟨s', h3⟩ := this
    unfold reads at hsv
    rw [List.getElem?_map, hv, Option.map_some, rep_sv h3] at hsv
    cases hsv
    exact h3

theorem sound_into {ext : Value → Nat → Option Value} {cols : List Col} {into : List Nat} (h : ∀ i ∈ into, i < cols.length) (h0 : into ≠ []) {vals : List (List Ast)}
    {xss : List (List Expr)} (hp : PR.list (planRow (typesOf (colsAt cols into))) vals = .ok xss) (hty : ∀ es ∈ vals, RowTyped (typesAt (typesOf cols) into) es)
    (hb : ¬BadValue (typesAt (typesOf cols) into) vals) : Sound ext (cols.map typed) (listed cols into) xss := by
  rw [← types_pick] at hty hb
  refine sound_gen ?_ colsAt_sub hp hty hb
  rw [filled_listed h h0, List.map_map]
  rfl

theorem insert_const {ts : List Nat} {into : List String} {vals : List (List Ast)} {xss : List (List Expr)} (hp : PR.list (planRow ts) vals = .ok xss) (hty : ∀ es ∈ vals, RowTyped ts es) :
    (Stmt.insert into xss).Const := by
  obtain ⟨p1, p2⟩ := list_ok hp
  intro xs hxs e he
  obtain ⟨i, hi⟩ := List.mem_iff_getElem?.1 hxs
  obtain ⟨es, hes⟩ := at_lt p1.symm (lt_of_at hi)
  obtain ⟨l1, l2, l3⟩ := planRow_ok (p2 i es xs hes hi)
  obtain ⟨k, hk⟩ := List.mem_iff_getElem?.1 he
  obtain ⟨a, ha⟩ := at_lt l2.symm (lt_of_at hk)
  obtain ⟨t', hpa⟩ := l3 k a e ha hk
  obtain ⟨⟨f, hw⟩, _⟩ := (hty es (List.mem_of_getElem? hes)).1 a (List.mem_of_getElem? ha)
  rw [parse_closed _ a hw] at hpa
  exact eval_closed a hw hpa

/-! ## UPDATE -/

/-- What `TStmt.Typed` asks of the assignments. -/
def AssignsTyped (ts : List Nat) (as : List (Nat × Ast)) : Prop :=
  ∀ x ∈ as, LitItems x.2 ∧ (∃ f, WT ts x.2 f) ∧ ∀ t, ts[x.1]? = some t → ∃ f, famOf t = some f ∧ WT ts x.2 f ∧ (exprTy ts x.2 = t ∨ exprTy ts x.2 = 20)

theorem planAssign_ok {ts : List Nat} {x : Nat × Ast} {y : Nat × Expr} (h : planAssign ts x = .ok y) : x.1 = y.1 ∧ x.1 < ts.length ∧ ∃ t, parse ts x.2 = .ok (y.2, t) := by
  unfold planAssign at h
  split at h
  · obtain ⟨z, h1, h2⟩ := bind_ok h
    cases h2
    exact ⟨rfl, by assumption, _, h1⟩
  · cases h

theorem list_none {ts : List Nat} {as : List (Nat × Ast)} {es : List (Nat × Expr)} (hp : PR.list (planAssign ts) as = .ok es) {i : Nat} (h : ∀ a ∈ es, a.1 ≠ i) :
    as.filter (·.1 == i) = [] := by
  obtain ⟨p1, p2⟩ := list_ok hp
  rw [List.filter_eq_nil_iff]
  intro x hx
  obtain ⟨k, hk⟩ := List.mem_iff_getElem?.1 hx
  obtain ⟨y, hy⟩ := at_lt p1 (lt_of_at hk)
  have := (planAssign_ok (p2 k x y hk hy)).1
  have := h y (List.mem_of_getElem? hy)
  simp; omega

theorem assigned_after {ts : List Nat} {as : List (Nat × Ast)} {es : List (Nat × Expr)} (hp : PR.list (planAssign ts) as = .ok es) (hty : AssignsTyped ts as) {row row' : Row}
    (hr : RowOf ts (reads row) row) (ha : Assigned es row row') : reads row' = after as (reads row) ∧ RowOf ts (reads row') row' ∧ Computes ts as (reads row) := by
  obtain ⟨hlen, hcol⟩ := ha
  have hl : row.length = ts.length := hr.2.1
  have key : ∀ (i : Nat) t v, ts[i]? = some t → row[i]? = some v → ∃ w s, row'[i]? = some w ∧ Rep t s w ∧ (after as (reads row))[i]? = some s ∧
      ∀ x, (as.filter (·.1 == i)).getLast? = some x → Safe ts (reads row) x.2 := by
    intro i t v ht hv
    have hrd : (reads row)[i]? = some (sv v) := by unfold reads; rw [List.getElem?_map, hv]; rfl
    have haf : (after as (reads row))[i]? = some (match (as.filter (·.1 == i)).getLast? with
        | some x => (den (reads row) x.2).getD .null
        | none => sv v) := by
      unfold after
      rw [List.getElem?_mapIdx, hrd]
      rfl
    rcases hcol i v hv with ⟨pre, e, post, w, he, hpost, hev, hw⟩ | ⟨hno, hsame⟩
    · subst he
      obtain ⟨pre', x, post', rfl, hx, hpost'⟩ := list_split hp
      obtain ⟨hxi, hxl, t', hpx⟩ := planAssign_ok hx
      have hlast : ((pre' ++ x :: post').filter (·.1 == i)).getLast? = some x := by
        rw [List.filter_append, List.filter_cons_of_pos (by simp [hxi]), list_none hpost' hpost]
        simp
      rw [hlast] at haf ⊢
      obtain ⟨hlit, _, htt⟩ := hty x (by simp)
      obtain ⟨f, hf, hwt, hty'⟩ := htt t (by rw [hxi]; exact ht)
      obtain ⟨s, d1, d2⟩ := C124_value_partial hr hwt hlit hpx hev
      have hsafe := (C124_evaluates_partial hr hwt hlit hpx).1 ⟨w, hev⟩
      refine ⟨w, s, hw, ?_, by rw [haf]; simp [d1], fun y hy => by cases hy; exact hsafe⟩
      rw [← (parse_ty ts x.2 hwt hpx).2] at hty'
      rcases hty' with rfl | rfl
      · exact d2
      · cases s with
        | null => exact d2
        | int k => have := d2.1.2.1; omega
        | bool b => have := d2.1; omega
        | str b => have := d2.1; omega
    · rw [list_none hp hno] at haf
      refine ⟨v, sv v, hsame, hr.2.2 i t _ v ht hrd hv, haf, fun x hx => ?_⟩
      rw [list_none hp hno] at hx
      cases hx
  have hreads : reads row' = after as (reads row) := by
    apply List.ext_getElem?
    intro i
    by_cases hi : i < ts.length
    · obtain ⟨w, s, h1, h2, h3, _⟩ := key i _ _ (List.getElem?_eq_getElem hi) (List.getElem?_eq_getElem (hl ▸ hi))
      rw [h3]
      unfold reads
      rw [List.getElem?_map, h1, Option.map_some, rep_sv h2]
    · rw [List.getElem?_eq_none (by simp [reads]; omega), List.getElem?_eq_none (by simp [reads, after]; omega)]
  refine ⟨hreads, ⟨by simp [reads]; omega, by omega, fun i t s v ht hs hv => ?_⟩, fun i x hi hx => ?_⟩
  · obtain ⟨v0, hv0⟩ := at_lt hl (lt_of_at ht)
    obtain ⟨w, s', h1, h2, h3, _⟩ := key i t v0 ht hv0
    rw [h1] at hv
    cases hv
    rw [hreads, h3] at hs
    cases hs
    exact h2
  · obtain ⟨v0, hv0⟩ := at_lt hl hi
    exact (key i _ v0 (List.getElem?_eq_getElem hi) hv0).choose_spec.choose_spec.2.2.2 x hx

theorem noUpdate_noChange {d : Disk} {ts : List Nat} {as : List (Nat × Ast)} {es : List (Nat × Expr)} (hp : PR.list (planAssign ts) as = .ok es) (hty : AssignsTyped ts as) {row : Row}
    (hr : RowOf ts (reads row) row) (h : NoUpdate d es row) : NoChange d ts as (reads row) := by
  obtain ⟨p1, p2⟩ := list_ok hp
  rcases h with ⟨y, hy, hv⟩ | ⟨row', slots, i, info, h1, h2⟩
  · obtain ⟨k, hk⟩ := List.mem_iff_getElem?.1 hy
    obtain ⟨x, hx⟩ := at_lt p1.symm (lt_of_at hk)
    obtain ⟨_, _, t', hpx⟩ := planAssign_ok (p2 k x y hx hk)
    have hxm := List.mem_of_getElem? hx
    obtain ⟨hlit, ⟨f, hwt⟩, _⟩ := hty x hxm
    refine .inl ⟨x, hxm, fun hs => ?_⟩
    obtain ⟨v, hv'⟩ := (C124_evaluates_partial hr hwt hlit hpx).2 hs
    exact hv v hv'
  · exact .inr ⟨row', slots, i, info, (assigned_after hp hty hr h1).1, h2⟩

end Verif.Whole

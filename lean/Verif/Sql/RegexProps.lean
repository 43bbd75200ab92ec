import Verif.Sql.Regex

/-!
# C119: SIMILAR TO

Specification vocabulary: `pieces` reads a pattern that uses `%`, `_`, the escape character and brackets that list characters; a pattern
with one of the operators `| * + ? { } ( )`, a range or a negated bracket, or one that is malformed, is read as `none`. `Fits` says what
such a pattern matches.
-/

namespace Verif.Sql.Regex

open Verif.Sql

inductive Piece where
  | any
  | one
  | ch (c : Char)
  | oneOf (cs : List Char)

/-- The operators of SIMILAR TO. -/
def isOperator (c : Char) : Bool := "|*+?{}()".toList.contains c

/-- Reading a pattern: outside brackets; after the escape character; in a bracket, with the characters listed so far. -/
inductive Where where | out | esc | inside (cs : List Char)

def pieces (esc : Char) : Where → List Char → Option (List Piece)
  | .out, [] => some []
  | _, [] => none
  | .out, c :: r =>
    if c = esc then pieces esc .esc r
    else if isOperator c then none
    else if c = '[' then pieces esc (.inside []) r
    else (pieces esc .out r).map ((if c = '%' then .any else if c = '_' then .one else .ch c) :: ·)
  | .esc, c :: r => (pieces esc .out r).map (.ch c :: ·)
  | .inside cs, c :: r =>
    if c = ']' then (if cs = [] then none else (pieces esc .out r).map (.oneOf cs :: ·))
    else if c = esc ∨ c = '-' ∨ c = '^' ∨ c = '[' ∨ c = ':' then none
    else pieces esc (.inside (cs ++ [c])) r

/-- What a pattern matches. -/
inductive Fits : List Piece → List Char → Prop
  | nil : Fits [] []
  | any {ps u v} : Fits ps v → Fits (.any :: ps) (u ++ v)
  | one {ps c v} : Fits ps v → Fits (.one :: ps) (c :: v)
  | ch {ps c v} : Fits ps v → Fits (.ch c :: ps) (c :: v)
  | oneOf {ps cs c v} : c ∈ cs → Fits ps v → Fits (.oneOf cs :: ps) (c :: v)

/-! ## Reading back what the conversion writes -/

def item : Piece → Item
  | .any => .star
  | .one => .one
  | .ch c => .lit c
  | .oneOf cs => .set cs

theorem read_escape (c : Char) (s : List Char) : read none (escape c ++ s) = (read none s).map (.lit c :: ·) := by
  unfold escape
  split
  · rename_i h
    simp [read, h]
  · rename_i h
    have hm : ∀ d, isMeta d = true → c ≠ d := fun d hd e => h (e ▸ hd)
    rw [List.singleton_append]
    conv => lhs; unfold read
    rw [if_neg (hm '$' rfl), if_neg (hm '\\' rfl), if_neg (hm '.' rfl), if_neg (hm '[' rfl), if_neg h]

theorem read_bracket_escape (cs : List Char) (c : Char) (s : List Char) : read (some cs) (escape c ++ s) = read (some (cs ++ [c])) s := by
  unfold escape
  split
  · rename_i h
    simp [read, h]
  · rename_i h
    have hm : ∀ d, isMeta d = true → c ≠ d := fun d hd e => h (e ▸ hd)
    rw [List.singleton_append]
    conv => lhs; unfold read
    rw [if_neg (hm ']' rfl), if_neg (hm '\\' rfl), if_neg h]

/-- The regular expression never has a bare `*` where a new piece begins. -/
theorem convert_head (esc : Char) (p : List Char) : ∀ m, ∃ d s, convert esc m p ++ ['$'] = d :: s ∧ d ≠ '*' := by
  induction p with
  | nil => intro m; cases m <;> exact ⟨_, _, rfl, by decide⟩
  | cons c r ih =>
    have he : ∀ t, ∃ d s, escape c ++ t ++ ['$'] = d :: s ∧ d ≠ '*' := by
      intro t
      unfold escape
      split
      · exact ⟨_, _, rfl, by decide⟩
      · rename_i h
        exact ⟨_, _, rfl, fun e => h (by rw [e]; rfl)⟩
    intro m
    cases m with
    | outer =>
      unfold convert
      split
      · exact ih _
      · split
        · exact ⟨_, _, rfl, by decide⟩
        · split
          · exact ⟨_, _, rfl, by decide⟩
          · split
            · exact ⟨_, _, rfl, by decide⟩
            · exact he _
    | escaped => exact he _
    | bracket =>
      unfold convert
      split
      · exact ⟨_, _, rfl, by decide⟩
      · exact he _

theorem read_one (esc : Char) (p : List Char) : read none ('.' :: (convert esc .outer p ++ ['$'])) = (read none (convert esc .outer p ++ ['$'])).map (.one :: ·) := by
  obtain ⟨d, s, e, hd⟩ := convert_head esc p .outer
  rw [e]
  conv => lhs; unfold read
  simp [hd]

theorem convert_spec (esc : Char) : ∀ (p : List Char),
    (∀ ps, pieces esc .out p = some ps → read none (convert esc .outer p ++ ['$']) = some (ps.map item))
    ∧ (∀ ps, pieces esc .esc p = some ps → read none (convert esc .escaped p ++ ['$']) = some (ps.map item))
    ∧ (∀ cs ps, pieces esc (.inside cs) p = some ps → read (some cs) (convert esc .bracket p ++ ['$']) = some (ps.map item)) := by
  intro p
  induction p with
  | nil =>
    refine ⟨fun ps h => ?_, fun ps h => ?_, fun cs ps h => ?_⟩
    · simp [pieces] at h; subst h; rfl
    · simp [pieces] at h
    · simp [pieces] at h
  | cons c r ih =>
    obtain ⟨i1, i2, i3⟩ := ih
    refine ⟨fun ps h => ?_, fun ps h => ?_, fun cs ps h => ?_⟩
    · unfold pieces at h
      unfold convert
      split at h
      · rename_i hc; rw [if_pos hc]; exact i2 ps h
      · rename_i hc
        rw [if_neg hc]
        split at h
        · cases h
        · rename_i ho
          split at h
          · rename_i hb
            subst hb
            rw [if_neg (by decide), if_neg (by decide), if_pos rfl]
            have := i3 [] ps h
            rw [List.cons_append]
            conv => lhs; unfold read
            simpa using this
          · rename_i hb
            obtain ⟨ps', h', rfl⟩ := Option.map_eq_some_iff.1 h
            have e := i1 ps' h'
            split
            · rename_i hp
              subst hp
              simp [read, e, item]
            · rename_i hp
              split
              · rename_i hu
                subst hu
                rw [List.cons_append, read_one, e]
                rfl
              · rename_i hu
                rw [List.append_assoc, read_escape, e, Option.map_some, List.map_cons]
                rfl
    · unfold pieces at h
      unfold convert
      obtain ⟨ps', h', rfl⟩ := Option.map_eq_some_iff.1 h
      rw [List.append_assoc, read_escape, i1 ps' h']
      rfl
    · unfold pieces at h
      unfold convert
      split at h
      · rename_i hc
        subst hc
        split at h
        · cases h
        · rename_i hcs
          obtain ⟨ps', h', rfl⟩ := Option.map_eq_some_iff.1 h
          rw [if_pos rfl, List.cons_append]
          conv => lhs; unfold read
          simp [hcs, i1 ps' h', item]
      · rename_i hc
        rw [if_neg hc]
        split at h
        · cases h
        · rw [List.append_assoc, read_bracket_escape]
          exact i3 _ ps h

/-! ## Matching -/

theorem anyThen_spec {f : List Char → Bool} : ∀ v : List Char, '\n' ∉ v → (anyThen f v = true ↔ ∃ u w, v = u ++ w ∧ f w = true)
  | [], _ => ⟨fun h => ⟨[], [], rfl, h⟩, fun ⟨u, w, e, h⟩ => by rw [(List.append_eq_nil_iff.1 e.symm).2] at h; exact h⟩
  | c :: v, hn => by
    rw [anyThen]
    have hc : c ≠ '\n' := fun e => hn (e ▸ List.mem_cons_self)
    have ih := anyThen_spec (f := f) v (fun h => hn (List.mem_cons_of_mem _ h))
    simp only [Bool.or_eq_true, Bool.and_eq_true, bne_iff_ne, ne_eq, hc, not_false_eq_true, true_and, ih]
    refine ⟨fun h => ?_, fun ⟨u, w, e, h⟩ => ?_⟩
    · rcases h with h | ⟨u, w, e, h⟩
      · exact ⟨[], _, rfl, h⟩
      · exact ⟨c :: u, w, by rw [e]; rfl, h⟩
    · cases u with
      | nil => left; rw [show c :: v = w from e]; exact h
      | cons d u => cases e; exact .inr ⟨u, w, rfl, h⟩

theorem matchItems_spec : ∀ (ps : List Piece) (v : List Char), '\n' ∉ v → (matchItems (ps.map item) v = true ↔ Fits ps v)
  | [], v, _ => by
    rw [List.map_nil, matchItems, List.isEmpty_iff]
    exact ⟨fun h => h ▸ .nil, fun h => by cases h; rfl⟩
  | .any :: ps, v, hn => by
    rw [List.map_cons, item, matchItems, anyThen_spec v hn]
    refine ⟨fun ⟨u, w, e, h⟩ => ?_, fun h => ?_⟩
    · subst e
      exact .any ((matchItems_spec ps w fun hm => hn (List.mem_append_right _ hm)).1 h)
    · cases h with
      | any h => exact ⟨_, _, rfl, (matchItems_spec ps _ fun hm => hn (List.mem_append_right _ hm)).2 h⟩
  | .one :: ps, [], _ => by simp [item, matchItems]; intro h; cases h
  | .one :: ps, c :: v, hn => by
    have hc : c ≠ '\n' := fun e => hn (e ▸ List.mem_cons_self)
    have ih := matchItems_spec ps v (fun h => hn (List.mem_cons_of_mem _ h))
    simp only [List.map_cons, item, matchItems, Bool.and_eq_true, bne_iff_ne, ne_eq, hc, not_false_eq_true, true_and, ih]
    exact ⟨.one, fun h => by cases h; assumption⟩
  | .ch d :: ps, [], _ => by simp [item, matchItems]; intro h; cases h
  | .ch d :: ps, c :: v, hn => by
    have ih := matchItems_spec ps v (fun h => hn (List.mem_cons_of_mem _ h))
    simp only [List.map_cons, item, matchItems, Bool.and_eq_true, beq_iff_eq, ih]
    exact ⟨fun ⟨e, h⟩ => e ▸ .ch h, fun h => by cases h; exact ⟨rfl, by assumption⟩⟩
  | .oneOf cs :: ps, [], _ => by simp [item, matchItems]; intro h; cases h
  | .oneOf cs :: ps, c :: v, hn => by
    have ih := matchItems_spec ps v (fun h => hn (List.mem_cons_of_mem _ h))
    simp only [List.map_cons, item, matchItems, Bool.and_eq_true, List.contains_iff_mem, ih]
    exact ⟨fun ⟨e, h⟩ => .oneOf e h, fun h => by cases h; exact ⟨by assumption, by assumption⟩⟩

/-- **C119**: `v SIMILAR TO p ESCAPE e` is true exactly if `p` matches the whole of `v`, and NOT SIMILAR TO is the opposite. Full property:
for all values and all patterns of the standard, and NULL for a NULL. Missing: NULL, texts with line feeds, CHAR (which is padded), and
patterns with operators, ranges and negated brackets; see `C119_fails`. -/
theorem C119_similar_partial (compile : List Char → Option (List Char → Bool)) (hc : Faithful compile) (esc : Option Char) (negated : Bool)
    (v p : List Char) (ps : List Piece) (hp : pieces (esc.getD '\\') .out p = some ps) (hv : '\n' ∉ v) :
    ∃ b, regexValue compile .similar negated (esc.map ([·])) (.varchar v) (.varchar p) = .ok (negated ^^ b) ∧ (b = true ↔ Fits ps v) := by
  have e : convertPattern (esc.map ([·])) p = some ('^' :: (convert (esc.getD '\\') .outer p ++ ['$'])) := by cases esc <;> rfl
  refine ⟨matchItems (ps.map item) v, ?_, matchItems_spec ps v hv⟩
  simp only [regexValue, Text.show, e, hc _ _ ((convert_spec _ p).1 ps hp)]

/-- A stand-in for the crate, which shows that `Faithful` can be met. -/
def standIn (s : List Char) : Option (List Char → Bool) := match s with
  | '^' :: s => (read none s).map matchItems
  | _ => none

theorem standIn_faithful : Faithful standIn := fun s is h => by simp [standIn, h]

example : ∃ b, regexValue standIn .similar false none (.varchar "a.bcx%".toList) (.varchar "a._[cd]%\\%".toList) = .ok (false ^^ b)
    ∧ (b = true ↔ Fits [.ch 'a', .ch '.', .one, .oneOf ['c', 'd'], .any, .ch '%'] "a.bcx%".toList) :=
  C119_similar_partial standIn standIn_faithful none false _ _ _ rfl (by decide)

example : regexValue standIn .similar false none (.varchar "a.bcx%".toList) (.varchar "a._[cd]%\\%".toList) = .ok true := by decide +kernel

/-- NOT SIMILAR TO and NOT RLIKE are the opposites of SIMILAR TO and RLIKE, for all operands and whatever the crate does. -/
theorem C119_not_partial (compile : List Char → Option (List Char → Bool)) (op : Op) (esc : Option (List Char)) (v p : Text) (b : Bool)
    (h : regexValue compile op false esc v p = .ok b) : regexValue compile op true esc v p = .ok !b := by
  unfold regexValue at h ⊢
  split at h
  · cases h
  · rename_i s hs
    split at h
    · cases h
    · injection h with h
      subst h
      simp

example : regexValue standIn .similar true none (.varchar "abc".toList) (.varchar "a%".toList) = .ok !true :=
  C119_not_partial _ _ _ _ _ _ (by decide +kernel)

/-- Where the full property fails: NULL is the text `NULL`; `%` and `_` stop at a line feed; the operators, ranges and negation are read as
ordinary characters; a bracket does not know the escape character; ESCAPE '' panics; a CHAR is padded, so that it does not match its own
text. -/
theorem C119_fails (compile : List Char → Option (List Char → Bool)) (hc : Faithful compile) :
    regexValue compile .similar false none .null (.varchar "N%".toList) = .ok true
    ∧ regexValue compile .similar false none (.varchar "a\nb".toList) (.varchar "a%b".toList) = .ok false
    ∧ regexValue compile .similar false none (.varchar "a".toList) (.varchar "a|b".toList) = .ok false
    ∧ regexValue compile .similar false none (.varchar "aa".toList) (.varchar "a+".toList) = .ok false
    ∧ regexValue compile .similar false none (.varchar "b".toList) (.varchar "[a-c]".toList) = .ok false
    ∧ regexValue compile .similar false none (.varchar "b".toList) (.varchar "[^a]".toList) = .ok false
    ∧ regexValue compile .similar false (some []) (.varchar "b".toList) (.varchar "b".toList) = .panic
    ∧ regexValue compile .similar false none (.char "b".toList) (.varchar "b".toList) = .ok false := by
  have key : ∀ (v p : Text) is, read none (convert '\\' .outer p.show ++ ['$']) = some is →
      regexValue compile .similar false none v p = .ok (matchItems is v.show) := by
    intro v p is h
    simp only [regexValue, convertPattern, Option.getD_none, hc _ _ h, Bool.false_bne]
  refine ⟨?_, ?_, ?_, ?_, ?_, ?_, rfl, ?_⟩ <;> rw [key _ _ _ (by rfl)] <;> decide +kernel

end Verif.Sql.Regex

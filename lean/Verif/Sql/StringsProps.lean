import Verif.Sql.Strings

/-!
# C35: LIKE; C36: SUBSTRING and OVERLAY; C71: TRIM and POSITION

Specification vocabulary: a pattern is read into tokens (`tokens`; a pattern ending in the escape character is malformed) and `Matches` says
what a list of tokens matches, for a relation `R` saying which characters match which. `Ascii` is single-byte text. `cut s p n` is the
characters at the positions from `p` on and before `p + n`, counting from 1.
-/

namespace Verif.Sql

open Verif.Wire Verif.Bytes

/-! ## Specification of LIKE -/

inductive Tok where
  | any
  | one
  | ch (c : Char)

/-- The tokens of a pattern; `escaped` says that the last character was the escape character. -/
def tokens (esc : Option Char) : Bool → List Char → Option (List Tok)
  | escaped, [] => if escaped then none else some []
  | true, p :: ps => (tokens esc false ps).map (.ch p :: ·)
  | false, p :: ps =>
    if esc = some p then tokens esc true ps
    else (tokens esc false ps).map ((if p = '%' then .any else if p = '_' then .one else .ch p) :: ·)

/-- What tokens match. -/
inductive Matches (R : Char → Char → Prop) : List Tok → List Char → Prop
  | nil : Matches R [] []
  | any {ts u v} : Matches R ts v → Matches R (.any :: ts) (u ++ v)
  | one {ts c v} : Matches R ts v → Matches R (.one :: ts) (c :: v)
  | ch {ts p c v} : R c p → Matches R ts v → Matches R (.ch p :: ts) (c :: v)

/-- Characters that are the same, and that are the same but for the case of an ASCII letter. -/
def Same (c p : Char) : Prop := c = p
def SameLetter (c p : Char) : Prop := c.toLower = p.toLower

/-! ## C35 -/

theorem matches_nil {R : Char → Char → Prop} {v : List Char} : Matches R [] v ↔ v = [] := ⟨fun h => by cases h; rfl, fun h => h ▸ .nil⟩

theorem matches_one {R : Char → Char → Prop} {ts : List Tok} {v : List Char} : Matches R (.one :: ts) v ↔ ∃ c w, v = c :: w ∧ Matches R ts w :=
  ⟨fun h => by cases h; exact ⟨_, _, rfl, by assumption⟩, fun ⟨_, _, e, h⟩ => e ▸ .one h⟩

theorem matches_ch {R : Char → Char → Prop} {ts : List Tok} {p : Char} {v : List Char} :
    Matches R (.ch p :: ts) v ↔ ∃ c w, v = c :: w ∧ R c p ∧ Matches R ts w :=
  ⟨fun h => by cases h; exact ⟨_, _, rfl, by assumption, by assumption⟩, fun ⟨_, _, e, r, h⟩ => e ▸ .ch r h⟩

theorem matches_any {R : Char → Char → Prop} {ts : List Tok} {v : List Char} : Matches R (.any :: ts) v ↔ ∃ u w, v = u ++ w ∧ Matches R ts w :=
  ⟨fun h => by cases h; exact ⟨_, _, rfl, by assumption⟩, fun ⟨_, _, e, h⟩ => e ▸ .any h⟩

theorem try_spec {f : List Char → Option Bool} {P : List Char → Prop} (hf : ∀ v b, f v = some b → (b = true ↔ P v)) :
    ∀ v b, trySuffixes f v = some b → (b = true ↔ ∃ u w, v = u ++ w ∧ P w)
  | [], b, h => by
    rw [hf [] b h]
    exact ⟨fun h => ⟨[], [], rfl, h⟩, fun ⟨u, w, e, h⟩ => by rw [List.append_eq_nil_iff.1 e.symm |>.2] at h; exact h⟩
  | c :: v, b, h => by
    rw [trySuffixes] at h
    split at h
    · cases h
    · rename_i h'
      cases h
      exact ⟨fun _ => ⟨[], _, rfl, (hf _ _ h').1 rfl⟩, fun _ => rfl⟩
    · rename_i h'
      split at h
      · rw [try_spec hf v b h]
        refine ⟨fun ⟨u, w, e, hp⟩ => ⟨c :: u, w, by rw [e]; rfl, hp⟩, fun ⟨u, w, e, hp⟩ => ?_⟩
        cases u with
        | nil =>
          rw [show w = c :: v from e.symm] at hp
          exact absurd ((hf _ _ h').2 hp) (by decide)
        | cons d u => cases e; exact ⟨u, w, rfl, hp⟩
      · cases h

/-- The loop against the tokens. -/
theorem like_spec (esc : Option Char) (cs : Bool) (R : Char → Char → Prop) (hR : ∀ c p, sameChar cs c p = true ↔ R c p) :
    ∀ (ps : List Char) e ts v b, tokens esc e ps = some ts → likeLoop esc cs ps e v = some b → (b = true ↔ Matches R ts v) := by
  intro ps
  induction ps with
  | nil =>
    intro e ts v b ht h
    cases e with
    | true => simp [tokens] at ht
    | false =>
      simp only [tokens, Bool.false_eq_true, if_false, Option.some.injEq] at ht
      simp only [likeLoop, Option.some.injEq] at h
      subst ht h
      rw [matches_nil, List.isEmpty_iff]
  | cons p ps ih =>
    have one : ∀ ts v b, tokens esc false ps = some ts → takeOne (sameChar cs · p) (likeLoop esc cs ps false) v = some b → (b = true ↔ Matches R (.ch p :: ts) v) := by
      intro ts v b ht h
      rw [matches_ch]
      cases v with
      | nil => cases h; simp
      | cons c v =>
        rw [takeOne] at h
        split at h
        · rename_i hc
          rw [ih false ts v b ht h]
          exact ⟨fun m => ⟨c, v, rfl, (hR c p).1 hc, m⟩, fun ⟨_, _, e, _, m⟩ => by cases e; exact m⟩
        · rename_i hc
          cases h
          refine ⟨fun h => (nomatch h), fun ⟨_, _, e, r, _⟩ => ?_⟩
          cases e
          exact absurd ((hR c p).2 r) hc
    intro e ts v b ht h
    rw [likeLoop] at h
    cases e with
    | true =>
      rw [if_neg (by simp), if_neg (by simp)] at h
      rw [tokens] at ht
      simp only [Option.map_eq_some_iff] at ht
      obtain ⟨ts', ht, rfl⟩ := ht
      refine one ts' v b ht ?_
      simpa using h
    | false =>
      rw [tokens] at ht
      by_cases he : esc = some p
      · rw [if_pos he] at ht
        rw [if_pos ⟨he, rfl⟩] at h
        exact ih true ts v b ht h
      · rw [if_neg he] at ht
        rw [if_neg fun h => he h.1] at h
        simp only [Option.map_eq_some_iff] at ht
        obtain ⟨ts', ht, rfl⟩ := ht
        by_cases hp : p = '%'
        · rw [if_pos hp]
          rw [if_pos ⟨hp, rfl⟩] at h
          rw [matches_any]
          split at h
          · rename_i hps
            subst hps
            cases h
            simp only [tokens, Bool.false_eq_true, if_false, Option.some.injEq] at ht
            subst ht
            exact ⟨fun _ => ⟨v, [], by simp, .nil⟩, fun _ => rfl⟩
          · exact try_spec (fun w b hw => ih false ts' w b ht hw) v b h
        · rw [if_neg hp]
          rw [if_neg fun h => hp h.1] at h
          by_cases hu : p = '_'
          · rw [if_pos hu, matches_one]
            cases v with
            | nil => cases h; simp
            | cons c v =>
              rw [takeOne, if_pos (by simp [hu])] at h
              rw [ih false ts' v b ht h]
              exact ⟨fun m => ⟨c, v, rfl, m⟩, fun ⟨_, _, e, m⟩ => by cases e; exact m⟩
          · rw [if_neg hu]
            refine one ts' v b ht ?_
            simpa [hu] using h

/-- When `matches_pattern` returns, it says whether the value matches the pattern, for every value and every pattern that does not end in
the escape character: with the same letters, or up to the case of ASCII letters. -/
theorem C35_like_partial (esc : Option Char) {p : List Char} {ts : List Tok} (hp : tokens esc false p = some ts) (v : List Char) (b : Bool) :
    (likeLoop esc true p false v = some b → (b = true ↔ Matches Same ts v)) ∧
    (likeLoop esc false p false v = some b → (b = true ↔ Matches SameLetter ts v)) :=
  ⟨like_spec esc true Same (fun c p => by simp [sameChar, Same]) p false ts v b hp,
    like_spec esc false SameLetter (fun c p => by simp [sameChar, SameLetter]) p false ts v b hp⟩

theorem try_some {f : List Char → Option Bool} {v : List Char} (h1 : ∀ c ∈ v, c.utf8Size = 1) (hf : ∀ w, (∀ c ∈ w, c.utf8Size = 1) → (f w).isSome) :
    (trySuffixes f v).isSome := by
  induction v with
  | nil => exact hf [] h1
  | cons c v ih =>
    have := hf (c :: v) h1
    rw [trySuffixes]
    split
    · rename_i h; rw [h] at this; cases this
    · rfl
    · rw [if_pos (h1 c (List.mem_cons_self ..))]
      exact ih fun d hd => h1 d (List.mem_cons_of_mem _ hd)

/-- On ASCII text it always returns. -/
theorem C35_returns_partial (esc : Option Char) (cs : Bool) (p : List Char) (escaping : Bool) {v : List Char} (h : ∀ c ∈ v, c.utf8Size = 1) :
    (likeLoop esc cs p escaping v).isSome := by
  induction p generalizing escaping v with
  | nil => rfl
  | cons p ps ih =>
    rw [likeLoop]
    split
    · exact ih _ h
    split
    · split
      · rfl
      · exact try_some h fun w hw => ih _ hw
    · cases v with
      | nil => rfl
      | cons c v =>
        have h' : ∀ d ∈ v, d.utf8Size = 1 := fun d hd => h d (List.mem_cons_of_mem _ hd)
        rw [takeOne]
        split
        · exact ih _ h'
        · rfl

-- 'a\%_%z' with the escape character \: the literal a%, one character, anything, z.
example : tokens (some '\\') false "a\\%_%z".toList = some [.ch 'a', .ch '%', .one, .any, .ch 'z'] := by simp [tokens]
example : Matches Same [.ch 'a', .ch '%', .one, .any, .ch 'z'] "a%bxyz".toList :=
  .ch rfl (.ch rfl (.one (.any (u := ['x', 'y']) (.ch rfl .nil))))

/-- A `%` not at the end panics on text that is not ASCII, as in `'é' LIKE '%x'`, instead of giving FALSE. -/
theorem C35_non_ascii_fails : likeLoop none true ['%', 'x'] false ['é'] = none ∧ ∃ ts, tokens none false ['%', 'x'] = some ts ∧ ¬ Matches Same ts ['é'] := by
  refine ⟨by decide +kernel, [.any, .ch 'x'], by simp [tokens], ?_⟩
  rw [matches_any]
  rintro ⟨u, w, e, h⟩
  rw [matches_ch] at h
  obtain ⟨c, w', rfl, rfl, h⟩ := h
  rw [matches_nil] at h
  subst h
  rcases u with _ | ⟨d, _ | ⟨d', u⟩⟩
  · revert e; decide
  · cases e
  · cases e

/-- LIKE as the parser builds it does not distinguish upper and lower case: `'A' LIKE 'a'` is TRUE. -/
theorem C35_case_fails : parseLike none false (.varchar ['A']) (.varchar ['a']) = some true ∧ ∃ ts, tokens none false ['a'] = some ts ∧ ¬ Matches Same ts ['A'] := by
  refine ⟨by decide +kernel, [.ch 'a'], by simp [tokens], ?_⟩
  rw [matches_ch]
  rintro ⟨c, w, e, r, _⟩
  cases e
  revert r
  unfold Same
  decide

/-- NULL is matched as the text "NULL": `NULL LIKE 'n%'` is TRUE and `NULL NOT LIKE 'x'` is TRUE; both should be NULL. A CHAR value is padded to
255 characters before matching, so that `'ab' LIKE 'ab'` is FALSE for it. -/
theorem C35_null_fails : parseLike none false .null (.varchar ['n', '%']) = some true ∧ parseLike none true .null (.varchar ['x']) = some true ∧
    parseLike none false (.char ['a', 'b']) (.varchar ['a', 'b']) = some false := by decide +kernel

/-! ## C36 -/

def Ascii (s : List Byte) : Prop := ∀ b ∈ s, b.val < 128

/-- The characters at the positions from `p` on and before `p + n`, counting from 1. -/
def cut (s : List Byte) (p n : Int) : List Byte :=
  (s.zipIdx.filter fun x => decide (p ≤ (x.2 : Int) + 1 ∧ (x.2 : Int) + 1 < p + n)).map (·.1)

theorem cut_from (s : List Byte) (k : Nat) (p n : Int) (hp : (k : Int) + 1 ≤ p) (hn : 0 ≤ n) :
    ((s.zipIdx k).filter fun x => decide (p ≤ (x.2 : Int) + 1 ∧ (x.2 : Int) + 1 < p + n)).map (·.1) = (s.drop (p - 1 - k).toNat).take n.toNat := by
  induction s generalizing k n p with
  | nil => simp
  | cons b s ih =>
    rw [List.zipIdx_cons, List.filter_cons]
    by_cases h : p = k + 1
    · subst h
      have e : ((k : Int) + 1 - 1 - k).toNat = 0 := by omega
      rw [e, List.drop_zero]
      by_cases h0 : n = 0
      · subst h0
        simp only [Int.add_zero, Int.toNat_zero, List.take_zero]
        rw [if_neg (by simp only [decide_eq_true_eq]; omega)]
        rw [List.filter_eq_nil_iff.2]
        · rfl
        · intro x _
          simp only [decide_eq_true_eq]
          omega
      · rw [if_pos (by simp only [decide_eq_true_eq]; omega)]
        have e2 : n.toNat = (n - 1).toNat + 1 := by omega
        rw [e2, List.take_succ_cons, List.map_cons]
        congr 1
        have := ih (k + 1) ((k + 1 : Nat) + 1) (n - 1) (by omega) (by omega)
        rw [show (((k + 1 : Nat) : Int) + 1 - 1 - ((k + 1 : Nat) : Int)).toNat = 0 by omega, List.drop_zero] at this
        rw [← this]
        congr 1
        apply List.filter_congr
        intro x hx
        have := List.le_snd_of_mem_zipIdx hx
        simp only [decide_eq_decide]
        omega
    · rw [if_neg (by simp only [decide_eq_true_eq]; omega)]
      have e : (p - 1 - k).toNat = (p - 1 - (k + 1 : Nat)).toNat + 1 := by omega
      rw [e, List.drop_succ_cons]
      exact ih (k + 1) p n (by omega) hn

theorem ascii_boundary {s : List Byte} (h : Ascii s) {i : Nat} (hi : i ≤ s.length) : boundary s i = true := by
  unfold boundary
  split
  · rename_i e
    rw [List.getElem?_eq_none_iff] at e
    simp; omega
  · rename_i b e
    have := h b (List.mem_of_getElem? e)
    simp [this]

theorem ascii_slice {s : List Byte} (h : Ascii s) {a b : Nat} (hab : a ≤ b) (hb : b ≤ s.length) : slice s a b = .ok ((s.drop a).take (b - a)) :=
  if_pos ⟨hab, ascii_boundary h (by omega), ascii_boundary h hb⟩

/-- SUBSTRING(s FROM p FOR n) is the `n` characters from position `p` on, for ASCII text, `p` at least 1 and `n` not negative. -/
theorem C36_substring_partial {s : List Byte} (h : Ascii s) {p n : Int} (hp : 1 ≤ p) (hn : 0 ≤ n) : substring s p (some n) = .ok (cut s p n) := by
  have e : cut s p n = (s.drop (p - 1).toNat).take n.toNat := by
    have := cut_from s 0 p n (by omega) hn
    simpa [cut] using this
  rw [e, substring, startIdx, if_pos (by omega)]
  dsimp only
  split
  · rename_i hl
    rw [List.drop_of_length_le hl]; simp
  · split
    · rw [show n.toNat = 0 by omega]; simp
    · rw [ascii_slice h (by omega) (by omega)]
      congr 1
      by_cases hm : (p - 1).toNat + n.toNat ≤ s.length
      · rw [Nat.min_eq_left hm]; congr 1; omega
      · rw [Nat.min_eq_right (by omega), List.take_of_length_le (by simp), List.take_of_length_le (by simp; omega)]

/-- Without FOR it is all characters from `p` on. -/
theorem C36_substring_rest_partial {s : List Byte} (h : Ascii s) {p : Int} (hp : 1 ≤ p) : substring s p none = .ok (s.drop (p.toNat - 1)) := by
  rw [substring, startIdx, if_pos (by omega)]
  dsimp only
  rw [show p.toNat - 1 = (p - 1).toNat by omega]
  split
  · rename_i hl
    rw [List.drop_of_length_le hl]
  · rw [ascii_slice h (by omega) (by omega), List.take_of_length_le (by simp)]

/-- On ASCII text SUBSTRING does not panic, except on the least 32-bit number, whose negation overflows. -/
theorem C36_substring_returns_partial {s : List Byte} (h : Ascii s) {p : Int} (hp : p ≠ lo 3) (n : Option Int) : ∃ t, substring s p n = .ok t := by
  have hs : ∃ a, startIdx s.length p = some a := by
    unfold startIdx
    split
    · exact ⟨_, rfl⟩
    by_cases h0 : p < 0
    · rw [if_pos h0]; exact ⟨_, rfl⟩
    · rw [if_neg h0]; exact ⟨_, rfl⟩
  obtain ⟨a, ha⟩ := hs
  rw [substring, ha]
  dsimp only
  split
  · exact ⟨_, rfl⟩
  · cases n with
    | none => exact ⟨_, ascii_slice h (by omega) (Nat.le_refl _)⟩
    | some n =>
      dsimp only
      split
      · exact ⟨_, rfl⟩
      · exact ⟨_, ascii_slice h (by omega) (by omega)⟩

/-- A position below 1 is not handled as SQL says: `SUBSTRING('abc' FROM 0 FOR 2)` is 'ab', not 'a', and `FROM -1 FOR 3` is 'c', not 'a'. -/
theorem C36_position_fails : substring (lit "abc") 0 (some 2) = .ok (lit "ab") ∧ cut (lit "abc") 0 2 = lit "a" ∧
    substring (lit "abc") (-1) (some 3) = .ok (lit "c") ∧ cut (lit "abc") (-1) 3 = lit "a" := by decide +kernel

/-- Text that is not ASCII can panic: the second byte of 'é' is not the start of a character. The least number overflows. A BigInt position is
cut to 32 bits: `FROM 4294967298` is `FROM 2`. -/
theorem C36_panic_fails : substring [0xc3, 0xa9, 0x61] 2 (some 1) = .panic ∧ substring (lit "abc") (lo 3) none = .overflow ∧
    substringValue (new (.varLen (lit "abc"))) (new (.bigInt 4294967298)) none = .ok (lit "bc") := by decide +kernel

/-- OVERLAY(s PLACING w FROM p FOR n) is the text before position `p`, then `w`, then the text from position `p + n` on; without FOR, `n` is the
length of `w`. -/
theorem C36_overlay_partial {s w : List Byte} (h : Ascii s) {p n : Int} (hp : 1 ≤ p) (hn : 0 ≤ n) :
    overlay s w p (some n) = .ok (s.take (p.toNat - 1) ++ w ++ s.drop (p.toNat - 1 + n.toNat)) ∧
    overlay s w p none = .ok (s.take (p.toNat - 1) ++ w ++ s.drop (p.toNat - 1 + w.length)) := by
  have main : ∀ k : Nat, (if s.length ≤ p.toNat - 1 then StrR.ok (s ++ w) else
      match slice s 0 (p.toNat - 1), slice s (if k = 0 then p.toNat - 1 else min (p.toNat - 1 + k) s.length) s.length with
      | .ok l, .ok r => .ok (l ++ w ++ r)
      | _, _ => .panic) = .ok (s.take (p.toNat - 1) ++ w ++ s.drop (p.toNat - 1 + k)) := by
    intro k
    split
    · rename_i hl
      rw [List.take_of_length_le hl, List.drop_of_length_le (by omega), List.append_nil]
    · rename_i hl
      have hk : (if k = 0 then p.toNat - 1 else min (p.toNat - 1 + k) s.length) = min (p.toNat - 1 + k) s.length := by split <;> omega
      rw [hk, ascii_slice h (by omega) (by omega), ascii_slice h (by omega) (Nat.le_refl _)]
      dsimp only
      rw [List.drop_zero, Nat.sub_zero]
      congr 2
      by_cases hm : p.toNat - 1 + k ≤ s.length
      · rw [Nat.min_eq_left hm, List.take_of_length_le (by simp)]
      · rw [Nat.min_eq_right (by omega)]
        simp
        omega
  refine ⟨?_, ?_⟩
  · rw [overlay, if_neg (by omega), if_neg (by simpa using hn)]
    exact main n.toNat
  · rw [overlay, if_neg (by omega), if_neg (by simp)]
    exact main w.length

/-- OVERLAY refuses number literals up to 32767, which are not of type Integer: `OVERLAY('abc' PLACING 'x' FROM 2)` is an error. -/
theorem C36_overlay_literal_fails (s w : List Byte) {n : Nat} {v : Value} (h : numberLit n = some (.lit v)) (hn : (n : Int) ≤ hi 2) :
    overlayValue (new (.varLen s)) (new (.varLen w)) v none = .err := by
  unfold numberLit at h
  split at h
  · cases h; rfl
  · cases h; rfl

example : Ascii (lit "ferrite") ∧ cut (lit "ferrite") 3 2 = lit "rr" ∧ cut (lit "ferrite") 6 9 = lit "te" := by
  refine ⟨by unfold Ascii; decide +kernel, by decide +kernel, by decide +kernel⟩

/-! ## C71 -/

theorem trimStart_spec (set s : List Char) : ∃ l, s = l ++ trimStart set s ∧ (∀ c ∈ l, c ∈ set) ∧ ∀ c r, trimStart set s = c :: r → c ∉ set := by
  induction s with
  | nil => exact ⟨[], rfl, by simp, fun c r h => (nomatch h)⟩
  | cons a s ih =>
    unfold trimStart
    rw [List.dropWhile_cons]
    split
    · rename_i ha
      obtain ⟨l, e, h1, h2⟩ := ih
      refine ⟨a :: l, by rw [List.cons_append]; exact congrArg _ e, fun c hc => ?_, h2⟩
      rcases List.mem_cons.1 hc with rfl | hc
      · simpa using ha
      · exact h1 c hc
    · rename_i ha
      exact ⟨[], rfl, by simp, fun c r h => by cases h; simpa using ha⟩

theorem trimEnd_spec (set s : List Char) : ∃ r, s = trimEnd set s ++ r ∧ (∀ c ∈ r, c ∈ set) ∧ ∀ c l, trimEnd set s = l ++ [c] → c ∉ set := by
  obtain ⟨l, e, h1, h2⟩ := trimStart_spec set s.reverse
  refine ⟨l.reverse, ?_, fun c hc => h1 c (by simpa using hc), fun c m h => ?_⟩
  · rw [← s.reverse_reverse]
    conv => lhs; rw [e]
    simp [trimEnd]
  · refine h2 c m.reverse ?_
    have := congrArg List.reverse h
    simpa [trimEnd] using this

/-- TRIM removes characters of the set from the asked ends and only those, and leaves none at these ends. -/
theorem C71_trim_partial (t : TrimType) (set s : List Char) : ∃ l r, s = l ++ trim t set s ++ r ∧ (∀ c ∈ l, c ∈ set) ∧ (∀ c ∈ r, c ∈ set) ∧
    (t = .leading → r = []) ∧ (t = .trailing → l = []) ∧
    (t ≠ .trailing → ∀ c m, trim t set s = c :: m → c ∉ set) ∧ (t ≠ .leading → ∀ c m, trim t set s = m ++ [c] → c ∉ set) := by
  obtain ⟨l, e, h1, h2⟩ := trimStart_spec set s
  cases t with
  | leading => exact ⟨l, [], by rw [List.append_nil]; exact e, h1, by simp, fun _ => rfl, fun h => (nomatch h), fun _ => h2, fun h => absurd rfl h⟩
  | trailing =>
    obtain ⟨r, e, h1, h2⟩ := trimEnd_spec set s
    exact ⟨[], r, e, by simp, h1, fun h => (nomatch h), fun _ => rfl, fun h => absurd rfl h, fun _ => h2⟩
  | both =>
    obtain ⟨r, e', h1', h2'⟩ := trimEnd_spec set (trimStart set s)
    refine ⟨l, r, ?_, h1, h1', fun h => (nomatch h), fun h => (nomatch h), fun _ c m hm => ?_, fun _ => h2'⟩
    · rw [List.append_assoc]
      show s = l ++ (trimEnd set (trimStart set s) ++ r)
      rw [← e', ← e]
    · have : trimEnd set (trimStart set s) = c :: m := hm
      rw [this, List.cons_append] at e'
      exact h2 c _ e'

/-- The parser drops the characters of `TRIM(BOTH 'x' FROM s)`: it trims blanks whatever `what` says. -/
theorem C71_trim_what_fails : ∃ s what, ∀ t, parseTrim t (some what) s = s ∧ trim t what s ≠ s :=
  ⟨"xax".toList, ['x'], fun t => by cases t <;> decide +kernel⟩

theorem findStr_spec (w : List Byte) : ∀ s : List Byte, match findStr w s with
    | some k => k ≤ s.length ∧ w <+: s.drop k ∧ ∀ m < k, ¬ w <+: s.drop m
    | none => ∀ m, ¬ w <+: s.drop m := by
  intro s
  induction s with
  | nil =>
    unfold findStr
    by_cases hw : w = []
    · rw [if_pos hw]
      exact ⟨Nat.le_refl _, by rw [hw]; exact List.nil_prefix, fun m hm => absurd hm (Nat.not_lt_zero _)⟩
    · rw [if_neg hw]
      intro m
      simpa using hw
  | cons b s ih =>
    unfold findStr
    by_cases h : w.isPrefixOf (b :: s) = true
    · rw [if_pos h]
      exact ⟨Nat.zero_le _, List.isPrefixOf_iff_prefix.1 h, fun m hm => absurd hm (Nat.not_lt_zero _)⟩
    · rw [if_neg h]
      have h0 : ¬ w <+: b :: s := fun hp => h (List.isPrefixOf_iff_prefix.2 hp)
      cases hf : findStr w s with
      | none =>
        rw [hf] at ih
        intro m
        cases m with
        | zero => exact h0
        | succ m => exact ih m
      | some k =>
        rw [hf] at ih
        refine ⟨by simpa using ih.1, ih.2.1, fun m hm => ?_⟩
        cases m with
        | zero => exact h0
        | succ m => exact ih.2.2 m (Nat.lt_of_succ_lt_succ hm)

/-- POSITION(w IN s) on single-byte text is the first position, from 1, at which `w` occurs in `s`, and 0 if it does not occur. -/
theorem C71_position_partial (w s : List Byte) :
    (position w s = 0 ∧ ∀ m, ¬ w <+: s.drop m) ∨ (1 ≤ position w s ∧ w <+: s.drop (position w s - 1) ∧ ∀ m, m + 1 < position w s → ¬ w <+: s.drop m) := by
  have := findStr_spec w s
  unfold position
  cases h : findStr w s with
  | none => rw [h] at this; exact .inl ⟨rfl, this⟩
  | some k =>
    rw [h] at this
    exact .inr ⟨Nat.le_add_left .., this.2.1, fun m hm => this.2.2 m (Nat.lt_of_succ_lt_succ hm)⟩

/-- In text that is not ASCII it counts bytes: the position of 'b' in 'éb' is 3. -/
theorem C71_position_fails : position (lit "b") [0xc3, 0xa9, 0x62] = 3 := by decide +kernel

end Verif.Sql

import Verif.Sql.Strings

/-!
# SIMILAR TO and RLIKE (`src/sql/execution/expressions/regex_expression.rs`)

The crate `regex` is a parameter, `compile`. What the proofs use of it is written down as `Regex.Faithful`: the meaning of the regular
expressions made of characters, escaped characters, `.`, `.*` and bracketed sets of characters between `^` and `$`.
-/

namespace Verif.Sql.Regex

open Verif.Sql

/-- `regex_syntax::is_meta_character`, the characters `regex::escape` puts a backslash before. -/
def isMeta (c : Char) : Bool :=
  c == '\\' || c == '.' || c == '+' || c == '*' || c == '?' || c == '(' || c == ')' || c == '|' || c == '[' || c == ']' || c == '{' || c == '}'
    || c == '^' || c == '$' || c == '#' || c == '&' || c == '-' || c == '~'

/-- `regex::escape` on one character. -/
def escape (c : Char) : List Char := if isMeta c then ['\\', c] else [c]

/-- Where the loops of `convert_similar_to_pattern` stand: in the outer loop, after the escape character, in the loop of a bracket. -/
inductive Mode where | outer | escaped | bracket

/-- The loops of `convert_similar_to_pattern` (regex_expression.rs:101-126). -/
def convert (esc : Char) : Mode → List Char → List Char
  | _, [] => []
  | .outer, c :: r =>
    if c = esc then convert esc .escaped r
    else if c = '%' then '.' :: '*' :: convert esc .outer r
    else if c = '_' then '.' :: convert esc .outer r
    else if c = '[' then '[' :: convert esc .bracket r
    else escape c ++ convert esc .outer r
  | .escaped, c :: r => escape c ++ convert esc .outer r
  | .bracket, c :: r => if c = ']' then ']' :: convert esc .outer r else escape c ++ convert esc .bracket r

/-- `RegexOperator`, as far as SQL reaches it (regex_expression.rs:17-26, expression_parser.rs:926-976). -/
inductive Op where | similar | rlike

/-- The outcome of an evaluation. -/
inductive R where
  | ok (b : Bool)
  | err
  | panic
  deriving DecidableEq

/-- `convert_similar_to_pattern` (regex_expression.rs:96-129); `none` is the panic of `chars().next().unwrap()` on an empty ESCAPE. -/
def convertPattern (esc : Option (List Char)) (p : List Char) : Option (List Char) := match esc.getD ['\\'] with
  | [] => if p = [] then some ['^', '$'] else none
  | e :: _ => some ('^' :: (convert e .outer p ++ ['$']))

/-- `RegexExpression::evaluate` (regex_expression.rs:133-167) with `get_or_compile_regex` (63-94). `compile` is `Regex::new` and the
`is_match` of what it gives. -/
def regexValue (compile : List Char → Option (List Char → Bool)) (op : Op) (negated : Bool) (esc : Option (List Char)) (v p : Text) : R :=
  match (match op with
    | .similar => convertPattern esc p.show
    | .rlike => some ("(?i)".toList ++ p.show)) with
  | none => .panic
  | some s => match compile s with
    | none => .err
    | some m => .ok (negated ^^ m v.show)

/-! ## The part of the crate's syntax that is used -/

/-- A regular expression of the kind the conversion makes. -/
inductive Item where
  | lit (c : Char)
  | one
  | star
  | set (cs : List Char)

/-- Reading such a regular expression up to the final `$`; in a bracket, with the characters read so far. `none` is anything else. -/
def read : Option (List Char) → List Char → Option (List Item)
  | _, [] => none
  | none, c :: r =>
    if c = '$' then (if r = [] then some [] else none)
    else if c = '\\' then (match r with
      | [] => none
      | d :: r' => if isMeta d then (read none r').map (.lit d :: ·) else none)
    else if c = '.' then (match r with
      | [] => none
      | d :: r' => if d = '*' then (read none r').map (.star :: ·) else (read none (d :: r')).map (.one :: ·))
    else if c = '[' then read (some []) r
    else if isMeta c then none
    else (read none r).map (.lit c :: ·)
  | some cs, c :: r =>
    if c = ']' then (if cs = [] then none else (read none r).map (.set cs :: ·))
    else if c = '\\' then (match r with
      | [] => none
      | d :: r' => if isMeta d then read (some (cs ++ [d])) r' else none)
    else if isMeta c then none
    else read (some (cs ++ [c])) r

/-- `.*` before the rest: it takes any characters but line feeds. -/
def anyThen (f : List Char → Bool) : List Char → Bool
  | [] => f []
  | c :: v => f (c :: v) || (c != '\n' && anyThen f v)

/-- Matching the whole of a text. -/
def matchItems : List Item → List Char → Bool
  | [], v => v.isEmpty
  | .star :: is, v => anyThen (matchItems is) v
  | .one :: is, v => (match v with
    | [] => false
    | c :: v => c != '\n' && matchItems is v)
  | .lit d :: is, v => (match v with
    | [] => false
    | c :: v => c == d && matchItems is v)
  | .set cs :: is, v => (match v with
    | [] => false
    | c :: v => cs.contains c && matchItems is v)

/-- What is taken for granted about the crate. -/
def Faithful (compile : List Char → Option (List Char → Bool)) : Prop :=
  ∀ s is, read none s = some is → compile ('^' :: s) = some (matchItems is)

end Verif.Sql.Regex

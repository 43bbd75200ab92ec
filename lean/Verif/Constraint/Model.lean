/-!
# The constraint validator (`src/catalog/constraints.rs`)

Values are abstract: the validator only asks whether a value is NULL, how it prints, whether two values are equal and whether its decimal is at most zero.
-/

namespace Verif.Constraint

abbrev Text := List Char

/-- What the validator asks of values: `is_null`, `to_string`, `==`, and `as_decimal` giving a number at most `0.0` (constraints.rs:310, 343, 427, 380). -/
structure Vals (V : Type) where
  null : V → Bool
  print : V → Text
  eq : V → V → Bool
  nonpos : V → Bool

/-- The constraints of a column (column.rs:625-740); of the foreign key only that there is one. -/
structure Col where
  name : Text
  notNull : Bool := false
  unique : Bool := false
  primary : Bool := false
  check : Option Text := none
  foreign : Bool := false

/-- `ConstraintViolation` (constraints.rs:160-204), with the name of the column. -/
inductive Violation where
  | notNull (column : Text)
  | unique (column : Text) (value : Text)
  | check (column : Text)
  | primary (column : Text)
  | foreign (column : Text)
  deriving DecidableEq, Repr

/-- `ConstraintValidator` (constraints.rs:223-228): the printed values under `table:column` and the last primary key under `table:pk`, newest first. -/
structure Validator (V : Type) where
  unique : List (Text × Text) := []
  primary : List (Text × V) := []

/-- `str::contains`. -/
def contains (pat : Text) : Text → Bool
  | [] => pat.isEmpty
  | c :: cs => pat.isPrefixOf (c :: cs) || contains pat cs

/-- The texts of CHECK constraints that are looked at (constraints.rs:375-377). -/
def known (c : Text) : Bool := contains "price > 0".toList c || contains "budget > 0".toList c || contains "salary > 0".toList c

variable {V : Type} (O : Vals V)

/-- `validate_not_null` (constraints.rs:309-316). -/
def vNotNull (c : Col) (v : V) : List Violation := if c.notNull && O.null v then [.notNull c.name] else []

/-- `validate_check_constraint` (constraints.rs:367-390). -/
def vCheck (c : Col) (v : V) : List Violation := match c.check with
  | some t => if known t && O.nonpos v then [.check c.name] else []
  | none => []

/-- `format!("{}:{}", table_name, column)`. -/
def keyOf (table column : Text) : Text := table ++ ':' :: column

/-- `validate_unique` (constraints.rs:330-353). -/
def vUnique (s : Validator V) (table : Text) (c : Col) (v : V) : Validator V × List Violation :=
  if !c.unique || O.null v then (s, [])
  else if s.unique.contains (keyOf table c.name, O.print v) then (s, [.unique c.name (O.print v)])
  else ({ s with unique := (keyOf table c.name, O.print v) :: s.unique }, [])

/-- The loop over the columns (constraints.rs:270-287). A row has a value for each column (`tuple.get_value` panics otherwise): the lists are read in step. -/
def vColumns (s : Validator V) (table : Text) : List Col → List V → Validator V × List Violation
  | c :: cs, v :: vs =>
    let r := vUnique O s table c v
    let rest := vColumns r.1 table cs vs
    (rest.1, vNotNull O c v ++ r.2 ++ vCheck O c v ++ rest.2)
  | _, _ => (s, [])

/-- `validate_primary_key` (constraints.rs:404-443): only for a key of one column, and only the last key is remembered. -/
def vPrimary (s : Validator V) (table : Text) (cs : List Col) (vs : List V) : Validator V × List Violation :=
  match (cs.zip vs).filter (·.1.primary) with
  | [(c, v)] => (match s.primary.lookup (keyOf table "pk".toList) with
    | some w => if O.eq w v then (s, [.primary c.name]) else ({ s with primary := (keyOf table "pk".toList, v) :: s.primary }, [])
    | none => ({ s with primary := (keyOf table "pk".toList, v) :: s.primary }, []))
  | _ => (s, [])

/-- `validate_tuple` (constraints.rs:262-299): the violations, none if the tuple is accepted. -/
def validate (s : Validator V) (table : Text) (cs : List Col) (vs : List V) : Validator V × List Violation :=
  let a := vColumns O s table cs vs
  let b := vPrimary O a.1 table cs vs
  (b.1, a.2 ++ b.2)

/-- `validate_foreign_key` (constraints.rs:457-478): the printed value is looked up among the keys of the map. -/
def vForeign (c : Col) (v : V) (keys : List Text) : List Violation :=
  if c.foreign && !O.null v && !keys.contains (O.print v) then [.foreign c.name] else []

/-- `apply_defaults` (constraints.rs:488-503): it only prints. -/
def applyDefaults (_cs : List Col) (vs : List V) : List V := vs

/-- A tuple given to the validator. -/
structure Ask (V : Type) where
  table : Text
  cols : List Col
  row : List V

/-- One validator for a sequence of tuples: the answers in order. -/
def answers (s : Validator V) : List (Ask V) → List (List Violation)
  | [] => []
  | q :: qs => let r := validate O s q.table q.cols q.row; r.2 :: answers r.1 qs

end Verif.Constraint

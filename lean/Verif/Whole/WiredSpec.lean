import Verif.Whole.Wired
import Verif.Whole.TypedSpec

/-!
# What a client is told

The database is the one of `Verif.Whole.TypedSpec`, and `NextT` says what a statement does with it and how it ends. Here it is said what the client hears of that.
-/

namespace Verif.Whole

open Verif.Wire Verif.Bytes Verif.Sql Verif.Exec Verif.Dml
open Verif.Catalog (Cat Tab Col ColDef FkDef ObjName)

/-- What a client asks for with a request. -/
inductive Asks (F : Front) : Net.Request → TReq → Prop where
  | query {sql r} : F.parse sql = some r → Asks F (.query sql) r
  | begin {i} : Asks F (.begin i) .begin
  | commit : Asks F .commit .commit
  | rollback : Asks F .rollback .rollback

/-- The name of a column. -/
def nameIn (cols : List (Catalog.Name × Nat)) (i : Nat) : String := ((cols[i]?).map fun c => String.ofList c.1).getD ""

/-- The name of an aggregate. -/
def aggNameIn (cols : List (Catalog.Name × Nat)) : TAgg → String
  | .countStar => "COUNT_star"
  | .count i => "COUNT_" ++ nameIn cols i
  | .sum i => "SUM_" ++ nameIn cols i
  | .min i => "MIN_" ++ nameIn cols i
  | .max i => "MAX_" ++ nameIn cols i

/-- The names of the columns of an answer: a column has its name, another item its text. -/
def TDb.names (T : TDb) : TReq → List String
  | .select f items _ _ _ _ => match T.cols f with
    | some cols => items.map fun x => match x.1 with
      | .col i => nameIn cols i
      | _ => x.2
    | none => []
  | .distinct f items _ _ _ _ => match T.cols f with
    | some cols => items.map fun x => match x.1 with
      | .col i => nameIn cols i
      | _ => x.2
    | none => []
  | .group f gs fs _ _ _ _ => match T.cols f with
    | some cols => gs.map (nameIn cols) ++ fs.map (aggNameIn cols)
    | none => []
  | _ => []

/-- What the client hears if its request has ended in this way. It is not told how many rows a statement has changed. -/
def Told (F : Front) (names : List String) : Reply → Net.Received → Prop
  | .ok, got => got = .ok (.results [] [] [])
  | .count _, got => got = .ok (.results [] [] [])
  | .rows out, got => got = .ok (.results (names.map F.utf8) out [])
  | .error, got => ∃ m, got = .ok (.error m)

/-- A request, what the client hears, and the database after it. -/
inductive Heard (d : Disk) (F : Front) : TDb → Net.Request → Net.Received → TDb → Prop where
  | done {T q r a got T'} : Asks F q r → NextT d T r a T' → Told F (T.names r) a got → Heard d F T q got T'
  | garbled {T sql m} : F.parse sql = none → Heard d F T (.query sql) (.ok (.error m)) T

/-- Requests one after another. -/
inductive Hears (d : Disk) (F : Front) : TDb → List (Net.Request × Net.Received) → TDb → Prop where
  | nil {T} : Hears d F T [] T
  | cons {T q got T' xs T''} : Heard d F T q got T' → Hears d F T' xs T'' → Hears d F T ((q, got) :: xs) T''

/-- What the client has asked and heard. -/
def said (xs : List Exchange) : List (Net.Request × Net.Received) := xs.map fun x => (x.asked, x.got)

/-- The bytes of a text of ASCII letters. -/
def ascii (s : String) : List Byte := s.toList.map fun c => Fin.ofNat 256 c.toNat

/-- The byte `a` is the letter `w` or its capital. -/
def SameLetter (a w : Byte) : Prop := a = w ∨ (97 ≤ w.val ∧ w.val ≤ 122 ∧ a.val + 32 = w.val)

/-- The text begins with the word, in small or capital letters. -/
def StartsWith (word : List Byte) (sql : List Byte) : Prop :=
  word.length ≤ sql.length ∧ ∀ (i : Nat) (a w : Byte), sql[i]? = some a → word[i]? = some w → SameLetter a w

/-- A DELETE has one space before and after its FROM. -/
def Spaced (sql : List Byte) : Prop := StartsWith (ascii "delete ") sql → StartsWith (ascii "delete from ") sql

/-- `FineT` holds for each request, whatever the rows are that the requests before may leave; and a statement is spaced as Ferrite wants it. -/
def AllFineN (d : Disk) (F : Front) (xs : List Exchange) : Prop := ∀ pre x post, xs = pre ++ x :: post →
  (∀ sql, x.asked = .query sql → Spaced sql) ∧ ∀ T, Hears d F .new (said pre) T → ∀ r, Asks F x.asked r → FineT r T

end Verif.Whole

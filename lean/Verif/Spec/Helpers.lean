import Verif.Spec.Gen
import Verif.Model.Helpers

/-!
# What the insert, upsert and by-key helpers should say
-/

namespace Verif.Spec.Helpers

open Verif Verif.Spec Verif.Spec.Gen Verif.Helpers

variable {R V α : Type}

/-- The entries of a list whose position is not in `gone`. -/
def without (gone : List Nat) (l : List α) : List α :=
  (l.zipIdx.filter fun p => !gone.contains p.2).map (·.1)

/-- Names, separated by commas. -/
def namesB (l : List String) : List (BSym V) := comma (l.map bs)

/-- `INSERT INTO table (columns) VALUES (…),(…)` -/
def insertRowsB (verb table : String) (cols : List String) (rows : List (List V)) : List (BSym V) :=
  bs verb ++ bs table ++ bs " (" ++ namesB cols ++ bs ") VALUES " ++ comma (rows.map rowB)

def returningB (cols : List String) : List (BSym V) := bs " RETURNING " ++ namesB cols ++ bs ";"

/-- Models with one value per column. -/
def Full (m : Mdl R V) : Prop := ∀ r, (m.values r).length = m.columns.length

/-- Positions never inserted: the auto-increment key. -/
def autoPos (m : Mdl R V) : List Nat :=
  match m.key with
  | .single true _ i _ => [i]
  | _ => []

/-- The key positions and names are those of columns. -/
def KeyOk (m : Mdl R V) : Prop :=
  match m.key with
  | .single _ n i _ => m.columns[i]? = some n
  | .comp ns is _ => is.Pairwise (· < ·) ∧ is.map (fun i => m.columns[i]?) = ns.map some
  | .none => True

/-- What `InsertPlaceholders` is for: its group for row `row` takes the `n` values of that row, when
`row` rows of `n` values came before. -/
def GroupOk (V : Type) (st : Style) (n : Nat) (ph : Nat → Txt) : Prop :=
  ∀ (row : Nat) (vs : List V) (t : Txt) (args : List V) (b : List (BSym V)), args.length = row * n →
    vs.length = n → bind st t args = some b → bind st (t ++ ph row) (args ++ vs) = some (b ++ rowB vs)

/-- Comparison of names with values. -/
def tupleB (names : List String) (vals : List V) : List (BSym V) :=
  bs "(" ++ namesB names ++ bs ") = (" ++ comma (vals.map fun v => [.val v]) ++ bs ")"

/-- The key of a model compared with the key of a record. -/
def keyB (m : Mdl R V) (r : R) : List (BSym V) :=
  match m.key with
  | .single _ n _ val => bs n ++ bs " = " ++ [.val (val r)]
  | .comp names _ vals => tupleB names (vals r)
  | .none => []

/-- Models with a key: composite keys have at least one column and a value for each. -/
def HasKey (m : Mdl R V) : Prop :=
  match m.key with
  | .single _ _ _ _ => True
  | .comp names _ vals => names ≠ [] ∧ ∀ r, (vals r).length = names.length
  | .none => False

/-- Assignments `column = value`. -/
def assignB (cols : List String) (vals : List V) : List (BSym V) :=
  comma ((cols.zip vals).map fun p => bs p.1 ++ bs " = " ++ [.val p.2])

/-- Positions of the key. -/
def keyPosOf (m : Mdl R V) : List Nat :=
  match m.key with
  | .single _ _ i _ => [i]
  | .comp _ is _ => is
  | .none => []

/-- Names of the key. -/
def keyNamesOf (m : Mdl R V) : List String :=
  match m.key with
  | .single _ n _ _ => [n]
  | .comp ns _ _ => ns
  | .none => []

/-- The intended update by key. -/
def updateByKeyB (m : Mdl R V) (r : R) : List (BSym V) :=
  bs "UPDATE " ++ bs m.table ++ bs " SET " ++
    assignB (without (keyPosOf m) m.columns) (without (keyPosOf m) (m.values r)) ++
    bs " WHERE " ++ keyB m r ++ bs ";"

/-- `c = EXCLUDED.c` for each of the columns. -/
def excludedB (cols : List String) : List (BSym V) :=
  comma (cols.map fun c => bs c ++ bs " = EXCLUDED." ++ bs c)

/-- The columns a postgres conflict is decided on. -/
def targetOf (m : Mdl R V) (o : UpOpts) : List String :=
  if o.dup = [] then m.dupKeys.getD (keyNamesOf m) else o.dup

/-- The columns that must keep their value on conflict. -/
def keptOf (m : Mdl R V) (o : UpOpts) : List String :=
  keyNamesOf m ++ o.omitted ++ m.omitCols.getD [] ++ targetOf m o

/-- From `ON CONFLICT` on: `cols` are the columns inserted. -/
def onConflictB (m : Mdl R V) (o : UpOpts) (cols : List String) : List (BSym V) :=
  bs " ON CONFLICT(" ++ namesB (targetOf m o) ++ bs ")" ++
    (if o.doNothing then bs " DO NOTHING"
     else bs " DO UPDATE SET " ++ excludedB (cols.filter (· ∉ keptOf m o))) ++
    returningB m.sqlColumns

/-- The mysql update list `c=VALUES(c)`, with the given text between name and function. -/
def onDuplicateB (eq : String) (cols : List String) : List (BSym V) :=
  bs " ON DUPLICATE KEY UPDATE " ++ comma (cols.map fun c => bs c ++ bs eq ++ bs c ++ bs ")")

/-- The call goes wrong: it panics, returns an error, or the database refuses the statement because
parameters and arguments do not match. -/
def Fails (st : Style) : Res (Txt × List V) → Prop
  | .ok (t, as) => bind st t as = none
  | _ => True

/-- The same for batch helpers, which may issue no statement. -/
def FailsB (st : Style) : Res (Option (Txt × List V)) → Prop
  | .ok (some (t, as)) => bind st t as = none
  | .ok none => False
  | _ => True

end Verif.Spec.Helpers

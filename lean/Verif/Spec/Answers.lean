/-!
# Inserting several records into a table of PostgreSQL

What `INSERT INTO t (...) VALUES (...), ... [ON CONFLICT (...) DO NOTHING | DO UPDATE SET ...] RETURNING ...` does,
record by record.  A table is its list of rows.  `P` is a record offered for insertion, `R` a row, `K` the value of
the columns that may not occur twice.
-/

namespace Verif.Answer.Spec

variable {P R K T : Type} [DecidableEq K]

/-- How the table treats a record. -/
structure Table (P R K : Type) where
  /-- the columns that may not occur twice -/
  key : R → K
  /-- the row made from a record, with defaults and generated values; these may depend on the rows there are -/
  make : List R → P → R
  /-- the row that `DO UPDATE` makes of an existing one -/
  upd : P → R → R

/-- Is there a row with this key? -/
def Taken (tb : Table P R K) (rows : List R) (k : K) : Prop := ∃ r ∈ rows, tb.key r = k

instance (tb : Table P R K) (rows : List R) (k : K) : Decidable (Taken tb rows k) := by
  unfold Taken; infer_instance

/-- A plain insert: the rows of the table and the row of each record, or an error that leaves nothing behind. -/
def insertAll (tb : Table P R K) : List R → List P → Option (List R × List (Option R))
  | rows, [] => some (rows, [])
  | rows, p :: ps =>
    let r := tb.make rows p
    if Taken tb rows (tb.key r) then none
    else (insertAll tb (rows ++ [r]) ps).map fun q => (q.1, some r :: q.2)

/-- `ON CONFLICT DO NOTHING`: a record whose key is taken is passed over, and has no row in the answer. -/
def insertOrSkip (tb : Table P R K) : List R → List P → List R × List (Option R)
  | rows, [] => (rows, [])
  | rows, p :: ps =>
    let r := tb.make rows p
    if Taken tb rows (tb.key r) then
      let q := insertOrSkip tb rows ps
      (q.1, none :: q.2)
    else
      let q := insertOrSkip tb (rows ++ [r]) ps
      (q.1, some r :: q.2)

/-- `ON CONFLICT DO UPDATE`: a record whose key is taken changes the row that has it.  The command fails when it
would change a row a second time. -/
def insertOrUpdate (tb : Table P R K) : List K → List R → List P → Option (List R × List (Option R))
  | _, rows, [] => some (rows, [])
  | seen, rows, p :: ps =>
    let r := tb.make rows p
    let k := tb.key r
    if k ∈ seen then none
    else
      match rows.find? (fun x => decide (tb.key x = k)) with
      | some old =>
        let r' := tb.upd p old
        (insertOrUpdate tb (k :: seen) (rows.map fun x => if tb.key x = k then r' else x) ps).map
          fun q => (q.1, some r' :: q.2)
      | none => (insertOrUpdate tb (k :: seen) (rows ++ [r]) ps).map fun q => (q.1, some r :: q.2)

/-- The rows of `RETURNING`: those of the records that have one. -/
def returned (rows : List (Option R)) : List R := rows.filterMap id

/-- Every record holds its own row: the `i`-th record has been read from the row of the `i`-th record, or is as it
was if there is no such row. -/
def OwnRows (read : R → T → T) (rows : List (Option R)) (before after : List T) : Prop :=
  after.length = before.length ∧
  ∀ (i : Nat) t, before[i]? = some t →
    after[i]? = some (match (rows[i]?).join with
      | some r => read r t
      | none => t)

end Verif.Answer.Spec

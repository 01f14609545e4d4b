import Verif.Model.Query

/-!
# What the insert and upsert helpers do with the answer of the database

`cmd/sqlgen/codegen/templates/db.go.tpl:13-69, 98-133, 417-437, 466-485`.  The statements themselves are the
subject of `Model/Helpers.lean`; here only the answer is treated.

A record of the model has type `T`, a row of the answer type `R`.  `scan r t` is `rows.Scan(Ptr(&t).Addrs()...)`
applied to the row `r`: the record afterwards, and whether `Scan` succeeded (a failing `Scan` may have changed
some of the fields).
-/

namespace Verif.Answer

variable {R T : Type}

/-- The loop over the returned rows in `Insert` and `Upsert` of the template for PostgreSQL (db.go.tpl:105-112,
125-132, 430-437).  `i` is the variable of the same name: it counts the rows and selects the record. -/
def loop (scan : R → T → T × Bool) : List R → Nat → List T → List T × Res Nat
  | [], i, data => (data, .ok i)
  | r :: rs, i, data =>
    match data[i]? with
    | none => (data, .panic)
    | some t =>
      let p := scan r t
      if p.2 then loop scan rs (i + 1) (data.set i p.1) else (data.set i p.1, .err)

/-- The end of `Insert` and `Upsert` for PostgreSQL (db.go.tpl:105-113, 125-133, 430-438): the slice given by the
caller afterwards, and the number of affected rows that is reported.  `rows.Err` is not consulted. -/
def store (scan : R → T → T × Bool) (rows : Rows R) (data : List T) : List T × Res Nat :=
  match loop scan rows.rows 0 data with
  | (d, .ok n) => (d, if rows.closeErr then .err else .ok n)
  | (d, e) => (d, e)

/-- `sql.Row.Scan`, with which `InsertOne` and `UpsertOne` for PostgreSQL end (db.go.tpl:21, 33, 324): without a
row the result is an error, `sql.ErrNoRows` or what `rows.Err` says. -/
def storeOne (scan : R → T → T × Bool) (rows : Rows R) (t : T) : T × Res Unit :=
  match rows.rows with
  | [] => (t, .err)
  | r :: _ =>
    let p := scan r t
    if p.2 then (p.1, if rows.closeErr then .err else .ok ()) else (p.1, .err)

end Verif.Answer

import Verif.Spec.Page
import Verif.Model.Cond
import Verif.Model.Pager

/-!
# Pagination at work on a database

`cmd/sqlgen/codegen/templates/db.go.tpl`: `Paginate` (805-821), `Pager.Prev` (827-976) and `Pager.Next` (978-1139), called
for a model that has the generated methods.  The statements are those of `Model/Pager.lean` and, for the lookup of the
cursor, of `Model/Gen.lean`; the database is that of `Spec/Page.lean`.  Between two statements other sessions may change the
database: each statement has its own store.
-/

namespace Verif.Store

open Verif Verif.Gen Verif.Spec Verif.Spec.Sql Verif.Spec.Store

variable {F X V : Type} [DecidableEq F] [DecidableEq V] (E : Env F X V)

/-- `PaginateStmt` (db.go.tpl:805-811). -/
structure Paging (F X : Type) where
  where_ : Option (Cond F X) := none
  orderBy : List (GCol F × Bool) := []
  limit : UInt16 := 0

def pagingOf (p : Paging F X) : Pager.PStmt V where
  where_ := p.where_.map (clause E)
  orderBy := p.orderBy.map (ordering E)
  limit := p.limit

variable (br : Brand) (K : Compare V)

/-- `db.QueryContext` and the loop over the rows (db.go.tpl:940-957, 1103-1121). -/
def pageRows (t : Table F) (zero : F → X) (s : Verif.Stmt V) (σ : Sql.Store V) : Ret (List (F → X)) :=
  rowsOf E t zero <|
    match (Spec.bind E.g.style s.text s.args).bind (readPage br E.D) with
    | some w => execPage K E.null w σ
    | none => .refused

/-- `FindByPK(ctx, db, Ptr(&v))`, if there is a cursor (db.go.tpl:842-847, 993-998). -/
def cursorOf (t : Table F) (hasCursor : Bool) (v : F → X) (σ : Sql.Store V) : Option (F → X) :=
  if hasCursor then
    match (findByPK E t v σ).1 with
    | .ok r => some r
    | _ => none
  else some v

/-- The stores at the lookup of the cursor and at the query of each round. -/
structure Course (V : Type) where
  find : Nat → Sql.Store V
  query : Nat → Sql.Store V

/-- The loop of `Next` and `Prev` (db.go.tpl:841-974, 992-1137), at most `fuel` rounds; `keep i` is the answer of the consumer
to the `i`-th page. -/
def pageLoop (t : Table F) (zero : F → X) (d : Pager.Dir) (p : Pager.PStmt V) (w : Course V) (keep : Nat → Bool) :
    Nat → Nat → Bool → (F → X) → Pager.Run (F → X)
  | 0, _, _, _ => ⟨[], .running⟩
  | fuel + 1, i, hasCursor, v =>
    match cursorOf E t hasCursor v (w.find i) with
    | none => ⟨[.error], .finished⟩
    | some v =>
      match Pager.pageQuery E.g.style (Helpers.ofTable E.g t : Helpers.Mdl (F → V) V) d p hasCursor
          (fun f => E.enc f (v f)) with
      | .panic => ⟨[], .panicked⟩
      | .err => ⟨[.error], .finished⟩
      | .ok s =>
        match pageRows E br K t zero s (w.query i) with
        | .ok data =>
          if data.length.toUInt16 ≤ p.limit then ⟨[.page data], .finished⟩
          else
            match data.getLast? with
            | none => ⟨[], .panicked⟩
            | some v' =>
              if keep i then
                let r := pageLoop t zero d p w keep fuel (i + 1) true v'
                ⟨.page data.dropLast :: r.evs, r.fin⟩
              else ⟨[.page data.dropLast], .finished⟩
        | _ => ⟨[.error], .finished⟩

/-- `Paginate(stmt).Next(ctx, db, cursor...)` resp. `Prev`; `zero` is the zero value of the model. -/
def paginate (t : Table F) (zero : F → X) (d : Pager.Dir) (p : Paging F X) (w : Course V) (keep : Nat → Bool) (fuel : Nat)
    (cursor : Option (F → X)) : Pager.Run (F → X) :=
  match cursor with
  | some c => pageLoop E br K t zero d (Pager.paginate (pagingOf E p)) w keep fuel 0 true c
  | none => pageLoop E br K t zero d (Pager.paginate (pagingOf E p)) w keep fuel 0 false zero

end Verif.Store

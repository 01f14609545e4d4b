import Verif.Model.Fault
import Verif.Model.Page

/-!
# Pagination over connections that fail

`Pager.Prev` and `Pager.Next` (`cmd/sqlgen/codegen/templates/db.go.tpl:827-1139`) as in `Model/Page.lean`, with what
`database/sql` hands them when a connection fails, as in `Model/Fault.lean`: the record at which a page begins is read with
`Row.Scan`, the page itself with `for rows.Next()` (db.go.tpl:946-957, 1109-1120).
-/

namespace Verif.Program

open Verif Verif.Gen Verif.Spec Verif.Spec.Sql Verif.Spec.Store Verif.Store Verif.Spec.Program

variable {F X V : Type} [DecidableEq F] [DecidableEq X] [DecidableEq V] (E : Env F X V) (br : Brand) (K : Compare V)

/-- What happens on the way to the lookup of the cursor and to the query of each round. -/
structure Troubles where
  find : Nat → Fault
  query : Nat → Fault

/-- See `Store.pageRows`. -/
def pageRowsOn (f : Fault) (t : Table F) (zero : F → X) (s : Verif.Stmt V) (σ : Sql.Store V) : Ret (List (F → X)) :=
  rowsOf E t zero (looped f σ
    (match (Spec.bind E.g.style s.text s.args).bind (readPage br E.D) with
    | some w => execPage K E.null w σ
    | none => .refused, σ)).1

/-- See `Store.cursorOf`. -/
def cursorOn (f : Fault) (t : Table F) (hasCursor : Bool) (v : F → X) (σ : Sql.Store V) : Option (F → X) :=
  if hasCursor then
    match (performOn E f t (.find v) σ).1 with
    | .ok r => some r
    | _ => none
  else some v

/-- See `Store.pageLoop` (db.go.tpl:841-974, 992-1137). -/
def pageLoopOn (f : Troubles) (t : Table F) (zero : F → X) (d : Pager.Dir) (p : Pager.PStmt V) (w : Course V) (keep : Nat → Bool) :
    Nat → Nat → Bool → (F → X) → Pager.Run (F → X)
  | 0, _, _, _ => ⟨[], .running⟩
  | fuel + 1, i, hasCursor, v =>
    match cursorOn E (f.find i) t hasCursor v (w.find i) with
    | none => ⟨[.error], .finished⟩
    | some v =>
      match Pager.pageQuery E.g.style (Helpers.ofTable E.g t : Helpers.Mdl (F → V) V) d p hasCursor
          (fun f => E.enc f (v f)) with
      | .panic => ⟨[], .panicked⟩
      | .err => ⟨[.error], .finished⟩
      | .ok s =>
        match pageRowsOn E br K (f.query i) t zero s (w.query i) with
        | .ok data =>
          if data.length.toUInt16 ≤ p.limit then ⟨[.page data], .finished⟩
          else
            match data.getLast? with
            | none => ⟨[], .panicked⟩
            | some v' =>
              if keep i then
                let r := pageLoopOn f t zero d p w keep fuel (i + 1) true v'
                ⟨.page data.dropLast :: r.evs, r.fin⟩
              else ⟨[.page data.dropLast], .finished⟩
        | _ => ⟨[.error], .finished⟩

/-- `Paginate(stmt).Next(ctx, db, cursor...)` resp. `Prev`: see `Store.paginate`. -/
def paginateOn (f : Troubles) (t : Table F) (zero : F → X) (d : Pager.Dir) (p : Paging F X) (w : Course V) (keep : Nat → Bool)
    (fuel : Nat) (cursor : Option (F → X)) : Pager.Run (F → X) :=
  match cursor with
  | some c => pageLoopOn E br K f t zero d (Pager.paginate (pagingOf E p)) w keep fuel 0 true c
  | none => pageLoopOn E br K f t zero d (Pager.paginate (pagingOf E p)) w keep fuel 0 false zero

end Verif.Program

import Verif.Model.Gen

/-!
# The generator's use of pooled string builders

`buildSqlColumns`, `buildFindByPK`, `buildInsertOne`, `buildUpdateByPK`, `sqlScanner`, `sqlValuer`
(`cmd/sqlgen/codegen/generate.go:411-670,746-772`) again, this time with the builders they take from
and give back to `strpool` (`sequel/strpool/pool.go:9-26`).

`sync.Pool` may give back any builder put into it or make a new one; which one is left to a
schedule.  The most recent one first is a possible schedule (`lifo`).
-/

namespace Verif.GenPool

open Verif Verif.Gen

/-- State of the pool. -/
structure PS where
  /-- contents of each builder -/
  bufs : Nat → Txt := fun _ => []
  /-- builders in the pool -/
  free : List Nat := []
  /-- number of builders made so far -/
  next : Nat := 0
  /-- how often each builder was handed out and given back -/
  acq : Nat → Nat := fun _ => 0
  rel : Nat → Nat := fun _ => 0
  /-- the schedule: at the n-th acquisition, the builder at this place, or a new one -/
  sched : Nat → Option Nat := fun _ => none
  tick : Nat := 0

/-- The schedule that always gives back the builder put in last. -/
def lifo : Nat → Option Nat := fun _ => some 0

/-- Go code with access to the pool. -/
def M (α : Type) := PS → Res α × PS

instance : Monad M where
  pure a := fun s => (.ok a, s)
  bind m f := fun s =>
    match m s with
    | (.ok a, s') => f a s'
    | (.err, s') => (.err, s')
    | (.panic, s') => (.panic, s')

def upd {β : Type} (f : Nat → β) (i : Nat) (v : β) : Nat → β := fun j => if j = i then v else f j

/-- `AcquireString` (pool.go:19-21). -/
def acquire : M Nat := fun s =>
  match s.sched s.tick with
  | some k =>
    match s.free[k]? with
    | some b => (.ok b, { s with free := s.free.eraseIdx k, tick := s.tick + 1, acq := upd s.acq b (s.acq b + 1) })
    | none => (.ok s.next, { s with bufs := upd s.bufs s.next [], next := s.next + 1, tick := s.tick + 1,
                                    acq := upd s.acq s.next (s.acq s.next + 1) })
  | none => (.ok s.next, { s with bufs := upd s.bufs s.next [], next := s.next + 1, tick := s.tick + 1,
                                  acq := upd s.acq s.next (s.acq s.next + 1) })

/-- `ReleaseString` (pool.go:23-26): reset and put back. -/
def release (b : Nat) : M Unit := fun s =>
  (.ok (), { s with bufs := upd s.bufs b [], free := b :: s.free, rel := upd s.rel b (s.rel b + 1) })

/-- `WriteString`. -/
def write (b : Nat) (x : Txt) : M Unit := fun s => (.ok (), { s with bufs := upd s.bufs b (s.bufs b ++ x) })

/-- `String`. -/
def contents (b : Nat) : M Txt := fun s => (.ok (s.bufs b), s)

/-- `Reset`. -/
def resetB (b : Nat) : M Unit := fun s => (.ok (), { s with bufs := upd s.bufs b [] })

/-- A returned error. -/
def fail {α : Type} : M α := fun s => (.err, s)

/-- Compute a text, then write it. -/
def put (b : Nat) (m : M Txt) : M Unit := do
  let x ← m
  write b x

/-- `defer strpool.ReleaseString(b)` around the rest of a function. -/
def deferRelease {α : Type} (b : Nat) (m : M α) : M α := fun s => ((m s).1, (release b (m s).2).2)

variable {F : Type}

/-- Common part of `sqlScanner` and `sqlValuer` (generate.go:746-772): execute into a builder of its
own, return its contents, release it on the way out. -/
def execP (t : Tmpl) (x : Txt) : M Txt := do
  let b ← acquire
  deferRelease b (match t.exec x with
    | .ok y => do
      write b y
      contents b
    | _ => fail)

/-- `sqlScanner` (generate.go:746-758). -/
def sqlScannerP (g : Cfg) (c : GCol F) : M Txt :=
  match c.sqlScan with
  | some t => execP t (tx (g.quoteId c.name))
  | none => pure (tx (g.quoteId c.name))

/-- `sqlValuer` (generate.go:760-772). -/
def sqlValuerP (g : Cfg) (c : GCol F) (idx : Nat) : M Txt :=
  match c.sqlVal with
  | some t => execP t [g.style.var (idx + 1)]
  | none => pure [g.style.var (idx + 1)]

/-- The loops over columns: a comma between entries, then the code writing the entry. -/
def loopP (b : Nat) (f : Nat → GCol F → M Unit) : Nat → List (GCol F) → M Unit
  | _, [] => pure ()
  | i, c :: cs => do
    write b (if i > 0 then tx "," else [])
    f i c
    loopP b f (i + 1) cs

/-- One entry of `buildSqlColumns` (generate.go:419-436): the contents are written to the list before
the entry's builder is released. -/
def sqlColumnP (g : Cfg) (qt : Txt → Txt) (b : Nat) (c : GCol F) : M Unit :=
  match c.sqlScan with
  | some u => do
    let d ← acquire
    match u.exec (tx (g.ident c.name)) with
    | .ok y => do
      write d y
      let r ← contents d
      write b (qt r)
      release d
    | _ => do
      release d
      fail
  | none => write b (qt (tx (g.ident c.name)))

/-- `buildSqlColumns` (generate.go:411-444): the text of the list; `qt` is `Generator.Quote`. -/
def buildSqlColumnsP (g : Cfg) (qt : Txt → Txt) (t : Table F) : M Txt := do
  let b ← acquire
  deferRelease b (do
    loopP b (fun _ c => sqlColumnP g qt b c) 0 t.columns
    contents b)

/-- The condition on the key, shared by the two builders below: `n` is the number used for a single
key, `off` the number of parameters before a composite one. -/
def condP (g : Cfg) (b : Nat) (t : Table F) (n off : Nat) : M Unit :=
  match t.autoCol, t.keyCols with
  | some pk, _ => write b (tx (g.quoteId pk.name) ++ tx " = " ++ [g.style.var n])
  | none, [pk] => write b (tx (g.quoteId pk.name) ++ tx " = " ++ [g.style.var n])
  | none, ks => do
    write b (tx "(" ++ g.keyNames ks ++ tx ")" ++ tx " = ")
    write b (tx "(")
    loopP b (fun i c => put b (sqlValuerP g c (i + off))) 0 ks
    write b (tx ")")

/-- `buildFindByPK` (generate.go:476-540): the statement text. -/
def buildFindP (g : Cfg) (t : Table F) : M Txt := do
  let b ← acquire
  write b (tx "SELECT ")
  loopP b (fun _ c => put b (sqlScannerP g c)) 0 t.columns
  write b (tx " FROM ")
  let q ← match t.ownTable with
    | none => do
      write b (tx (g.quoteId t.name))
      pure []
    | some n => do
      let r ← contents b
      resetB b
      pure (r ++ tx n)
  write b (tx " WHERE ")
  condP g b t 1 0
  write b (tx " LIMIT 1;")
  let r ← contents b
  release b
  pure (q ++ r)

/-- The beginning of the other two builders: the verb and the table. -/
def headP (g : Cfg) (b : Nat) (verb : String) (t : Table F) : M Txt :=
  match t.ownTable with
  | none => do
    write b (tx verb ++ tx (g.quoteId t.name))
    pure []
  | some n => pure (tx verb ++ tx n)

/-- `buildInsertOne` (generate.go:542-605). -/
def buildInsertP (g : Cfg) (t : Table F) : M Txt := do
  let b ← acquire
  let q ← headP g b "INSERT INTO " t
  write b (tx " (")
  loopP b (fun _ c => write b (tx (g.quoteId c.name))) 0 t.insertColumns
  write b (tx ") VALUES (")
  loopP b (fun i c => put b (sqlValuerP g c i)) 0 t.insertColumns
  write b (tx ")")
  if g.postgres then do
    write b (tx " RETURNING ")
    loopP b (fun _ c => put b (sqlScannerP g c)) 0 t.columns
  write b (tx ";")
  let r ← contents b
  release b
  pure (q ++ r)

/-- `buildUpdateByPK` (generate.go:607-670), with both releases (lines 659 and 668). -/
def buildUpdateP (g : Cfg) (t : Table F) : M Txt := do
  let b ← acquire
  let q ← headP g b "UPDATE " t
  write b (tx " SET ")
  loopP b (fun i c => do
    let v ← sqlValuerP g c i
    write b (tx (g.quoteId c.name) ++ tx " = " ++ v)) 0 t.columnsWithoutPK
  write b (tx " WHERE ")
  condP g b t t.columns.length t.columnsWithoutPK.length
  write b (tx ";")
  let r ← contents b
  release b
  release b
  pure (q ++ r)

end Verif.GenPool

import Verif.Base.Go

/-!
# The statement pool

`AcquireStmt`, `ReleaseStmt`, `SqlStmt.Reset`, `Query`, `Args`
(`cmd/sqlgen/codegen/templates/db.go.tpl:1400-1531`), and in the same way `strpool.AcquireString`,
`strpool.ReleaseString` (`sequel/strpool/pool.go:9-26`).

Objects are numbered.  Each has two growing buffers (the text in its `strings.Builder`, the argument
slice) that are Go slices: a backing array, a length; the capacity is the size of the backing array.
`append` writes in place when there is room and moves to a new array otherwise.  Handing the text or
the arguments to the database copies the slice header only, so the receiver shares the backing
array.

`sync.Pool` may give back any object put into it, make a new one even if it has some, and drop any
object at any time.
-/

namespace Verif.Pool

variable {α : Type}

structure Slice where
  arr : Nat
  len : Nat
  deriving DecidableEq, Repr

/-- State of the program: the heap of backing arrays, the objects, the pool, the clients. -/
structure State (α : Type) where
  heap : List (List α) := []
  /-- buffers of each object: `false` the text, `true` the arguments; `none` is a nil slice -/
  buf : Nat → Bool → Option Slice := fun _ _ => none
  /-- placeholder counter of each object -/
  pos : Nat → Nat := fun _ => 0
  /-- objects allocated so far -/
  count : Nat := 0
  /-- objects in the pool -/
  free : List Nat := []
  /-- objects in the hands of clients -/
  held : List Nat := []
  /-- slices handed over, with what they contained at that time -/
  handed : List (Option Slice × List α) := []

/-- Elements of a slice. -/
def read (heap : List (List α)) : Option Slice → List α
  | none => []
  | some s => (heap.getD s.arr []).take s.len

/-- `append(b, x)`; `spare` is the unused room (with arbitrary contents) of a newly made array. -/
def append (heap : List (List α)) (b : Option Slice) (x : α) (spare : List α) :
    List (List α) × Option Slice :=
  match b with
  | none => (heap ++ [x :: spare], some ⟨heap.length, 1⟩)
  | some s =>
    if s.len < (heap.getD s.arr []).length then
      (heap.set s.arr ((heap.getD s.arr []).set s.len x), some ⟨s.arr, s.len + 1⟩)
    else
      (heap ++ [(heap.getD s.arr []).take s.len ++ x :: spare], some ⟨heap.length, s.len + 1⟩)

/-- Change one entry of a table. -/
def upd {β : Type} (f : Nat → β) (i : Nat) (v : β) : Nat → β := fun j => if j = i then v else f j

/-- `Reset` (db.go.tpl:1527-1531): both slices become nil (`strings.Builder.Reset` also sets its
slice to nil), the counter zero. -/
def reset (s : State α) (i : Nat) : State α :=
  { s with buf := upd s.buf i (fun _ => none), pos := upd s.pos i 0 }

/-- Actions of clients and of the pool. -/
inductive Act (α : Type) where
  /-- `AcquireStmt` giving back pooled object `i` (db.go.tpl:1408-1410) -/
  | acquire (i : Nat)
  /-- `AcquireStmt` with `New` (db.go.tpl:1400-1406) -/
  | acquireNew
  /-- `WriteString`, `Var`, `Vars` on a held object: one element is appended -/
  | append (i : Nat) (k : Bool) (x : α) (spare : List α)
  /-- the counter moves on -/
  | advance (i : Nat) (n : Nat)
  /-- `Query` or `Args`: the slice is handed over -/
  | hand (i : Nat) (k : Bool)
  /-- `Reset` called by a client (db.go.tpl:1527-1531) -/
  | reset (i : Nat)
  /-- `ReleaseStmt` (db.go.tpl:1412-1417) -/
  | release (i : Nat)
  /-- the pool drops an object -/
  | drop (i : Nat)

/-- One step.  Clients only touch what they hold; actions that are impossible change nothing. -/
def step (s : State α) : Act α → State α
  | .acquire i =>
    if i ∈ s.free then { s with free := s.free.erase i, held := i :: s.held } else s
  | .acquireNew => { s with count := s.count + 1, held := s.count :: s.held }
  | .append i k x spare =>
    if i ∈ s.held then
      let (h, b) := append s.heap (s.buf i k) x spare
      { s with heap := h, buf := upd s.buf i (fun k' => if k' = k then b else s.buf i k') }
    else s
  | .advance i n => if i ∈ s.held then { s with pos := upd s.pos i (s.pos i + n) } else s
  | .hand i k =>
    if i ∈ s.held then { s with handed := (s.buf i k, read s.heap (s.buf i k)) :: s.handed } else s
  | .reset i => if i ∈ s.held then reset s i else s
  | .release i =>
    if i ∈ s.held then
      let s := reset s i
      { s with free := i :: s.free, held := s.held.erase i }
    else s
  | .drop i => { s with free := s.free.erase i }

/-- The state after a sequence of actions. -/
def run (s : State α) (as : List (Act α)) : State α := as.foldl step s

/-- A release without the rule that a client must still hold the object: what the code does when
called twice. -/
def rawRelease (s : State α) (i : Nat) : State α :=
  let s := reset s i
  { s with free := i :: s.free, held := s.held.erase i }

end Verif.Pool

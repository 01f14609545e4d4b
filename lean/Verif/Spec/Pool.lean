import Verif.Model.Pool

/-!
# The reference for the pool: every acquisition makes a brand new statement

The abstract machine has no pool, no shared memory: a table from held objects to their contents, and
an append-only record of what has been handed over.
-/

namespace Verif.Spec.Pool

open Verif.Pool (Act)

variable {α : Type}

/-- Contents of one statement: text, arguments, counter. -/
structure Content (α : Type) where
  buf : Bool → List α := fun _ => []
  pos : Nat := 0

/-- Held statements and what has been handed over so far (latest first). -/
structure AState (α : Type) where
  live : Nat → Option (Content α) := fun _ => none
  handed : List (List α) := []

/-- What an action on object `i` does. -/
def astep (a : AState α) (i : Nat) : Act α → AState α
  | .acquire _ | .acquireNew => { a with live := fun j => if j = i then some {} else a.live j }
  | .append _ k x _ =>
    { a with live := fun j => if j = i then
        (a.live j).map fun c => { c with buf := fun k' => if k' = k then c.buf k' ++ [x] else c.buf k' }
      else a.live j }
  | .advance _ n =>
    { a with live := fun j => if j = i then (a.live j).map fun c => { c with pos := c.pos + n }
      else a.live j }
  | .hand _ k => { a with handed := ((a.live i).map fun c => c.buf k).getD [] :: a.handed }
  | .reset _ =>
    { a with live := fun j => if j = i then (a.live j).map fun _ => {} else a.live j }
  | .release _ => { a with live := fun j => if j = i then none else a.live j }
  | .drop _ => a

/-- The object an action concerns, if the action is possible in the pooled program: which object an
acquisition yields is the pool's choice. -/
def target (s : Verif.Pool.State α) : Act α → Option Nat
  | .acquire i => if i ∈ s.free then some i else none
  | .acquireNew => some s.count
  | .append i _ _ _ => if i ∈ s.held then some i else none
  | .advance i _ => if i ∈ s.held then some i else none
  | .hand i _ => if i ∈ s.held then some i else none
  | .reset i => if i ∈ s.held then some i else none
  | .release i => if i ∈ s.held then some i else none
  | .drop _ => none

/-- The abstract machine following the pooled program. -/
def follow (s : Verif.Pool.State α) (a : AState α) : List (Act α) → AState α
  | [] => a
  | x :: xs =>
    follow (Verif.Pool.step s x) (match target s x with | some i => astep a i x | none => a) xs

/-- The pooled state looks like the abstract one: same held objects, same contents, and every slice
handed over still reads as what was handed over. -/
def Looks (s : Verif.Pool.State α) (a : AState α) : Prop :=
  (∀ i, (a.live i).isSome ↔ i ∈ s.held) ∧
  (∀ i c, a.live i = some c →
    (∀ k, Verif.Pool.read s.heap (s.buf i k) = c.buf k) ∧ s.pos i = c.pos) ∧
  s.handed.map (fun p => Verif.Pool.read s.heap p.1) = a.handed

end Verif.Spec.Pool

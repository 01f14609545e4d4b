import Verif.Model.Methods

/-!
# Which method a call runs
-/

namespace Verif.Methods.Spec

open Verif.Methods

variable (D : Nat → Struct)

/-- What a place embeds: there is a pointer on the way if there was one, or if a pointer is embedded. -/
def embedded (p : Place) : List Place :=
  (D p.id).embeds.map fun e => { id := e.1, indirect := if e.2 then true else p.indirect }

/-- Fields and methods of this name that a struct declares itself. -/
def declared (m : Name) (p : Place) : List Hit :=
  ((D p.id).fields.filter fun f => f = m).head?.toList.map (fun _ => Hit.field) ++
    (D p.id).methods.filterMap fun x => if x.name = m then some (Hit.method p.id x.sig x.ptr p.indirect) else none

/-- The places at depth `d` below the given ones. -/
def level : Nat → List Place → List Place
  | 0, ps => ps
  | d + 1, ps => level d (ps.flatMap (embedded D))

/-- Everything of this name at depth `d`. -/
def named (m : Name) (d : Nat) (ps : List Place) : List Hit := (level D d ps).flatMap (declared D m)

/-- The selector `x.m` denotes `h`: it is the only thing of this name at the least depth where there is one
(https://go.dev/ref/spec#Selectors). -/
def Denotes (m : Name) (ps : List Place) (h : Hit) : Prop :=
  ∃ d, named D m d ps = [h] ∧ ∀ e, e < d → named D m e ps = []

/-- The struct `id` (or a pointer to it) has the method `m` with the wanted signature, and a call runs that of `owner`:
a method with a pointer receiver needs a pointer on the way (https://go.dev/ref/spec#Method_sets). -/
def Runs (id : Nat) (ptr : Bool) (m : Name) (owner : Nat) : Prop :=
  ∃ p ind, Denotes D m [⟨id, ptr⟩] (.method owner true p ind) ∧ (p = true → ind = true)

/-- `n` levels are enough to find the name, if it is anywhere. -/
def Enough (m : Name) (n : Nat) (ps : List Place) : Prop :=
  ∀ d, n ≤ d → (∀ e, e < d → named D m e ps = []) → named D m d ps = []

/-- None of the structs that `id` embeds, at any depth, has anything of this name. -/
def Unused (id : Nat) (ptr : Bool) (m : Name) : Prop := ∀ d, named D m d [⟨id, ptr⟩] = []

/-- The methods the library looks for: of the struct, and `Addrs` of a pointer to it; `Values` unless the struct is
read-only (sequel/sequel.go:30-52). -/
def Asked (o : Opts) (m : Name) (ptr : Bool) : Prop :=
  (ptr = false ∧ (m = "TableName".toList ∨ m = "SQLColumns".toList ∨ m = "Columns".toList ∨
    (o.readonly = false ∧ m = "Values".toList))) ∨ (ptr = true ∧ m = "Addrs".toList)

/-- Those that the library needs: `SQLColumns` if a column has its own SQL, `Values` if there are columns to insert. -/
def Required (o : Opts) (m : Name) (ptr : Bool) : Prop :=
  Asked o m ptr ∧ (m = "SQLColumns".toList → o.mapped = true) ∧ (m = "Values".toList → o.insertable = true)

end Verif.Methods.Spec

import Verif.Base.Go

/-!
# Methods that a struct has already

`Table.Implements` and `Table.PtrImplements` (`cmd/sqlgen/internal/compiler/compiler.go:93-99`), which ask
`types.MissingMethod`, and what `generateModels` does with the answer (`cmd/sqlgen/codegen/generate.go:144-151, 177-213`).
The methods in question each belong to an interface with one method: `TableName`, `SQLColumns`, `Columns`, `Values`
(of the struct) and `Addrs` (of a pointer to it).
-/

namespace Verif.Methods

abbrev Name := List Char

/-- A declared method: its name, whether its signature is the wanted one, whether its receiver is a pointer. -/
structure Method where
  name : Name
  sig : Bool
  ptr : Bool
  deriving DecidableEq, Repr

/-- A struct declaration: its fields, its methods, and the structs it embeds (by value or by pointer).  The names of
embedded structs are among the fields. -/
structure Struct where
  fields : List Name
  methods : List Method
  embeds : List (Nat × Bool)
  deriving DecidableEq, Repr

/-- A place that is reached by embedding: the struct, and whether there is a pointer on the way. -/
structure Place where
  id : Nat
  indirect : Bool
  deriving DecidableEq, Repr

/-- Something with the name that is looked for. -/
inductive Hit where
  | field
  | method (owner : Nat) (sig ptr indirect : Bool)
  deriving DecidableEq, Repr

variable (D : Nat → Struct)

def hitsAt (m : Name) (p : Place) : List Hit :=
  (if m ∈ (D p.id).fields then [.field] else []) ++
    ((D p.id).methods.filter fun x => x.name = m).map fun x => .method p.id x.sig x.ptr p.indirect

def below (p : Place) : List Place := (D p.id).embeds.map fun e => ⟨e.1, p.indirect || e.2⟩

/-- Go's rule for selectors (`lookupFieldOrMethodImpl` of go/types): the structs at one depth are searched before
those below; a name that occurs twice at the least depth is not found.  Go does not search a struct again below; as
the name was not found in it, that makes no difference to the answer.  `n` levels are searched. -/
def lookup (m : Name) : Nat → List Place → Option Hit
  | 0, _ => none
  | n + 1, ps =>
    match ps.flatMap (hitsAt D m) with
    | [] => lookup m n (ps.flatMap (below D))
    | [h] => some h
    | _ => none

/-- The answer of `types.MissingMethod`. -/
inductive Answer where
  | present (owner : Nat)
  | missing
  | wrongType
  deriving DecidableEq, Repr

/-- `types.MissingMethod` for the struct `id`, or for a pointer to it. -/
def missingMethod (n id : Nat) (ptr : Bool) (m : Name) : Answer :=
  match lookup D m n [⟨id, ptr⟩] with
  | none => .missing
  | some .field => .missing
  | some (.method o sig p ind) => if (p && !ind) || !sig then .wrongType else .present o

/-- What `generateModels` does about one method (generate.go:144-151, 177-213): a method that is missing is written, one that
has another type is an error, which is kept in a list that nobody reads, or stops the program in strict mode. -/
inductive Act where
  | write
  | log
  | nothing
  | stop
  deriving DecidableEq, Repr

def act (strict : Bool) : Answer → Act
  | .missing => .write
  | .wrongType => if strict then .stop else .log
  | .present _ => .nothing

/-- What else decides about the methods: whether the struct is read-only, whether the type of some column has its own
SQL for reading, whether there are columns to insert. -/
structure Opts where
  readonly : Bool
  mapped : Bool
  insertable : Bool

/-- The methods asked about, in the order of `generateModels`; whether a pointer is asked; whether a missing method is
written.  `Values` is left out for read-only structs (generate.go:199).  `SQLColumns` is written if a column has its own
SQL (generate.go:438), `Values` if there are columns to insert (generate.go:448). -/
def wanted (o : Opts) : List (Name × Bool × Bool) :=
  [("TableName".toList, false, true), ("SQLColumns".toList, false, o.mapped), ("Columns".toList, false, true)] ++
    (if o.readonly then [] else [("Values".toList, false, o.insertable)]) ++ [("Addrs".toList, true, true)]

/-- The declarations after the method `m` was written for the struct `id`. -/
def written (id : Nat) (m : Name) (ptr : Bool) : Nat → Struct := fun i =>
  if i = id then { D i with methods := ⟨m, true, ptr⟩ :: (D i).methods } else D i

/-- The declarations after generation of `m` for `id`, where `body` tells whether there is something to write; `none` if
the program stops. -/
def generate (strict : Bool) (n id : Nat) (m : Name) (ptr body : Bool) : Option (Nat → Struct) :=
  match act strict (missingMethod D n id ptr m) with
  | .write => if body then some (written D id m ptr) else some D
  | .log => some D
  | .nothing => some D
  | .stop => none

/-- The methods, one after the other.  The code asks about the sources as they were read; the methods have different
names, so it makes no difference that the model asks about the declarations as they are by then. -/
def generateAll (strict : Bool) (n id : Nat) : List (Name × Bool × Bool) → (Nat → Struct) → Option (Nat → Struct)
  | [], D => some D
  | (m, ptr, body) :: rest, D => (generate D strict n id m ptr body).bind (generateAll strict n id rest)

end Verif.Methods

import Verif.Base.Sql

/-!
# What the database sees: parameters substituted for placeholders

Independent of the statement builders.  `bind` is undefined when the number of arguments does not
match the placeholders.
-/

namespace Verif.Spec

/-- Text with values in place of placeholders. -/
inductive BSym (V : Type) where
  | ch (c : Char)
  | val (v : V)
  deriving DecidableEq, Repr

variable {V : Type}

/-- Anonymous placeholders take the arguments from left to right, all of them. -/
def bindAnon : Txt → List V → Option (List (BSym V))
  | [], [] => some []
  | [], _ :: _ => none
  | .ch c :: t, a => (bindAnon t a).map (.ch c :: ·)
  | .anon :: _, [] => none
  | .anon :: t, v :: a => (bindAnon t a).map (.val v :: ·)
  | .num _ :: _, _ => none

/-- Substitution of numbered placeholders. -/
def substNum (args : List V) : Txt → Option (List (BSym V))
  | [] => some []
  | .ch c :: t => (substNum args t).map (.ch c :: ·)
  | .anon :: _ => none
  | .num n :: t =>
    match n with
    | 0 => none
    | k + 1 =>
      match args[k]?, substNum args t with
      | some v, some r => some (.val v :: r)
      | _, _ => none

/-- The placeholder numbers in the order of the text. -/
def nums : Txt → List Nat
  | [] => []
  | .num n :: t => n :: nums t
  | _ :: t => nums t

/-- Every argument must be referred to (the database cannot tell the type of an unused parameter), and
every number must have an argument. -/
def bindNum (t : Txt) (args : List V) : Option (List (BSym V)) :=
  if ∀ k < args.length, k + 1 ∈ nums t then substNum args t else none

def bind : Style → Txt → List V → Option (List (BSym V))
  | .anon => bindAnon
  | .numbered => bindNum

/-- A string as bound text. -/
def bs (s : String) : List (BSym V) := s.toList.map .ch

/-- Texts without placeholders. -/
def Plain (t : Txt) : Prop := ∀ s ∈ t, ∃ c, s = .ch c

/-- The characters of a text, placeholders dropped. -/
def lit : Txt → List (BSym V)
  | [] => []
  | .ch c :: t => .ch c :: lit t
  | _ :: t => lit t

end Verif.Spec

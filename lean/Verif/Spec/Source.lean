/-!
# What a source denotes

Paths as lists of names, independently of how the generator treats their texts.
-/

namespace Verif.Source.Spec

abbrev Text := List Char

/-- Names of files and directories. -/
def Name (n : Text) : Prop := n ≠ [] ∧ '/' ∉ n ∧ n ≠ ['.'] ∧ n ≠ ['.', '.']

instance (n : Text) : Decidable (Name n) := inferInstanceAs (Decidable (_ ∧ _))

/-- The text of an absolute path (other than that of the root). -/
def path : List Text → Text
  | [] => []
  | n :: ns => '/' :: (n ++ path ns)

/-- The text of a relative path. -/
def rel : List Text → Text
  | [] => []
  | [n] => n
  | n :: ns => n ++ '/' :: rel ns

/-- Where one gets from a directory by following the parts of a path. -/
inductive Goes : List Text → List Text → List Text → Prop
  | done {ns} : Goes ns [] ns
  | stay {ns p ps r} : p = [] ∨ p = ['.'] → Goes ns ps r → Goes ns (p :: ps) r
  | up {ns ps r} : Goes ns.dropLast ps r → Goes ns (['.', '.'] :: ps) r
  | down {ns p ps r} : Name p → Goes (ns ++ [p]) ps r → Goes ns (p :: ps) r

/-- A text without stars denotes, seen from a directory, another directory or a file. -/
def Denotes (pwd : List Text) (src : Text) (r : List Text) : Prop :=
  src ≠ [] ∧ ∃ ps : List Text, ps ≠ [] ∧ (∀ p ∈ ps, '/' ∉ p) ∧ src = rel ps ∧ Goes (if src.head? = some '/' then [] else pwd) ps r

/-- The text starts with a dot that is not followed by a separator. -/
def Dotted (src : Text) : Prop := ∃ c s, src = '.' :: c :: s ∧ c ≠ '/'

/-- Characters without a meaning in patterns or regular expressions. -/
def PlainChar (c : Char) : Prop :=
  c ∉ ['+', '?', '(', ')', '|', '[', ']', '{', '}', '^', '$', '*', '\\', '\n']

instance (c : Char) : Decidable (PlainChar c) := inferInstanceAs (Decidable (_ ∉ _))

/-- A file name matches a pattern with one star. -/
def Glob (x y name : Text) : Prop := ∃ v, name = x ++ v ++ y

end Verif.Source.Spec

import Verif.Base.Go

/-! # Import paths and qualified names, independently of the generator -/

namespace Verif.Expr

/-- ASCII letters. -/
def Letter (c : Char) : Prop := ('a' ≤ c ∧ c ≤ 'z') ∨ ('A' ≤ c ∧ c ≤ 'Z')

/-- Characters of import paths (https://go.dev/ref/mod#go-mod-file-ident), without `~` and `+`. -/
def PathChar (c : Char) : Prop := Letter c ∨ ('0' ≤ c ∧ c ≤ '9') ∨ c = '_' ∨ c = '.' ∨ c = '-'

/-- An element of an import path that starts with a letter. -/
def Elem (p : List Char) : Prop := ∃ c cs, p = c :: cs ∧ Letter c ∧ ∀ d ∈ cs, PathChar d

/-- An import path given by its elements. -/
def pathOf : List (List Char) → List Char
  | [] => []
  | [p] => p
  | p :: ps => p ++ '/' :: pathOf ps

/-- A name: a letter, then letters, digits and underscores. -/
def Name (n : List Char) : Prop := ∃ c cs, n = c :: cs ∧ Letter c ∧ ∀ d ∈ cs, Letter d ∨ ('0' ≤ d ∧ d ≤ '9') ∨ d = '_'

/-- A text has another in it. -/
def Has (s t : List Char) : Prop := ∃ a b, s = a ++ t ++ b

end Verif.Expr

import Mathlib.Data.List.Basic

/-! # What names should look like -/

namespace Verif.Spec.Naming

def capital (b : Nat) : Prop := 65 ≤ b ∧ b ≤ 90
def small (b : Nat) : Prop := 97 ≤ b ∧ b ≤ 122
def digit (b : Nat) : Prop := 48 ≤ b ∧ b ≤ 57

instance (b : Nat) : Decidable (capital b) := inferInstanceAs (Decidable (_ ∧ _))
instance (b : Nat) : Decidable (small b) := inferInstanceAs (Decidable (_ ∧ _))
instance (b : Nat) : Decidable (digit b) := inferInstanceAs (Decidable (_ ∧ _))

/-- The ASCII letters and digits of a text. -/
def alnums (s : List Nat) : List Nat := s.filter fun b => capital b ∨ small b ∨ digit b

/-- In small letters. -/
def lc (b : Nat) : Nat := if capital b then b + 32 else b

/-- Letters, digits and underscores, starting with a letter. -/
def AsciiIdent (s : List Nat) : Prop :=
  (∃ c r, s = c :: r ∧ (capital c ∨ small c)) ∧ ∀ b ∈ s, capital b ∨ small b ∨ digit b ∨ b = 95

/-- A word: one or more small letters. -/
def Word (w : List Nat) : Prop := w ≠ [] ∧ ∀ b ∈ w, small b

/-- With a capital letter at the beginning. -/
def capitalise : List Nat → List Nat
  | [] => []
  | c :: r => (c - 32) :: r

/-- Words with underscores between them. -/
def join : List (List Nat) → List Nat
  | [] => []
  | [w] => w
  | w :: v :: ws => w ++ 95 :: join (v :: ws)

end Verif.Spec.Naming

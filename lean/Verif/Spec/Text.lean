import Verif.Spec.Query

/-!
# Finding the placeholders in the text of a statement

What the database (or its driver) does with the characters it is sent, for texts in which the
placeholder character occurs in no other role: `?` is a placeholder; `$` followed by digits is a
numbered placeholder.
-/

namespace Verif.Spec

variable {V : Type}

def scanAnon : List Char → Txt
  | [] => []
  | c :: s => (if c = '?' then .anon else .ch c) :: scanAnon s

/-- `$` and the longest run of digits after it. -/
def scanNum : List Char → Txt
  | [] => []
  | c :: s =>
    if c = '$' then
      match s.takeWhile Char.isDigit with
      | [] => .ch c :: scanNum s
      | ds => .num (Nat.ofDigitChars 10 ds 0) :: scanNum (s.dropWhile Char.isDigit)
    else .ch c :: scanNum s
  termination_by s => s.length
  decreasing_by
    all_goals simp
    have := (List.dropWhile_sublist (p := Char.isDigit) (l := s)).length_le
    omega

def scan : Style → List Char → Txt
  | .anon => scanAnon
  | .numbered => scanNum

/-- The character that introduces placeholders. -/
def special : Style → Char
  | .anon => '?'
  | .numbered => '$'

/-- The text with printed values in place of placeholders. -/
def showB (strf : V → List Char) : List (BSym V) → List Char
  | [] => []
  | .ch c :: t => c :: showB strf t
  | .val v :: t => strf v ++ showB strf t

/-! ### Statements whose strings do not contain the placeholder character -/

/-- Strings without the placeholder character. -/
def CleanStr (st : Style) (x : String) : Prop := ∀ c ∈ x.toList, c ≠ special st

mutual
/-- Column names of a condition. -/
def names : Clause V → List String
  | .and cs => namesL cs
  | .or cs => namesL cs
  | .cmp _ c _ => [c.name]
  | .isIn _ c _ => [c.name]
  | .null _ c => [c.name]
  | .between _ c _ _ => [c.name]
def namesL : List (Clause V) → List String
  | [] => []
  | c :: cs => names c ++ namesL cs
end

/-- No string of the model contains the placeholder character. -/
def CleanModel (st : Style) (m : ModelInfo) : Prop :=
  (∀ t, m.table = some t → CleanStr st t) ∧ (∀ d, m.database = some d → CleanStr st d) ∧
  (∀ l, m.columns = some l → ∀ c ∈ l, CleanStr st c) ∧
  (∀ l, m.sqlColumns = some l → ∀ c ∈ l, CleanStr st c)

/-- No string of a query contains the placeholder character. -/
def CleanSelect (st : Style) (q : Select V) : Prop :=
  (∀ x ∈ q.select, CleanStr st x) ∧ CleanStr st q.fromTable ∧
  (∀ c, q.where_ = some c → ∀ n ∈ names c, CleanStr st n) ∧
  (∀ g ∈ q.groupBy, CleanStr st g) ∧ (∀ o ∈ q.orderBy, CleanStr st o.col)

def CleanUpdate (st : Style) (u : Update V) : Prop :=
  CleanStr st u.table ∧ (∀ c ∈ u.set, CleanStr st c.col.name) ∧
  (∀ c, u.where_ = some c → ∀ n ∈ names c, CleanStr st n) ∧ (∀ o ∈ u.orderBy, CleanStr st o.col)

def CleanDelete (st : Style) (u : Delete V) : Prop :=
  CleanStr st u.fromTable ∧
  (∀ c, u.where_ = some c → ∀ n ∈ names c, CleanStr st n) ∧ (∀ o ∈ u.orderBy, CleanStr st o.col)

end Verif.Spec

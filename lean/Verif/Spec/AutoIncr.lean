import Verif.Model.AutoIncr
import Verif.Spec.Numeral

/-! # Generated keys -/

namespace Verif.AutoIncr.Spec

/-- A key denotes a number: it is the number, or a numeral for it. -/
inductive Denotes : Key → Int → Prop
  | int (n : Int) : Denotes (.int n) n
  | text {t : Bytes} {n : Int} : Verif.Spec.SignedNumeral t n → Denotes (.text t) n

/-- The numbers that a type of keys has. -/
def Fits : KeyType → Int → Prop
  | .signed w, n => -(2 ^ (w - 1) : Int) ≤ n ∧ n < (2 ^ (w - 1) : Int)
  | .unsigned w, n => 0 ≤ n ∧ n < (2 ^ w : Int)
  | .string, _ => True

/-- What MySQL does with a record that is inserted or updated, with the key of its row: the row is new, was there
and is left alone (`INSERT IGNORE`), or was there and is changed (`ON DUPLICATE KEY UPDATE`). -/
inductive Fate where
  | inserted (key : Int)
  | ignored (key : Int)
  | updated (key : Int)

/-- The key of the row of the record. -/
def Fate.key : Fate → Int
  | .inserted k => k
  | .ignored k => k
  | .updated k => k

/-- `LAST_INSERT_ID()` afterwards (MySQL 8.0 manual, 14.15): 0 if no row was inserted because of `IGNORE`. -/
def Fate.reported : Fate → Int
  | .inserted k => k
  | .ignored _ => 0
  | .updated k => k

/-- No other field has the name of `k` at the same depth or above. -/
def Unshadowed (fs : List Fld) (k : Fld) : Prop := ∀ f ∈ fs, f.name = k.name → f ≠ k → k.path.length < f.path.length

end Verif.AutoIncr.Spec

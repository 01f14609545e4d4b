import Verif.Model.Binary
import Verif.Spec.Fixed

/-!
# C115: values that write themselves as bytes

What `BinaryMarshaler` writes is what `BinaryUnmarshaler` reads from the column again.

True of columns of bytes, for values that have bytes.  In a column of text: exactly when the driver hands over bytes, and spaces at the end
are kept.  False of values whose bytes are a nil slice.
-/

namespace Verif.Props

open Verif Verif.Binary Verif.Scan Verif.Spec.Fixed

variable {T : Type} {M : Methods T}

/-- What the package encoding asks of types: the bytes of a value are read as the value, whatever the variable held. -/
def Faithful (M : Methods T) : Prop := ∀ v b old, M.marshal v = some (some b) → M.unmarshal old b = some v

/-- `Gets M col old v r`: if `v` is written to the column and the database keeps it, then a variable that held `old` may get the result `r`;
for NULL, the driver hands over nil. -/
inductive Gets (M : Methods T) (col : Spec.Fixed.Col) (old v : T) : Option T → Prop
  | kept {p c s} : value M v = some p → Keeps col p c → Hands c s → Gets M col old v (scan M old s)
  | null : value M v = some .nil → Gets M col old v (scan M old .nil)

/-- C115: a column of bytes gives the value back. -/
theorem C115_blob (hf : Faithful M) {old v : T} {b : Bytes} (hv : M.marshal v = some (some b)) (r : Option T) :
    Gets M .blob old v r ↔ r = some v := by
  constructor
  · intro h
    cases h with
    | kept h1 h2 h3 =>
      cases h2 with
      | blob =>
        cases h3 with
        | blob =>
          have e : value M v = some (.bytes b) := by simp [value, hv]
          rw [e] at h1
          cases h1
          exact hf v b old hv
    | null h1 => simp [value, hv] at h1
  · rintro rfl
    have h := Gets.kept (M := M) (old := old) (v := v) (p := .bytes b) (by simp [value, hv]) .blob .blob
    rwa [show scan M old (.bytes b) = some v from hf v b old hv] at h

/-- C115: a column of text gives the value back for all drivers that hand over bytes, if it keeps spaces at the end; and never if the driver
hands over a string. -/
theorem C115_text_partial (hf : Faithful M) {old v : T} {b : Bytes} (hv : M.marshal v = some (some b)) {limit : Option Nat} {nul : Bool}
    {c : Verif.Fixed.Cell} (hk : Keeps (.text limit nul true) (.bytes b) c) {s : Src} (hs : Hands c s) :
    scan M old s = some v ↔ ∃ t, s = .bytes t := by
  cases hk with
  | text ht _ =>
    cases ht with
    | bytes =>
      cases hs with
      | str => simp [scan]
      | bytes => simp [scan, hf v b old hv]

/-- C115: columns that do not keep spaces at the end hand over other bytes than were written. -/
theorem C115_spaces {limit : Option Nat} {nul : Bool} {b s : Bytes} {c : Verif.Fixed.Cell}
    (hk : Keeps (.text limit nul false) (.bytes (b ++ [32])) c) (hs : Hands c (.bytes s)) : s ≠ b ++ [32] := by
  cases hk with
  | trimmed ht _ h =>
    cases ht with
    | bytes =>
      cases hs with
      | bytes =>
        have key : ∀ {x y : Bytes}, Trimmed x y → ∀ t, y ≠ t ++ [32] := fun h => by cases h; assumption
        exact key h b

/-- C115: nothing but bytes is read: not NULL, and no text. -/
theorem C115_only_bytes {old r : T} {s : Src} (h : scan M old s = some r) : ∃ b, s = .bytes b ∧ M.unmarshal old b = some r := by
  cases s with
  | bytes b => exact ⟨b, rfl, h⟩
  | _ => cases h

/-- C115 is false of values whose bytes are a nil slice: they are written, as NULL, and never read. -/
theorem C115_nil_never {col : Spec.Fixed.Col} {old v : T} (hv : M.marshal v = some none) (r : Option T) (h : Gets M col old v r) : r = none := by
  have e : value M v = some .nil := by simp [value, hv]
  cases h with
  | kept h1 h2 =>
    rw [e] at h1
    cases h1
    cases h2 with
    | text ht => cases ht
    | trimmed ht => cases ht
  | null => rfl

/-- C115: what fails to be written is not sent. -/
theorem C115_fails {col : Spec.Fixed.Col} {old v : T} (hv : M.marshal v = none) (r : Option T) : ¬ Gets M col old v r := by
  have e : value M v = none := by simp [value, hv]
  intro h
  cases h with
  | kept h1 => rw [e] at h1; cases h1
  | null h1 => rw [e] at h1; cases h1

/-! ## Examples -/

/-- Sixteen bytes, as in packages for UUIDs. -/
def uuidMethods : Methods { l : Bytes // l.length = 16 } where
  marshal v := some (some v.1)
  unmarshal _ b := if h : b.length = 16 then some ⟨b, h⟩ else none

theorem uuid_faithful : Faithful uuidMethods := by
  intro v b old h
  simp only [uuidMethods, Option.some.injEq] at h
  subst h
  simp [uuidMethods, v.2]

example (v old : { l : Bytes // l.length = 16 }) (r) : Gets uuidMethods .blob old v r ↔ r = some v := C115_blob uuid_faithful rfl r

/-- A type that writes the empty text as a nil slice. -/
def nilMethods : Methods Bytes where
  marshal v := some (if v = [] then none else some v)
  unmarshal _ b := some b

example : Gets nilMethods .blob [1] [] none := .null rfl

end Verif.Props

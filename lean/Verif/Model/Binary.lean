import Verif.Model.Scan

/-!
# Values that write themselves as bytes

`sequel/types/binary.go`.
-/

namespace Verif.Binary

open Verif.Scan

/-- The methods of a type `T`: `MarshalBinary` may fail and may give a nil slice, `UnmarshalBinary` may fail. -/
structure Methods (T : Type) where
  marshal : T → Option (Option Bytes)
  unmarshal : T → Bytes → Option T

/-- `BinaryMarshaler(v).Value()` (binary.go:16-24) as drivers take it: a nil slice is NULL. -/
def value {T : Type} (M : Methods T) (v : T) : Option Src :=
  match M.marshal v with
  | none => none
  | some none => some .nil
  | some (some b) => some (.bytes b)

/-- `BinaryUnmarshaler(&old).Scan(src)` (binary.go:33-47): the error, or what the variable then holds.  What `UnmarshalBinary` does to the
variable before it fails is left out. -/
def scan {T : Type} (M : Methods T) (old : T) : Src → Option T
  | .bytes b => M.unmarshal old b
  | _ => none

end Verif.Binary

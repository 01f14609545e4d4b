import Verif.Model.Scan

/-! # Booleans of the database catalogue -/

namespace Verif.Scan

/-- Whether `strings.ToUpper` turns the text into this word.  `ſ` (U+017F) is the only letter outside ASCII whose capital
is an ASCII letter. -/
def upperIs : Bytes → Bytes → Bool
  | [], [] => true
  | w :: ws, b :: bs =>
    if b = w ∨ b = w + 32 then upperIs ws bs
    else
      match bs with
      | b2 :: bs2 => w = 83 && b = 0xC5 && b2 = 0xBF && upperIs ws bs2
      | [] => false
  | _, _ => false

/-- The branches of `Bool.Scan` for text (cmd/sqlgen/internal/sqltype/bool.go:16-42). -/
def sqlBoolText (s : Bytes) : Res Bool :=
  if upperIs [89, 69, 83] s then .ok true
  else if upperIs [78, 79] s then .ok false
  else
    match parseBool s with
    | some b => .ok b
    | none => .err

/-- `Bool.Scan` (cmd/sqlgen/internal/sqltype/bool.go:14-53): the new value. -/
def sqlBool : Src → Res Bool
  | .bytes s => sqlBoolText s
  | .str s => sqlBoolText s
  | .int64 n => .ok (if n = 1 then false else true)
  | _ => .err

end Verif.Scan

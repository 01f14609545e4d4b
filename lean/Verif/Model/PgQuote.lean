import Verif.Base.Go

/-! # pgutil.Quote — sequel/driver/postgres/pgutil/pgutil.go:3-32 -/

namespace Verif

/-- One iteration of the loop (pgutil.go:7-28).  39 is `'`, 8/12/10/13/9 are `\b \f \n \r \t`,
92 is a backslash. -/
def quoteByte (c : Byte) : Bytes :=
  if c = 39 then [39, 39]
  else if c = 8 then [92, 98]
  else if c = 12 then [92, 102]
  else if c = 10 then [92, 110]
  else if c = 13 then [92, 114]
  else if c = 9 then [92, 116]
  else if c = 92 then [92, 92]
  else [c]

/-- `Quote`: 69 is `E`. -/
def pgQuote (s : Bytes) : Bytes := [69, 39] ++ s.flatMap quoteByte ++ [39]

end Verif

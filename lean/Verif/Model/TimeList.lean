import Verif.Model.Marshal

/-!
# Lists of times as text

`MarshalTimeList` (`sequel/encoding/marshaler.go:84-96`) with `time.Time.Format` of Go 1.24 for its layout, which is `time.RFC3339` in
quotation marks.  A time has the zone it is shown in.
-/

namespace Verif.TimeList

/-- A `time.Time`: nanoseconds since 1970-01-01 00:00:00 UTC, and the seconds by which clocks in its zone are ahead of UTC then. -/
structure Moment where
  ns : Int
  off : Int

/-- `absDays.date` (time.go of Go): year, month and day.  Years begin in March, and days are counted from 0000-03-01; the package moves the
origin by a multiple of 400 years, so that its divisions are those of whole numbers here.  Products by reciprocals are written as the
divisions they stand for. -/
def civil (n : Int) : Int × Nat × Nat :=
  let d := 4 * (n + 719468) + 3
  let century := d / 146097
  let cd := 4 * ((d % 146097).toNat / 4) + 3
  let cyear := cd / 1461
  let z := 5 * (cd % 1461 / 4) + 461
  let m := z / 153
  let early := if 12 < m then 1 else 0
  (century * 100 + (cyear + early : Nat), m - 12 * early, z % 153 / 5 + 1)

/-- `appendInt` (format.go of Go): zeros up to a width. -/
def appendInt (x : Int) (width : Nat) : Bytes :=
  (if x < 0 then [45] else []) ++ (List.replicate (width - (natDec x.natAbs).length) 48 ++ natDec x.natAbs)

/-- `Z07:00`: minutes are rounded towards zero. -/
def zone (off : Int) : Bytes :=
  if off = 0 then [90]
  else
    let zone := off.tdiv 60
    (if zone < 0 then 45 else 43) :: (appendInt (zone.natAbs / 60 : Nat) 2 ++ 58 :: appendInt (zone.natAbs % 60 : Nat) 2)

/-- `Format(time.RFC3339)` -/
def format (t : Moment) : Bytes :=
  let wall := t.ns / 1000000000 + t.off
  let (y, m, d) := civil (wall / 86400)
  let s := (wall % 86400).toNat
  appendInt y 4 ++ 45 :: (appendInt m 2 ++ 45 :: (appendInt d 2 ++ 84 ::
    (appendInt (s / 3600 : Nat) 2 ++ 58 :: (appendInt (s % 3600 / 60 : Nat) 2 ++ 58 :: (appendInt (s % 60 : Nat) 2 ++ zone t.off)))))

/-- `MarshalTimeList` (marshaler.go:84-96): the quotation marks are part of the layout. -/
def times : List Moment → Bytes := Marshal.list fun t => 34 :: (format t ++ [34])

end Verif.TimeList

import Verif.Model.Scan

/-!
# Times in text

`parseTime` (`sequel/encoding/time.go:98-109`) with `time.Parse` of Go 1.24, for the four layouts it uses.  A time is
the number of nanoseconds since 1970-01-01 00:00:00 UTC; the zone that is attached to it is left out.  `time.Parse`
tries `parseRFC3339` first, which accepts some of the texts that `parse` accepts, with the same result; only `parse` is
modelled.
-/

namespace Verif.Time

open Verif.Scan (isDig layout Std)

/-- `isLeap` (time.go of Go) -/
def isLeap (y : Nat) : Bool := if y % 25 ≠ 0 then y % 4 = 0 else y % 16 = 0

/-- `daysIn` -/
def daysIn (m y : Nat) : Nat :=
  if m = 2 then if isLeap y then 29 else 28 else 30 + (m + m / 8) % 2

/-- `dateToAbsDays`, counted from 1970-01-01; 400 years stand for the 292277022400 years by which the package moves
the origin. -/
def days (y m d : Nat) : Int :=
  let early := if m < 3 then 1 else 0
  let m' := m + 12 * early
  let y' := y + 400 - early
  ((146097 * (y' / 100) / 4 + (1461 * (y' % 100) / 4 + (979 * m' - 2919) / 32 + d - 1) : Nat) : Int) - 865565

def dig (b : Byte) : Nat := b.toNat - 48

/-- One character of a layout that stands for itself. -/
def lit (c : Byte) : Bytes → Option Bytes
  | [] => none
  | b :: r => if b = c then some r else none

/-- `getnum(s, true)` -/
def two : Bytes → Option (Nat × Bytes)
  | a :: b :: r => if isDig a && isDig b then some (dig a * 10 + dig b, r) else none
  | _ => none

/-- `getnum(s, false)` -/
def oneTwo : Bytes → Option (Nat × Bytes)
  | [] => none
  | a :: r =>
    if isDig a then
      match r with
      | [] => some (dig a, [])
      | b :: r' => if isDig b then some (dig a * 10 + dig b, r') else some (dig a, b :: r')
    else none

/-- A year. -/
def four : Bytes → Option (Nat × Bytes)
  | a :: b :: c :: d :: r =>
    if isDig a && isDig b && isDig c && isDig d then
      some (((dig a * 10 + dig b) * 10 + dig c) * 10 + dig d, r)
    else none
  | _ => none

def number (ds : Bytes) : Nat := ds.foldl (fun a b => a * 10 + dig b) 0

/-- `parseNanoseconds`: nine digits at most. -/
def nanos (ds : Bytes) : Nat := number (ds.take 9) * 10 ^ (9 - (ds.take 9).length)

/-- Fractions of a second, if there are any. -/
def frac : Bytes → Nat × Bytes
  | [] => (0, [])
  | p :: r =>
    if (p = 46 ∨ p = 44) ∧ r.takeWhile isDig ≠ [] then (nanos (r.takeWhile isDig), r.dropWhile isDig)
    else (0, p :: r)

/-- `Z`, or hours and minutes; in seconds. -/
def zone : Bytes → Option (Int × Bytes)
  | [] => none
  | b :: r =>
    if b = 90 then some (0, r)
    else if b = 43 ∨ b = 45 then do
      let (h, r) ← two r
      let r ← lit 58 r
      let (m, r) ← two r
      if 24 < h ∨ 60 < m then none
      else some (if b = 43 then ((h * 60 + m) * 60 : Nat) else -(((h * 60 + m) * 60 : Nat) : Int), r)
    else none

/-- Year, month and day. -/
def date (s : Bytes) : Option (Int × Bytes) := do
  let (y, s) ← four s
  let s ← lit 45 s
  let (m, s) ← two s
  let s ← lit 45 s
  let (d, s) ← two s
  if 1 ≤ m ∧ m ≤ 12 ∧ 1 ≤ d ∧ d ≤ daysIn m y then some (days y m d, s) else none

/-- Hour, minute and second; in nanoseconds. -/
def clock (s : Bytes) : Option (Nat × Bytes) := do
  let (h, s) ← oneTwo s
  let s ← lit 58 s
  let (m, s) ← two s
  let s ← lit 58 s
  let (c, s) ← two s
  let (n, s) := frac s
  if h < 24 ∧ m < 60 ∧ c < 60 then some (((h * 60 + m) * 60 + c) * 1000000000 + n, s) else none

/-- `time.Parse` with the layouts `2006-01-02`, `2006-01-02 15:04:05`, `2006-01-02 15:04:05.999999` and
`time.RFC3339Nano`.  A space of a layout matches any number of spaces; here one, which is what the regular expressions
let through. -/
def parse (l : Nat) (s : Bytes) : Option Int := do
  let (d, s) ← date s
  if l = 0 then
    if s = [] then some (d * 86400000000000) else none
  else
    let s ← lit (if l = 3 then 84 else 32) s
    let (c, s) ← clock s
    let (z, s) ← if l = 3 then zone s else some (0, s)
    if s = [] then some (d * 86400000000000 + c - z * 1000000000) else none

/-- `parseTime` (time.go:98-109) -/
def parseTime (s : Bytes) : Option Int := parse (layout s) s

/-- The standard library, with numbers for times. -/
structure IsGo (lib : Std) (tag : Int → Nat) : Prop where
  parseTime : ∀ s, lib.parseTime (layout s) s = (parseTime s).map tag
  unix : ∀ n, lib.unix n = tag (n * 1000000000)

end Verif.Time

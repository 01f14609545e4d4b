import Verif.Base.Go
import Verif.Spec.Numeral

/-!
# What texts for times mean

The Gregorian calendar, by counting days from 0000-01-01; times are nanoseconds since 1970-01-01 00:00:00 UTC.
-/

namespace Verif.Spec.Time

def Leap (y : Nat) : Prop := 4 ∣ y ∧ (¬ 100 ∣ y ∨ 400 ∣ y)

instance (y : Nat) : Decidable (Leap y) := by unfold Leap; infer_instance

def monthLength (y m : Nat) : Nat :=
  if m = 2 then (if Leap y then 29 else 28)
  else if m = 4 ∨ m = 6 ∨ m = 9 ∨ m = 11 then 30 else 31

def yearLength (y : Nat) : Nat := if Leap y then 366 else 365

/-- Days before a year. -/
def beforeYear : Nat → Nat
  | 0 => 0
  | y + 1 => beforeYear y + yearLength y

/-- Days of a year before a month; January is month 1. -/
def beforeMonth (y : Nat) : Nat → Nat
  | 0 => 0
  | 1 => 0
  | m + 2 => beforeMonth y (m + 1) + monthLength y (m + 1)

/-- A day of the calendar. -/
structure Date where
  year : Nat
  month : Nat
  day : Nat

def Date.Valid (d : Date) : Prop :=
  d.year ≤ 9999 ∧ 1 ≤ d.month ∧ d.month ≤ 12 ∧ 1 ≤ d.day ∧ d.day ≤ monthLength d.year d.month

/-- The number of a day; 1970-01-01 has number 0. -/
def Date.number (d : Date) : Int :=
  (beforeYear d.year + beforeMonth d.year d.month + (d.day - 1) : Nat) - (beforeYear 1970 : Nat)

/-- A time of the day. -/
structure Clock where
  hour : Nat
  minute : Nat
  second : Nat

def Clock.Valid (c : Clock) : Prop := c.hour < 24 ∧ c.minute < 60 ∧ c.second < 60

def Clock.seconds (c : Clock) : Nat := c.hour * 3600 + c.minute * 60 + c.second

/-- Nanoseconds since 1970-01-01 00:00:00, in the zone of the clock. -/
def instant (d : Date) (c : Clock) (ns : Nat) : Int := (d.number * 86400 + c.seconds) * 1000000000 + ns

/-! ## Texts -/

def digit (n : Nat) : Byte := UInt8.ofNat (48 + n)

/-- Two digits. -/
def dd (n : Nat) : Bytes := [digit (n / 10), digit (n % 10)]

/-- Four digits. -/
def dddd (n : Nat) : Bytes := [digit (n / 1000), digit (n / 100 % 10), digit (n / 10 % 10), digit (n % 10)]

def Date.text (d : Date) : Bytes := dddd d.year ++ 45 :: (dd d.month ++ 45 :: dd d.day)

def Clock.text (c : Clock) : Bytes := dd c.hour ++ 58 :: (dd c.minute ++ 58 :: dd c.second)

/-- A fraction of a second: digits after the character `sep`, cut off after nanoseconds. -/
inductive Fraction (sep : Byte) : Bytes → Nat → Prop
  | none : Fraction sep [] 0
  | some {ds n} : Numeral 10 ds n → Fraction sep (sep :: ds) (n * 1000000000 / 10 ^ ds.length)

/-- The distance of a zone from UTC, in seconds; RFC 3339 has hours below 24 and minutes below 60. -/
inductive Zone (maxHour maxMinute : Nat) : Bytes → Int → Prop
  | utc : Zone maxHour maxMinute [90] 0
  | east {h m} : h ≤ maxHour → m ≤ maxMinute →
      Zone maxHour maxMinute (43 :: (dd h ++ 58 :: dd m)) (h * 3600 + m * 60 : Nat)
  | west {h m} : h ≤ maxHour → m ≤ maxMinute →
      Zone maxHour maxMinute (45 :: (dd h ++ 58 :: dd m)) (-((h * 3600 + m * 60 : Nat) : Int))

/-- The texts of databases for a day, and for a day and a time, which stand for UTC; and those of RFC 3339. -/
inductive Denotes : Bytes → Int → Prop
  | date {d : Date} : d.Valid → Denotes d.text (instant d ⟨0, 0, 0⟩ 0)
  | time {d : Date} {c : Clock} {f ns} : d.Valid → c.Valid → Fraction 46 f ns →
      Denotes (d.text ++ 32 :: (c.text ++ f)) (instant d c ns)
  | rfc3339 {d : Date} {c : Clock} {f ns z off} : d.Valid → c.Valid → Fraction 46 f ns → Zone 23 59 z off →
      Denotes (d.text ++ 84 :: (c.text ++ (f ++ z))) (instant d c ns - off * 1000000000)

/-- What is accepted beyond RFC 3339: one digit for an hour, a comma before fractions, zones of 24 hours and of 60
minutes. -/
inductive Lenient : Bytes → Int → Prop
  | rfc3339 {d : Date} {c : Clock} {h f ns z off sep} : d.Valid → c.Valid →
      (h = dd c.hour ∨ c.hour < 10 ∧ h = [digit c.hour]) → (sep = 46 ∨ sep = 44) → Fraction sep f ns →
      Zone 24 60 z off →
      Lenient (d.text ++ 84 :: (h ++ (58 :: (dd c.minute ++ 58 :: dd c.second) ++ (f ++ z))))
        (instant d c ns - off * 1000000000)

end Verif.Spec.Time

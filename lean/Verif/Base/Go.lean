/-!
# Go values and the pieces of Go's standard library that the modelled code calls

Bytes are `UInt8`; a Go `string` or `[]byte` is a `List UInt8`.  A computation either returns a
value, returns a (non-nil) `error`, or panics.  Error texts are not modelled.
-/

namespace Verif

abbrev Byte := UInt8
abbrev Bytes := List UInt8

/-- Outcome of a Go call: normal result, non-nil `error`, or run-time panic. -/
inductive Res (α : Type) where
  | ok (a : α)
  | err
  | panic
  deriving DecidableEq, Repr

namespace Res
variable {α β : Type}

def bind : Res α → (α → Res β) → Res β
  | ok a, f => f a
  | err, _ => err
  | panic, _ => panic

def map (f : α → β) : Res α → Res β
  | ok a => ok (f a)
  | err => err
  | panic => panic

instance : Monad Res where
  pure := ok
  bind := bind

@[simp] theorem ok_bind (a : α) (f : α → Res β) : (ok a >>= f) = f a := rfl
@[simp] theorem err_bind (f : α → Res β) : ((err : Res α) >>= f) = err := rfl
@[simp] theorem panic_bind (f : α → Res β) : ((panic : Res α) >>= f) = panic := rfl
@[simp] theorem pure_eq (a : α) : (pure a : Res α) = ok a := rfl

theorem bind_eq_ok {x : Res α} {f : α → Res β} {b : β} :
    (x >>= f) = ok b ↔ ∃ a, x = ok a ∧ f a = ok b := by
  cases x <;> simp

instance : LawfulMonad Res := LawfulMonad.mk' Res
  (id_map := fun x => by cases x <;> rfl)
  (pure_bind := fun _ _ => rfl)
  (bind_assoc := fun x _ _ => by cases x <;> rfl)

end Res

/-- A value handed to `Scan` by `database/sql` (`driver.Value` as an `any`).  Floats, times and
foreign types are represented by an opaque tag, because no modelled code looks inside them. -/
inductive DV where
  | nil
  | bytes (b : Bytes)
  | str (s : Bytes)
  | int64 (n : Int)
  | uint64 (n : Nat)
  | bool (b : Bool)
  | other (tag : Nat)
  deriving DecidableEq, Repr

/-- Go's checked slice write `s[i] = v`. -/
def setIdx {α : Type} (s : List α) (i : Nat) (v : α) : Res (List α) :=
  if i < s.length then .ok (s.set i v) else .panic

/-- Go's checked slice read `s[i]`. -/
def getIdx {α : Type} (s : List α) (i : Nat) : Res α :=
  match s[i]? with
  | some a => .ok a
  | none => .panic

/-! ## strconv -/

/-- Digits of `n`, most significant first, prepended to `acc` (`strconv.formatBits`, base 10). -/
def natDecAux : Nat → Nat → Bytes → Bytes
  | 0, _, acc => acc
  | fuel + 1, n, acc =>
    let acc' := (UInt8.ofNat (48 + n % 10)) :: acc
    if n / 10 = 0 then acc' else natDecAux fuel (n / 10) acc'

/-- `strconv.AppendUint(nil, n, 10)`. -/
def natDec (n : Nat) : Bytes := natDecAux (n + 1) n []

/-- `strconv.AppendInt(nil, n, 10)`. -/
def intDec (n : Int) : Bytes :=
  if n < 0 then 45 :: natDec n.natAbs else natDec n.natAbs

/-- Digit loop of `strconv.ParseUint` in base `base ≤ 10`.  Go stops with a range error as soon as
the accumulator would exceed 64 bits; here the accumulator is unbounded and the range is checked by
the caller, which gives the same accept/reject decision and value. -/
def parseDigits (base : Nat) : Bytes → Nat → Option Nat
  | [], acc => some acc
  | c :: cs, acc =>
    if 48 ≤ c.toNat ∧ c.toNat < 48 + base then parseDigits base cs (acc * base + (c.toNat - 48))
    else none

/-- `strconv.ParseUint(s, base, bits)` for `base ≤ 10`; error means `none`. -/
def parseUint (s : Bytes) (base bits : Nat) : Option Nat :=
  match s with
  | [] => none
  | _ =>
    match parseDigits base s 0 with
    | none => none
    | some n => if n < 2 ^ bits then some n else none

/-- `strconv.ParseInt(s, 10, bits)`; error means `none`. -/
def parseInt (s : Bytes) (bits : Nat) : Option Int :=
  match s with
  | [] => none
  | c :: cs =>
    let neg := c = 45
    let body := if c = 43 ∨ c = 45 then cs else s
    match parseUint body 10 bits with
    | none => none
    | some un =>
      if ¬neg ∧ un ≥ 2 ^ (bits - 1) then none
      else if neg ∧ un > 2 ^ (bits - 1) then none
      else some (if neg then -(un : Int) else un)

/-- Go's conversion of an `int64` to a signed integer type of `w` bits: two's complement wrap. -/
def toSigned (w : Nat) (n : Int) : Int := (BitVec.ofInt w n).toInt

/-- Go's conversion of an integer to an unsigned type of `w` bits: reduction modulo `2^w`. -/
def toUnsigned (w : Nat) (n : Int) : Nat := (BitVec.ofInt w n).toNat

end Verif

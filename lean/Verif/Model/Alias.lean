import Verif.Base.Go

/-!
# Who owns the bytes of a row

`database/sql` hands the bytes of the driver to `Scan` without copying; they are valid until the next row is
fetched.  `strScanner.Scan` (sequel/encoding/string.go:57-68) stores `T(vi)`: for a string type this conversion
copies, for `[]byte` it is the same slice.  MySQL and SQLite models use it for `[]byte` fields
(mysql/column_type.go:145-149, sqlite/column_type.go:135-139).
-/

namespace Verif.Alias

/-- What a field holds: bytes of its own, or the first `len` bytes of a buffer of the driver. -/
inductive Field where
  | own (b : Bytes)
  | view (buf len : Nat)
  deriving DecidableEq, Repr

/-- The buffers of the driver. -/
abbrev Mem := Nat → Bytes

/-- The driver writes a row to the beginning of a buffer. -/
def write (m : Mem) (buf : Nat) (row : Bytes) : Mem :=
  fun a => if a = buf then row ++ (m a).drop row.length else m a

/-- Scanning into a field of a string type: `string(vi)` copies. -/
def scanString (m : Mem) (buf len : Nat) : Field := .own ((m buf).take len)

/-- Scanning into a field of type `[]byte`: `[]byte(vi)` does not. -/
def scanBytes (_ : Mem) (buf len : Nat) : Field := .view buf len

/-- What a field reads as. -/
def Field.read (m : Mem) : Field → Bytes
  | .own b => b
  | .view buf len => (m buf).take len

/-- The rows of a result, one value each, scanned into the fields of a new struct per row (`scanRows`); the driver uses
buffer `bufOf i` for row `i`. -/
def fetch (scan : Mem → Nat → Nat → Field) (bufOf : Nat → Nat) : Nat → Mem → List Bytes → List Field × Mem
  | _, m, [] => ([], m)
  | i, m, r :: rs =>
    let m := write m (bufOf i) r
    let f := scan m (bufOf i) r.length
    let (fs, m') := fetch scan bufOf (i + 1) m rs
    (f :: fs, m')

/-- The fields as they read after all rows have been fetched. -/
def result (scan : Mem → Nat → Nat → Field) (bufOf : Nat → Nat) (m : Mem) (rows : List Bytes) : List Bytes :=
  let (fs, m') := fetch scan bufOf 0 m rows
  fs.map (Field.read m')

end Verif.Alias

import Verif.Base.Go

/-!
# Array text codecs

Model of `sequel/sqltype/{string,bool,int,uint}_slice.go` (format `[a,b]`) and
`sequel/driver/postgres/pgtype/{array,string_array,bool_array,int_array,uint_array,byte_array}.go`
(format `{a,b}`).  The two packages contain the same code up to the bracket characters, which are
the parameter `Fmt`.  The delimiter argument `del` is always `","` in the code base.

A Go slice that may be nil is `Option (List α)`.
-/

namespace Verif

/-- Which of the two packages: `sqltype` (square brackets) or `pgtype` (curly braces). -/
inductive Fmt where
  | bracket
  | brace
  deriving DecidableEq, Repr

def Fmt.opn : Fmt → Byte
  | .bracket => 91
  | .brace => 123

def Fmt.cls : Fmt → Byte
  | .bracket => 93
  | .brace => 125

abbrev comma : Byte := 44
abbrev quote : Byte := 34
abbrev backslash : Byte := 92
/-- `"NULL"` -/
abbrev nullWord : Bytes := [78, 85, 76, 76]

/-! ## parseArray — sqltype/string_slice.go:71-174, pgtype/array.go:75-178 -/

/-- The `Open:` loop (string_slice.go:78-89).  `i` counts consumed bytes. Result: `inl` when a close
bracket was met (`goto Close`), `inr` when the loop was left towards `dims = make([]int, i)`. -/
def openLoop (f : Fmt) : Bytes → Nat → (Nat × Bytes) ⊕ (Nat × Bytes)
  | [], depth => .inr (depth, [])
  | c :: cs, depth =>
    if c = f.opn then openLoop f cs (depth + 1)
    else if c = f.cls then .inl (depth, c :: cs)
    else .inr (depth, c :: cs)

/-- Inner loop of a quoted element (string_slice.go:104-120): the element read so far, the escape
flag, the rest of the input after the opening quote.  `none`: input ended inside the quotes. -/
def readQuoted : Bytes → Bool → Bytes → Option (Bytes × Bytes)
  | [], _, _ => none
  | c :: cs, true, elem => readQuoted cs false (elem ++ [c])
  | c :: cs, false, elem =>
    if c = backslash then readQuoted cs true elem
    else if c = quote then some (elem, cs)
    else readQuoted cs false (elem ++ [c])

/-- Inner loop of a bare element (string_slice.go:122-133): bytes up to, and not including, the next
delimiter or close bracket.  `none`: input ended first. -/
def readBare (f : Fmt) : Bytes → Bytes → Option (Bytes × Bytes)
  | [], _ => none
  | c :: cs, elem =>
    if c = comma ∨ c = f.cls then some (elem, c :: cs)
    else readBare f cs (elem ++ [c])

/-- State of the parser between the labelled loops. -/
structure PState where
  dims : List Nat
  depth : Nat
  /-- `none` is a nil element (bare `NULL`) -/
  elems : List (Option Bytes)
  deriving DecidableEq, Repr

/-- `dims[depth-1]++` with Go's bounds check (string_slice.go:140,144); only reached with
`depth > 0`. -/
def bumpDim (s : PState) : Res PState := do
  let d ← getIdx s.dims (s.depth - 1)
  let dims ← setIdx s.dims (s.depth - 1) (d + 1)
  pure { s with dims := dims }

/-- The `Element:` loop (string_slice.go:92-136): state and remaining input on leaving the loop.
Leaving by exhaustion of the input returns the empty rest. -/
def elementLoop (f : Fmt) : Bytes → PState → Res (PState × Bytes)
  | [], s => .ok (s, [])
  | c :: cs, s =>
    if c = f.opn then
      if s.depth = s.dims.length then .ok (s, c :: cs)
      else do
        let dims ← setIdx s.dims (s.depth + 1 - 1) 0
        elementLoop f cs { s with depth := s.depth + 1, dims := dims }
    else if c = quote then
      match readQuoted cs false [] with
      | none => .ok (s, [])
      | some (e, rest) => .ok ({ s with elems := s.elems ++ [some e] }, rest)
    else
      match readBare f (c :: cs) [] with
      | none => .ok (s, [])
      | some (e, rest) =>
        if e = [] then .err
        else .ok ({ s with elems := s.elems ++ [if e = nullWord then none else some e] }, rest)

theorem readQuoted_length {cs : Bytes} {esc : Bool} {acc e rest : Bytes}
    (h : readQuoted cs esc acc = some (e, rest)) : rest.length < cs.length := by
  fun_induction readQuoted cs esc acc <;> simp_all <;> omega

theorem readBare_length {f : Fmt} {cs acc e rest : Bytes}
    (h : readBare f cs acc = some (e, rest)) : rest.length ≤ cs.length := by
  fun_induction readBare f cs acc with
  | case1 => simp_all
  | case2 => simp_all
  | case3 _ _ _ _ ih => have := ih h; simp; omega

theorem elementLoop_length {f : Fmt} {cs rest : Bytes} {s s' : PState}
    (h : elementLoop f cs s = .ok (s', rest)) : rest.length ≤ cs.length := by
  induction cs generalizing s with
  | nil => simp [elementLoop] at h; simp [h.2]
  | cons c cs ih =>
    unfold elementLoop at h
    split at h
    · split at h
      · simp only [Res.ok.injEq, Prod.mk.injEq] at h
        simp [← h.2]
      · obtain ⟨d, _, h2⟩ := Res.bind_eq_ok.1 h
        have := ih h2
        simp; omega
    · split at h
      · split at h
        · simp only [Res.ok.injEq, Prod.mk.injEq] at h
          simp [← h.2]
        · rename_i hq
          have := readQuoted_length hq
          simp only [Res.ok.injEq, Prod.mk.injEq] at h
          simp [← h.2]; omega
      · split at h
        · simp only [Res.ok.injEq, Prod.mk.injEq] at h
          simp [← h.2]
        · rename_i hq
          have := readBare_length hq
          split at h
          · simp at h
          · simp only [Res.ok.injEq, Prod.mk.injEq] at h
            simpa [← h.2] using this

/-- The loop after an element (string_slice.go:138-151), with `goto Element`. -/
def afterElement (f : Fmt) (cs : Bytes) (s : PState) : Res PState :=
  match cs with
  | [] => .ok s
  | c :: cs =>
    if c = comma ∧ 0 < s.depth then
      match bumpDim s with
      | .ok s =>
        match _h : elementLoop f cs s with
        | .ok (s', rest) => afterElement f rest s'
        | .err => .err
        | .panic => .panic
      | .err => .err
      | .panic => .panic
    else if c = f.cls ∧ 0 < s.depth then
      match bumpDim s with
      | .ok s => afterElement f cs { s with depth := s.depth - 1 }
      | .err => .err
      | .panic => .panic
    else .err
termination_by cs.length
decreasing_by
  · have := elementLoop_length _h; simp; omega
  · simp

/-- The `Close:` loop (string_slice.go:153-161): remaining depth, or error. -/
def closeLoop (f : Fmt) : Bytes → Nat → Res Nat
  | [], depth => .ok depth
  | c :: cs, depth =>
    if c = f.cls ∧ 0 < depth then closeLoop f cs (depth - 1) else .err

/-- The dimension check (string_slice.go:165-171); `%` by zero panics. -/
def checkDims (n : Nat) : List Nat → Bool → Res Unit
  | [], bad => if bad then .err else .ok ()
  | d :: ds, bad => if d = 0 then .panic else checkDims n ds (bad || n % d != 0)

/-- `parseArray`: dimensions (nil as `[]`) and elements. -/
def parseArray (f : Fmt) (src : Bytes) : Res (List Nat × List (Option Bytes)) :=
  match src with
  | [] => .err
  | c :: _ =>
    if c ≠ f.opn then .err
    else
      match openLoop f src 0 with
      | .inl (depth, rest) => do
        let depth ← closeLoop f rest depth
        if 0 < depth then .err else .ok ([], [])
      | .inr (depth, rest) => do
        let (s, rest) ← elementLoop f rest ⟨List.replicate depth 0, depth, []⟩
        let s ← afterElement f rest s
        let depth ← closeLoop f [] s.depth
        if 0 < depth then .err
        else do
          let _ ← checkDims s.elems.length s.dims false
          .ok (s.dims, s.elems)

/-- `scanLinearArray` (string_slice.go:176-185, array.go:180-189). -/
def scanLinearArray (f : Fmt) (src : Bytes) : Res (List (Option Bytes)) := do
  let (dims, elems) ← parseArray f src
  if 1 < dims.length then .err else .ok elems

/-! ## Value -/

/-- `appendArrayQuotedBytes` (string_slice.go:187-202, array.go:191-206): the loop copies everything
up to the next quote or backslash, then a backslash and that byte.  Byte by byte that is: -/
def escapeBytes : Bytes → Bytes
  | [] => []
  | c :: cs =>
    if c = quote ∨ c = backslash then backslash :: c :: escapeBytes cs else c :: escapeBytes cs

def appendArrayQuotedBytes (b v : Bytes) : Bytes := b ++ [quote] ++ escapeBytes v ++ [quote]

/-- The append loop shared by the slice encoders: open bracket, first element, then delimiter and
element for the rest, close bracket (string_slice.go:20-34, int_slice.go:110-123). -/
def appendElems {α : Type} (enc : Bytes → α → Bytes) : Bytes → List α → Bytes
  | b, [] => b
  | b, x :: xs => appendElems enc (enc (b ++ [comma]) x) xs

def sliceValue {α : Type} (f : Fmt) (enc : Bytes → α → Bytes) : Option (List α) → Option Bytes
  | none => none
  | some [] => some [f.opn, f.cls]
  | some (x :: xs) => some (appendElems enc (enc [f.opn] x) xs ++ [f.cls])

/-- `StringSlice.Value` (string_slice.go:15-35), `StringArray.Value`. -/
def stringValue (f : Fmt) : Option (List Bytes) → Option Bytes :=
  sliceValue f appendArrayQuotedBytes

/-- `intSliceValue` (int_slice.go:105-124), `intArrayValue` (array.go:25-44). -/
def intValue (f : Fmt) : Option (List Int) → Option Bytes :=
  sliceValue f (fun b n => b ++ intDec n)

/-- `uintSliceValue` (uint_slice.go:104-123), `uintArrayValue` (array.go:46-65). -/
def uintValue (f : Fmt) : Option (List Nat) → Option Bytes :=
  sliceValue f (fun b n => b ++ natDec n)

/-- The write loop of `BoolSlice.Value` (bool_slice.go:29-36) from index `i` on. -/
def boolLoop : List Bool → Nat → Bytes → Res Bytes
  | [], _, b => .ok b
  | x :: xs, i, b => do
    let b ← setIdx b (2 * i) comma
    let b ← setIdx b (1 + 2 * i) (if x then 116 else 102)
    boolLoop xs (i + 1) b

/-- `BoolSlice.Value` (bool_slice.go:19-43), `BoolArray.Value`. -/
def boolValue (f : Fmt) : Option (List Bool) → Res (Option Bytes)
  | none => .ok none
  | some [] => .ok (some [f.opn, f.cls])
  | some a => do
    let b ← boolLoop a 0 (List.replicate (1 + 2 * a.length) 0)
    let b ← setIdx b 0 f.opn
    let b ← setIdx b (2 * a.length) f.cls
    .ok (some b)

/-! ## Scan

A scan returns the outcome and the new content of the destination. -/

/-- Conversion loop common to the `scanBytes` functions: convert every element, stop at the first
error. -/
def convAll {α : Type} (conv : Option Bytes → Res α) : List (Option Bytes) → Res (List α)
  | [] => .ok []
  | e :: es => do
    let x ← conv e
    let xs ← convAll conv es
    .ok (x :: xs)

/-- `scanBytes` of every slice type (string_slice.go:51-69, bool_slice.go:59-84, int_slice.go:69-89,
uint_slice.go:70-89, byte_array.go:67-86): the destination is assigned only after every element
converted.  `(*a)[:0]` and `make(_, 0)` are both the non-nil empty slice. -/
def scanBytesWith {α : Type} (f : Fmt) (conv : Option Bytes → Res α) (src : Bytes)
    (a : Option (List α)) : Res Unit × Option (List α) :=
  match scanLinearArray f src with
  | .err => (.err, a)
  | .panic => (.panic, a)
  | .ok elems =>
    if a.isSome ∧ elems.length = 0 then (.ok (), some [])
    else
      match convAll conv elems with
      | .ok b => (.ok (), some b)
      | .err => (.err, a)
      | .panic => (.panic, a)

/-- `Scan` of every slice type (string_slice.go:38-49 and alike). -/
def scanWith {α : Type} (f : Fmt) (conv : Option Bytes → Res α) (src : DV)
    (a : Option (List α)) : Res Unit × Option (List α) :=
  match src with
  | .bytes b => scanBytesWith f conv b a
  | .str s => scanBytesWith f conv s a
  | .nil => (.ok (), none)
  | _ => (.err, a)

/-- string_slice.go:60-63 -/
def convString : Option Bytes → Res Bytes
  | none => .err
  | some v => .ok v

/-- bool_slice.go:69-80; a nil element has length 0. -/
def convBool : Option Bytes → Res Bool
  | some [c] => if c = 116 then .ok true else if c = 102 then .ok false else .err
  | _ => .err

/-- int_slice.go:80-84 with `T(n)` for a signed `T` of width `w`; a nil element is the empty
string. -/
def convInt (w : Nat) (e : Option Bytes) : Res Int :=
  match parseInt (e.getD []) 64 with
  | none => .err
  | some n => .ok (toSigned w n)

/-- pgtype `scanBytes` instantiated at an unsigned type of width `w` (int_array.go:80-84): still
`ParseInt`, then `T(n)`. -/
def convUintPg (w : Nat) (e : Option Bytes) : Res Nat :=
  match parseInt (e.getD []) 64 with
  | none => .err
  | some n => .ok (toUnsigned w n)

/-- sqltype `scanUBytes` (uint_slice.go:80-84). -/
def convUint (w : Nat) (e : Option Bytes) : Res Nat :=
  match parseUint (e.getD []) 10 w with
  | none => .err
  | some n => .ok (toUnsigned w n)

def stringScan (f : Fmt) := scanWith f convString
def boolScan (f : Fmt) := scanWith f convBool
def intScan (f : Fmt) (w : Nat) := scanWith f (convInt w)
/-- unsigned slices: the two packages differ -/
def uintScan (f : Fmt) (w : Nat) :=
  scanWith f (match f with | .bracket => convUint w | .brace => convUintPg w)

end Verif

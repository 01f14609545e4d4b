import Verif.Model.Addrs

/-!
# The struct parser

`cmd/sqlgen/internal/compiler/parser.go` (`Parse`, `ptrCount`), `tag.go` (`parseTag`, `hasOpts`) and
the parts of `compiler.go` describing fields.

Not modelled: loading packages, which files are looked at (parser.go:33-141), resolving an identifier
to its declaration (parser.go:199-217, 245-270: a declaration is given by its number, `none` when it
is not found or not declared as a struct), reading one key out of a Go struct tag
(`reflect.StructTag.Get`), and the log line in the middle (parser.go:296-318).  Of a type only
the number of pointers in front and whether it is the table-name marker matter.  Strings are lists of
characters.
-/

namespace Verif.Parser

open Verif Verif.Addrs

abbrev Str := List Char

/-! ## Go slices of `int`, with their backing arrays -/

/-- A slice header. -/
structure Slice where
  arr : Nat
  len : Nat
  cap : Nat
  deriving DecidableEq, Repr

/-- Backing arrays, and the next free one. -/
structure Heap where
  cells : Nat → Nat → Nat
  next : Nat

/-- The nil slice. -/
def nilSlice : Slice := ⟨0, 0, 0⟩

/-- Go `append(s, x)`: in place when the capacity allows it, else into a new array of twice the
capacity (`runtime.growslice` for fewer than 256 elements; the sizes 8, 16, 32, … bytes are all
allocation size classes). -/
def goAppend (h : Heap) (s : Slice) (x : Nat) : Heap × Slice :=
  if s.len < s.cap then
    ({ h with cells := fun a k => if a = s.arr ∧ k = s.len then x else h.cells a k },
     { s with len := s.len + 1 })
  else
    ({ cells := fun a k =>
         if a = h.next then (if k < s.len then h.cells s.arr k else if k = s.len then x else 0)
         else h.cells a k
       next := h.next + 1 },
     ⟨h.next, s.len + 1, max 1 (2 * s.cap)⟩)

/-- The elements of a slice. -/
def Slice.read (h : Heap) (s : Slice) : List Nat := (List.range s.len).map (h.cells s.arr)

/-! ## Declarations -/

/-- What the parser looks at in a type: `ptrCount` (parser.go:466-478), and whether its name is that
of the table-name marker (parser.go:400-405). -/
structure FType where
  ptrs : Nat := 0
  marker : Bool := false
  deriving DecidableEq, Repr

/-- One entry of `Fields.List`. -/
inductive Decl where
  /-- `A, B T` with the names and whether they are exported -/
  | named (names : List (Str × Bool)) (ty : FType) (tag : Str)
  /-- an embedded field; `target` is the number of the struct declaration it resolves to -/
  | embed (name : Str) (exported : Bool) (ty : FType) (tag : Str) (target : Option Nat)
  deriving DecidableEq, Repr

/-- The fields of struct declaration number `id`. -/
abbrev Env := Nat → List Decl

/-- `structField` (compiler.go:170-180) without its index; `parent` lists the enclosing embedded
fields, innermost first. -/
structure SField where
  name : Str
  ty : FType
  exported : Bool
  embedded : Bool
  parent : List Seg
  tag : Str
  deriving DecidableEq, Repr

/-- A field as a step of a path. -/
def SField.seg (f : SField) : Seg := ⟨String.ofList f.name, decide (0 < f.ty.ptrs)⟩

/-- `fieldPaths` (compiler.go:220-232). -/
def SField.path (f : SField) : Path := (f.seg :: f.parent).reverse

/-- `typeQueue` (compiler.go:234-240). -/
structure QItem where
  idx : Slice
  prev : List Seg
  doc : Option Str
  t : List Decl

/-- State of the loop over the queue (parser.go:164-165). -/
structure CS where
  heap : Heap
  fields : List (Slice × SField)
  queue : List QItem

/-- The loop over the names of a declaration (parser.go:320-329); `k` is `i+j`. -/
def namesLoop (f : QItem) (ty : FType) (tag : Str) (k : Nat) (st : CS) : List (Str × Bool) → CS
  | [] => st
  | (n, e) :: ns =>
    let r := goAppend st.heap f.idx k
    namesLoop f ty tag (k + 1)
      { st with heap := r.1
                fields := st.fields ++ [(r.2, ⟨n, ty, e, false, f.prev, tag⟩)] } ns

/-- One iteration of the loop over the declarations (parser.go:178-330). -/
def declStep (env : Env) (f : QItem) (i : Nat) (st : CS) : Decl → CS
  | .named ns ty tag => namesLoop f ty tag i st ns
  | .embed _ _ _ _ none => st
  | .embed n e ty tag (some id) =>
    let ft : SField := ⟨n, ty, e, true, f.prev, tag⟩
    let r := goAppend st.heap f.idx i
    let r' := goAppend r.1 f.idx i
    { heap := r'.1
      fields := st.fields ++ [(r.2, ft)]
      queue := st.queue ++ [⟨r'.2, ft.seg :: f.prev, none, env id⟩] }

/-- The loop over the declarations of one struct. -/
def declLoop (env : Env) (f : QItem) (i : Nat) (st : CS) : List Decl → CS
  | [] => st
  | d :: ds => declLoop env f (i + 1) (declStep env f i st d) ds

/-- The loop over the queue (parser.go:167-334), for at most `n` structs; the result also holds the
comment of the struct looked at last, which is what the variable `f` refers to afterwards.  `none`:
not finished after `n` structs. -/
def bfs (env : Env) : Nat → CS → Option Str → Option (CS × Option Str)
  | 0, _, _ => none
  | n + 1, st, last =>
    match st.queue with
    | [] => some (st, last)
    | f :: q => bfs env n (declLoop env f 0 { st with queue := q } f.t) f.doc

/-- `structCache` (compiler.go:163-168). -/
structure Cache where
  name : Str
  doc : Option Str
  t : Nat

/-- The start of the loop (parser.go:164-167). -/
def start (env : Env) (s : Cache) : CS :=
  { heap := ⟨fun _ _ => 0, 1⟩, fields := [], queue := [⟨nilSlice, [], s.doc, env s.t⟩] }

/-- The fields with their index, as `sort.Slice` sees them. -/
def indexed (st : CS) : List (List Nat × SField) := st.fields.map fun p => (p.1.read st.heap, p.2)

/-- The comparison given to `sort.Slice` (parser.go:336-346). -/
def less : List Nat → List Nat → Bool
  | [], ys => decide (0 < ys.length)
  | _ :: _, [] => false
  | x :: xs, y :: ys => if x ≠ y then decide (x < y) else less xs ys

/-! ## Tags -/

/-- `unicode.IsSpace`. -/
def isSpace (c : Char) : Bool :=
  c ∈ ['\t', '\n', '\x0b', '\x0c', '\r', ' ', '\u0085', '\u00a0', '\u1680', '\u2028', '\u2029',
    '\u202f', '\u205f', '\u3000'] || (0x2000 ≤ c.toNat && c.toNat ≤ 0x200a)

/-- `strings.TrimSpace`. -/
def trimSpace (s : Str) : Str := ((s.dropWhile isSpace).reverse.dropWhile isSpace).reverse

/-- `strings.Split(s, sep)` for a one-character separator. -/
def split (sep : Char) : Str → List Str
  | [] => [[]]
  | c :: cs =>
    if c = sep then [] :: split sep cs
    else
      match split sep cs with
      | [] => [[c]]
      | w :: ws => (c :: w) :: ws

/-- `parseTag` (tag.go:32-43): the keys of `pos`. -/
def parseTag : List Str → List Str
  | [] => []
  | v :: vs =>
    let v := trimSpace v
    if v = [] then parseTag vs
    else v.takeWhile (· ≠ ':') :: parseTag vs

/-- `hasOpts` (tag.go:23-30). -/
def hasOpts (pos : List Str) : List Str → Bool
  | [] => false
  | k :: ks => if k ∈ pos then true else hasOpts pos ks

def optAutoIncrement : Str := "auto_increment".toList
def optPKAlias : Str := "pk".toList
def optPK : Str := "primary_key".toList
def optReadonly : Str := "readonly".toList

/-- A letter for `(?i)[a-z]`: Go's case folding adds the long s and the Kelvin sign. -/
def isLetter (c : Char) : Bool :=
  (97 ≤ c.toNat && c.toNat ≤ 122) || (65 ≤ c.toNat && c.toNat ≤ 90) || c = '\u017f' || c = '\u212a'

def isDigit (c : Char) : Bool := 48 ≤ c.toNat && c.toNat ≤ 57

/-- `nameRegex` (compiler.go:19): `(?i)^[a-z]+[a-z0-9\_]*$`. -/
def nameOk : Str → Bool
  | [] => false
  | c :: cs => isLetter c && cs.all fun d => isLetter d || isDigit d || d = '_'

/-! ## Annotations -/

/-- `(?i)` matching of one letter given in lower case. -/
def foldEq (l c : Char) : Bool :=
  c = l || c.toNat + 32 = l.toNat || (l = 's' && c = '\u017f')

/-- `\+sql\:` at the start of the text; the rest. -/
def stripSql : Str → Option Str
  | p :: s :: q :: l :: col :: r =>
    if p = '+' ∧ foldEq 's' s ∧ foldEq 'q' q ∧ foldEq 'l' l ∧ col = ':' then some r else none
  | _ => none

/-- The group of the first match of `annotationRegexp` (parser.go:31). -/
def findAnnotation : Str → Option Str
  | [] => none
  | c :: cs =>
    match stripSql (c :: cs) with
    | some r => some (r.takeWhile (· ≠ '\n'))
    | none => findAnnotation cs

/-- The loop over the flags (parser.go:363-372); `none` is `goto nextCache`. -/
def flagLoop (ro : Bool) : List Str → Option Bool
  | [] => some ro
  | w :: ws =>
    if w = "readonly".toList then flagLoop true ws
    else if w = "ignore".toList then none
    else flagLoop ro ws

/-- parser.go:358-374: `sdoc` is the comment of the struct, `fdoc` that of the variable `f`.  The
text of a nil comment is empty. -/
def annotations (sdoc fdoc : Option Str) : Option Bool :=
  match sdoc with
  | none => some false
  | some _ =>
    match findAnnotation (fdoc.getD []) with
    | none => some false
    | some fl => flagLoop false (split ',' fl)

/-! ## Columns -/

/-- `Column` (compiler.go:101-111). -/
structure PCol where
  name : Str
  goName : Str
  path : Path
  pos : Nat
  readonly : Bool
  deriving DecidableEq, Repr

/-- `Table` (compiler.go:33-46); the pointers `autoIncrKey` and `Keys` are given by positions in
`columns`. -/
structure PTable where
  goName : Str
  name : Str
  columns : List PCol
  keys : List Nat
  auto : Option Nat
  readonly : Bool
  deriving DecidableEq, Repr

/-- `Config` (parser.go:25-29). -/
structure Config where
  rename : Str → Str

/-- Variables of the loop over the fields. -/
structure LS where
  name : Str
  columns : List PCol := []
  keys : List Nat := []
  auto : Option Nat := none
  seen : List Str := []
  pos : Nat := 0

/-- The name and the options given by a tag (parser.go:381-398); `none` in the result is the `-`. -/
def tagName (cfg : Config) (f : SField) : Res (Option (Str × List Str)) :=
  if f.tag = [] then .ok (some (cfg.rename f.name, []))
  else
    match split ',' f.tag with
    | [] => .ok (some (cfg.rename f.name, []))
    | w :: ws =>
      let n := trimSpace w
      if n = "-".toList then .ok none
      else if n ≠ [] then
        if nameOk n then .ok (some (n, ws)) else .err
      else .ok (some (cfg.rename f.name, ws))

/-- Adding a column (parser.go:420-451). -/
def addColumn (f : SField) (name : Str) (opts : List Str) (st : LS) : Res LS :=
  if name ∈ st.seen then .err
  else
    let tag := parseTag opts
    let column : PCol := ⟨name, f.name, f.path, st.pos, hasOpts tag [optReadonly]⟩
    let at_ := st.columns.length
    let add (auto : Option Nat) (keys : List Nat) : LS :=
      { st with columns := st.columns ++ [column], auto := auto, keys := keys
                pos := st.pos + 1, seen := name :: st.seen }
    if hasOpts tag [optAutoIncrement, optPK, optPKAlias] then
      if hasOpts tag [optAutoIncrement] then
        if st.auto.isSome then .err
        else if column.readonly then .err
        else .ok (add (some at_) st.keys)
      else if column.readonly then .err
      else .ok (add st.auto (st.keys ++ [at_]))
    else .ok (add st.auto st.keys)

/-- One iteration of the loop over the fields (parser.go:376-452). -/
def fieldStep (cfg : Config) (f : SField) (st : LS) : Res LS :=
  if 1 < f.ty.ptrs then .err
  else
    match tagName cfg f with
    | .panic => .panic
    | .err => .err
    | .ok none => .ok st
    | .ok (some (name, opts)) =>
      if f.ty.marker then .ok (if name ≠ [] then { st with name := name } else st)
      else if ¬f.exported then .ok st
      else if f.embedded then .ok st
      else addColumn f name opts st

/-- The loop over the fields. -/
def fieldLoop (cfg : Config) : List SField → LS → Res LS
  | [], st => .ok st
  | f :: fs, st => do
    let st ← fieldStep cfg f st
    fieldLoop cfg fs st

/-- How `sort.Slice` orders the fields. -/
abbrev Sorter := List (List Nat × SField) → List (List Nat × SField)

/-- What happens with one struct after its fields were collected (parser.go:336-457); `none`: no
table. -/
def finish (cfg : Config) (srt : Sorter) (s : Cache) (st : CS) (fdoc : Option Str) :
    Res (Option PTable) :=
  match annotations s.doc fdoc with
  | none => .ok none
  | some ro => do
    let r ← fieldLoop cfg ((srt (indexed st)).map (·.2)) { name := cfg.rename s.name }
    if 0 < r.columns.length then
      .ok (some ⟨s.name, r.name, r.columns, r.keys, r.auto, ro⟩)
    else .ok none

/-- One struct (parser.go:160-461), given enough steps for the queue; `none`: not finished. -/
def parseStruct (cfg : Config) (srt : Sorter) (env : Env) (n : Nat) (s : Cache) :
    Option (Res (Option PTable)) :=
  (bfs env n (start env s) none).map fun r => finish cfg srt s r.1 r.2

/-- All structs of the package in the order of their names (parser.go:148-153, 160-462): the first
error ends the run. -/
def parse (cfg : Config) (srt : Sorter) (env : Env) (n : Nat) : List Cache → Option (Res (List PTable))
  | [] => some (.ok [])
  | s :: ss =>
    match parseStruct cfg srt env n s with
    | none => none
    | some .err => some .err
    | some .panic => some .panic
    | some (.ok t) => (parse cfg srt env n ss).map fun r => r.map (t.toList ++ ·)

end Verif.Parser

import Verif.Model.Parser

/-!
# What a struct declaration means

Independent of how the parser walks over a struct: the fields in reading order, which of them are to
become columns and how a tag is read.  Only the data types and the character class `isSpace` are
shared with the model.
-/

namespace Verif.Spec.Parser

open Verif Verif.Addrs Verif.Parser

/-! ## Reading order -/

/-- A field met when reading a struct; `nonStruct`: an embedded type that is not declared as a
struct (`type ID string; type T struct { ID }`), which is an ordinary field for Go. -/
structure Leaf where
  f : SField
  nonStruct : Bool
  deriving DecidableEq, Repr

/-- The struct declarations embedded by a struct. -/
def targets (ds : List Decl) : List Nat := ds.filterMap fun
  | .named _ _ _ => none
  | .embed _ _ _ _ t => t

/-- `b` is embedded in `a`. -/
def Embedded (env : Env) (b a : Nat) : Prop := b ∈ targets (env a)

/-- Reading a struct from left to right, embedded structs in place: `Fields env anc ds out` says that
the declarations `ds`, found inside the embedded fields `anc` (innermost first), contain the fields
`out`. -/
inductive Fields (env : Env) : List Seg → List Decl → List Leaf → Prop
  | nil (anc : List Seg) : Fields env anc [] []
  | named {anc ds out} (ns : List (Str × Bool)) (ty : FType) (tag : Str) (h : Fields env anc ds out) :
      Fields env anc (.named ns ty tag :: ds)
        (ns.map (fun p => ⟨⟨p.1, ty, p.2, false, anc, tag⟩, false⟩) ++ out)
  | other {anc ds out} (n : Str) (e : Bool) (ty : FType) (tag : Str) (h : Fields env anc ds out) :
      Fields env anc (.embed n e ty tag none :: ds) (⟨⟨n, ty, e, false, anc, tag⟩, true⟩ :: out)
  | emb {anc ds out sub} (n : Str) (e : Bool) (ty : FType) (tag : Str) (id : Nat)
      (hs : Fields env (⟨String.ofList n, decide (0 < ty.ptrs)⟩ :: anc) (env id) sub)
      (h : Fields env anc ds out) :
      Fields env anc (.embed n e ty tag (some id) :: ds)
        (⟨⟨n, ty, e, true, anc, tag⟩, false⟩ :: sub ++ out)

/-- At most `n` levels of embedding below these declarations. -/
def Levels (env : Env) : Nat → List Decl → Prop
  | 0, ds => targets ds = []
  | n + 1, ds => ∀ id ∈ targets ds, Levels env n (env id)

/-- Every declaration but the last one declares at most one name. -/
def OneName (ds : List Decl) : Prop :=
  ∀ (i : Nat) (ns : List (Str × Bool)) (ty : FType) (tag : Str),
    ds[i]? = some (.named ns ty tag) → i + 1 < ds.length → ns.length ≤ 1

/-- `b` is `a`, or embedded in it at any depth. -/
inductive Reach (env : Env) : Nat → Nat → Prop
  | refl (a : Nat) : Reach env a a
  | step {a b c : Nat} (h : Embedded env b a) (hr : Reach env b c) : Reach env a c

/-! ## Tags -/

/-- Without spaces at the end. -/
def rtrim : Str → Str
  | [] => []
  | c :: cs => if isSpace c && rtrim cs = [] then [] else c :: rtrim cs

/-- Without spaces at either end. -/
def trim : Str → Str
  | [] => []
  | c :: cs => if isSpace c then trim cs else rtrim (c :: cs)

/-- What stands before the first comma. -/
def tagHead (t : Str) : Str := trim (t.takeWhile (· ≠ ','))

/-- One of the comma-separated parts of a text. -/
def Part (t e : Str) : Prop :=
  ',' ∉ e ∧ ∃ a b, t = a ++ e ++ b ∧ (a = [] ∨ ∃ a', a = a' ++ [',']) ∧ (b = [] ∨ ∃ b', b = ',' :: b')

/-- One of the parts after the first comma. -/
def Entry (t e : Str) : Prop :=
  ',' ∉ e ∧ ∃ a b, t = a ++ ',' :: e ++ b ∧ (b = [] ∨ ∃ b', b = ',' :: b')

/-- The entry `e` carries the option `o`: trimmed, it is `o` or starts with `o:`. -/
def OptOf (e o : Str) : Prop :=
  ':' ∉ o ∧ ∃ a core b, e = a ++ core ++ b ∧ (∀ c ∈ a, isSpace c) ∧ (∀ c ∈ b, isSpace c) ∧
    core ≠ [] ∧ (∀ c, core.head? = some c → ¬isSpace c) ∧ (∀ c, core.getLast? = some c → ¬isSpace c) ∧
    (core = o ∨ ∃ r, core = o ++ ':' :: r)

/-- The tag carries the option. -/
def HasOpt (t o : Str) : Prop := ∃ e, Entry t e ∧ OptOf e o

/-! ## Columns -/

/-- Fields that are to become columns. -/
def isCol (f : SField) : Bool :=
  f.exported && !f.embedded && !f.ty.marker && tagHead f.tag != ['-']

/-- The name of the column of a field. -/
def colName (cfg : Config) (f : SField) : Str :=
  if tagHead f.tag = [] then cfg.rename f.name else tagHead f.tag

def IsAuto (f : SField) : Prop := HasOpt f.tag "auto_increment".toList
def IsKey (f : SField) : Prop :=
  (HasOpt f.tag "pk".toList ∨ HasOpt f.tag "primary_key".toList) ∧ ¬IsAuto f
def IsReadonly (f : SField) : Prop := HasOpt f.tag "readonly".toList

/-- The columns of a struct, in reading order. -/
def columnsOf (out : List Leaf) : List SField := (out.filter fun l => isCol l.f).map (·.f)

/-- The fields the parser looks at: all but embedded types that are not structs. -/
def structLeaves (out : List Leaf) : List SField := (out.filter fun l => !l.nonStruct).map (·.f)

/-- A letter; the regular expression `(?i)[a-z]` also accepts the long s and the Kelvin sign. -/
def letter (c : Char) : Prop := c.isAlpha ∨ c = 'ſ' ∨ c = '\u212a'

/-- Names allowed in a tag: a letter followed by letters, digits and underscores. -/
def ValidName (n : Str) : Prop :=
  ∃ c cs, n = c :: cs ∧ letter c ∧ ∀ d ∈ cs, letter d ∨ d.isDigit ∨ d = '_'

/-- Structs that make sense as tables. -/
structure Acceptable (cfg : Config) (fs : List SField) : Prop where
  /-- no pointer to a pointer -/
  ptrs : ∀ f ∈ fs, f.ty.ptrs ≤ 1
  /-- tags contain `-`, no name, or a valid one -/
  tags : ∀ f ∈ fs, tagHead f.tag = ['-'] ∨ tagHead f.tag = [] ∨ ValidName (tagHead f.tag)
  /-- different columns have different names -/
  names : ((fs.filter isCol).map (colName cfg)).Nodup
  /-- at most one column is auto-increment -/
  auto : (fs.filter isCol).Pairwise fun f g => ¬(IsAuto f ∧ IsAuto g)
  /-- no key is readonly -/
  keys : ∀ f ∈ fs.filter isCol, IsAuto f ∨ IsKey f → ¬IsReadonly f

/-- What `sort.Slice` promises, given the comparison `less` the parser passes to it: the same fields, and none
before one that is less. -/
def IsSort (srt : Sorter) : Prop :=
  ∀ l, (srt l).Perm l ∧ (srt l).Pairwise fun a b => less b.1 a.1 = false

/-! ## Annotations -/

def foldCase (c : Char) : Char := if c = 'ſ' then 's' else c.toLower

/-- `+sql:` in any case. -/
def IsMarker (m : Str) : Prop := m.map foldCase = "+sql:".toList

/-- The first annotation of the comment lists the flag. -/
def Annotated (text flag : Str) : Prop :=
  ∃ pre m fl post, text = pre ++ m ++ fl ++ post ∧ IsMarker m ∧
    (∀ pre' m' r, text = pre' ++ m' ++ r → IsMarker m' → pre.length ≤ pre'.length) ∧
    '\n' ∉ fl ∧ (post = [] ∨ ∃ post', post = '\n' :: post') ∧ Part fl flag

end Verif.Spec.Parser

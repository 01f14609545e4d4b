import Verif.Base.Go

/-!
# Which Go files the generator reads

`cmd/sqlgen/codegen/codegen.go`: `Generate` (the resolution of sources) and `parseGoPackage`; `path_matcher.go`; the part of
`filepath.Clean`, `filepath.Join`, `strings.TrimSpace` and `regexp` they need.  Texts are lists of characters (valid UTF-8); the system is
one where the separator is `/`.  Errors of the file system other than "does not exist" are not modelled.
-/

namespace Verif.Source

abbrev Text := List Char

/-! ## Regular expressions -/

/-- Regular expressions as `regexp` reads them, for the constructs used here. -/
inductive Re where
  | empty
  | eps
  | cls (p : Char → Bool)
  | cat (a b : Re)
  | alt (a b : Re)
  | star (a : Re)

namespace Re

def nullable : Re → Bool
  | empty => false
  | eps => true
  | cls _ => false
  | cat a b => a.nullable && b.nullable
  | alt a b => a.nullable || b.nullable
  | star _ => true

/-- What remains to be matched after a character. -/
def deriv : Re → Char → Re
  | empty, _ => empty
  | eps, _ => empty
  | cls p, c => if p c then eps else empty
  | cat a b, c => if a.nullable then alt (cat (a.deriv c) b) (b.deriv c) else cat (a.deriv c) b
  | alt a b, c => alt (a.deriv c) (b.deriv c)
  | star a, c => cat (a.deriv c) (star a)

def full : Re → Text → Bool
  | r, [] => r.nullable
  | r, c :: s => (r.deriv c).full s

def any : Re := star (cls fun _ => true)

/-- `Regexp.MatchString`: the expression matches somewhere in the text. -/
def find (r : Re) (s : Text) : Bool := (cat any (cat r any)).full s

def chr (c : Char) : Re := cls fun d => d == c

/-- `.*`; a dot does not match a line feed. -/
def dots : Re := star (cls fun d => d != '\n')

/-- `[\\/]`. -/
def sep : Re := cls fun d => d == '/' || d == '\\'

def plus (r : Re) : Re := cat r (star r)

end Re

def isUpper (c : Char) : Bool := 'A' ≤ c && c ≤ 'Z'
def isLower (c : Char) : Bool := 'a' ≤ c && c ≤ 'z'
def isDigit (c : Char) : Bool := '0' ≤ c && c ≤ '9'

/-- `([\\/][a-z0-9_-]+)*` (codegen.go:123). -/
def lowerDirs : Re := .star (.cat .sep (.plus (.cls fun c => isLower c || isDigit c || c == '_' || c == '-')))

/-- What becomes of a text given to `regexp.MustCompile`. -/
inductive Comp where
  | re (r : Re)
  /-- The text is no regular expression: `MustCompile` panics. -/
  | panic
  /-- The text has a meaning not modelled here. -/
  | other

/-- Characters that mean something in a regular expression and are not replaced by `path2Regex`. -/
def isMeta (c : Char) : Bool := c ∈ ['+', '?', '(', ')', '|', '[', ']', '{', '}', '^', '$']

/-- The meaning of the replacement of one character by `path2Regex` (codegen.go:31-36). -/
def atom (c : Char) : Option Re :=
  if isMeta c then none
  else if c = '*' then some .dots
  else if c = '/' || c = '\\' then some .sep
  else some (.chr c)

/-- The expression for a text of which a leading `+` belongs to what comes before. -/
def compileRest : Text → Comp
  | [] => .re .eps
  | c :: s =>
    if c = '+' then if s.head? = some '+' then .panic else compileRest s
    else
      match atom c with
      | none => .other
      | some a =>
        if s.head? = some '+' ∧ c = '*' then .panic
        else
          match compileRest s with
          | .re r => .re (.cat (if s.head? = some '+' then .plus a else a) r)
          | x => x

/-- `path2Regex.Replace` (codegen.go:31-36) followed by `regexp.MustCompile`.  Of the characters of `isMeta` only `+` is given a meaning:
it repeats what comes before it; if there is nothing to repeat, or a repetition, there is a panic. -/
def compile (s : Text) : Comp := if s.head? = some '+' then .panic else compileRest s

/-- A matcher built from three pieces of a text that are compiled together (codegen.go:123). -/
def Comp.around : Comp → Re → Comp → Comp
  | .re a, m, .re b => .re (.cat a (.cat m b))
  | .panic, _, _ => .panic
  | .other, _, _ => .other
  | .re _, _, x => x

/-! ## Paths -/

/-- The parts of a path between its separators. -/
def parts : Text → List Text
  | [] => [[]]
  | c :: s => if c = '/' then [] :: parts s else
    match parts s with
    | p :: ps => (c :: p) :: ps
    | [] => [[c]]

/-- One step of `filepath.Clean` on a path from the root; the parts kept so far are in reverse. -/
def cleanStep (acc : List Text) (p : Text) : List Text :=
  if p = [] ∨ p = ['.'] then acc
  else if p = ['.', '.'] then acc.tail
  else p :: acc

def unparts (ps : List Text) : Text := ps.flatMap fun p => '/' :: p

/-- `filepath.Clean` (and `path.Clean`) of a path that starts with `/`. -/
def clean (s : Text) : Text :=
  match (parts s).foldl cleanStep [] with
  | [] => ['/']
  | ps => unparts ps.reverse

/-- `filepath.Join` and `path.Join` of two elements, of which the first starts with `/` or is empty. -/
def join (a b : Text) : Text :=
  if a = [] ∧ b = [] then [] else clean (a ++ '/' :: b)

/-- `filepath.Dir` of a path that starts with `/`. -/
def dirOf (s : Text) : Text := clean (s.reverse.dropWhile (· != '/')).reverse

/-- `unicode.IsSpace`. -/
def isSpace (c : Char) : Bool :=
  c.toNat ∈ [9, 10, 11, 12, 13, 32, 0x85, 0xA0, 0x1680, 0x2028, 0x2029, 0x202f, 0x205f, 0x3000] || (0x2000 ≤ c.toNat && c.toNat ≤ 0x200a)

/-- `strings.TrimSpace`. -/
def trimSpace (s : Text) : Text := ((s.dropWhile isSpace).reverse.dropWhile isSpace).reverse

/-- `strings.TrimSuffix(s, "/")`. -/
def trimSlash (s : Text) : Text := if s.getLast? = some '/' then s.dropLast else s

/-- `strings.TrimPrefix`. -/
def trimPrefix (s p : Text) : Text := if p.isPrefixOf s then s.drop p.length else s

/-- `strings.SplitN(s, "**", 2)`, `none` if there are no two stars. -/
def splitStars : Text → Option (Text × Text)
  | [] => none
  | c :: s =>
    if c = '*' ∧ s.head? = some '*' then some ([], s.tail)
    else (splitStars s).map fun x => (c :: x.1, x.2)

/-! ## Patterns with one star -/

/-- `(?i)[a-z]`. -/
def isAlphaI (c : Char) : Bool := isLower c || isUpper c || c.toNat = 0x17F || c.toNat = 0x212A

/-- `(?i)\w`. -/
def isWordI (c : Char) : Bool := isAlphaI c || isDigit c || c == '_'

/-- `(?i)[a-z0-9-_.]`. -/
def isDirI (c : Char) : Bool := isAlphaI c || isDigit c || c == '-' || c == '_' || c == '.'

/-- `(?i)[a-z][a-z0-9-_.]+`. -/
def isDirName (p : Text) : Bool :=
  match p with
  | c :: d :: p => isAlphaI c && isDirI d && p.all isDirI
  | _ => false

/-- `(?i)([a-z][a-z0-9-_.]+\/)*`: the directories a text starts with, and what follows.  Taking as many as possible is the only way
to a match of the whole expression, since what follows has no `/` before its star. -/
def takeDirs : Nat → Text → Text × Text
  | 0, s => ([], s)
  | n + 1, s =>
    let w := s.takeWhile isDirI
    match s.dropWhile isDirI with
    | '/' :: t => if isDirName w then let r := takeDirs n t; (w ++ '/' :: r.1, r.2) else ([], s)
    | _ => ([], s)

/-- `(?i)\w*\*\w*(?:\.go)` matches at the start of a text. -/
def isStarName (s : Text) : Bool :=
  match s.dropWhile isWordI with
  | '*' :: t =>
    match t.dropWhile isWordI with
    | '.' :: g :: o :: _ => (g == 'g' || g == 'G') && (o == 'o' || o == 'O')
    | _ => false
  | _ => false

/-- The first group of `(?i)((?:\/)([a-z][a-z0-9-_.]+\/)*)\w*\*\w*(?:\.go)` in its leftmost match (codegen.go:99-100). -/
def starRoot : Text → Option Text
  | [] => none
  | c :: s =>
    if c = '/' ∧ isStarName (takeDirs s.length s).2 then some ('/' :: (takeDirs s.length s).1)
    else starRoot s

/-! ## Sources -/

/-- What the generator sees of the file system. -/
structure FS where
  /-- `os.Stat`: nothing there, a directory, or a file. -/
  stat : Text → Option Bool
  /-- The directories strictly below a directory, as lists of names. -/
  below : Text → List (List Text)
  /-- The names of the Go files of the package in a directory, without the file generated before. -/
  files : Text → List Text

/-- `Matcher` (path_matcher.go). -/
inductive Matcher where
  | re (r : Re)
  | folder (f : Text)
  | file (f : Text)

def Matcher.test : Matcher → Text → Bool
  | re r, v => r.find v
  | folder f, v => f.isPrefixOf v
  | file f, v => v == f

/-- What is to be done for a source. -/
inductive Plan where
  | error
  | panic
  | other
  | skip
  | job (root : Text) (dirs : List Text) (m : Matcher)

def Plan.ofComp (root : Text) (dirs : List Text) : Comp → Plan
  | .re r => .job root dirs (.re r)
  | .panic => .panic
  | .other => .other

/-- The text of a source, which is not empty, made absolute (codegen.go:77-84). -/
def absolute (pwd s : Text) : Text :=
  if s = ['.'] then pwd
  else if s.head? = some '.' then pwd ++ s.tail
  else if s.head? = some '/' then s
  else join pwd s

/-- The extension added after a star at the end (codegen.go:86-89). -/
def addGo (s : Text) : Text := if s.getLast? = some '*' then s ++ ".go".toList else s

/-- The text of a source as it is used (codegen.go:71-89); `none` for the error about empty sources. -/
def resolve (pwd src : Text) : Option Text :=
  if trimSpace src = [] then none else some (addGo (absolute pwd (trimSpace src)))

/-- `filepath.WalkDir` restricted to directories (codegen.go:113-121). -/
def walk (fs : FS) (root : Text) : List Text :=
  match fs.stat root with
  | some true => root :: (fs.below (clean root)).map fun ns => clean (root ++ unparts ns)
  | _ => []

/-- One round of the loop over the sources (codegen.go:69-153) up to the call of `parseGoPackage`. -/
def plan (fs : FS) (pwd src : Text) : Plan :=
  match resolve pwd src with
  | none => .error
  | some s =>
    match splitStars s with
    | some (a, b) =>
      let root := trimSlash (trimSpace a)
      let suffix := if b = [] then .re (.cat .sep (.cat (.plus (.cls isWord)) (.cat (.chr '.') (.plus (.cls isWord))))) else compile b
      .ofComp root ((walk fs root).map fun p => trimPrefix p root) ((compile root).around lowerDirs suffix)
    | none =>
      match starRoot s with
      | some g => .ofComp (trimSlash g) [[]] (compile s)
      | none =>
        match fs.stat s with
        | none => .skip
        | some true => .job s [[]] (.folder s)
        | some false => .job (dirOf s) [[]] (.file (join (dirOf s) ((parts s).getLast?.getD [])))
where
  isWord (c : Char) : Bool := isLower c || isUpper c || isDigit c || c == '_'

/-- The files whose structs are read for a source (codegen.go:193-247; parser.go:85-88): of each directory, unless it is the destination of
database code, those that match. -/
def filesOf (fs : FS) (skip : List Text) : Plan → List Text
  | .job root dirs m => dirs.flatMap fun d =>
    let dir := join root d
    if dir ∈ skip then [] else ((fs.files dir).map fun n => dir ++ '/' :: n).filter m.test
  | _ => []

end Verif.Source

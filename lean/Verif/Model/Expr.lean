import Verif.Model.Source

/-!
# Package paths in types and expressions

`cmd/sqlgen/codegen/expr.go:12-14, 108-120`: `importPkgIfNeeded`, which every type and every expression written to the generated file goes
through.  What `Package.Import` answers (Model/Import) is a parameter.
-/

namespace Verif.Expr

open Verif.Source (isAlphaI isDigit)

abbrev Text := List Char

/-- `(?i)[a-z0-9_.-]`. -/
def isSeg (c : Char) : Bool := isAlphaI c || isDigit c || c == '_' || c == '.' || c == '-'

/-- A text starts with `\.[a-z]`. -/
def dotNext : Text → Bool
  | c :: d :: _ => c == '.' && isAlphaI d
  | _ => false

/-- The longest start of a text that is not empty and followed by `\.[a-z]`. -/
def lastDot : Text → Option Text
  | [] => none
  | c :: s =>
    match lastDot s with
    | some p => some (c :: p)
    | none => if dotNext s then some [c] else none

/-- What `((?:[a-z][a-z0-9_.-]*/)*[a-z][a-z0-9_.-]*)\.[a-z]\w*` captures at the start of a text: as many directories as possible, then as much of
the last part as possible.  `n` bounds the number of directories. -/
def matchAt : Nat → Text → Option Text
  | 0, _ => none
  | n + 1, s =>
    let w := s.takeWhile isSeg
    match w with
    | [] => none
    | c :: _ =>
      if isAlphaI c then
        match s.dropWhile isSeg with
        | '/' :: t =>
          match matchAt n t with
          | some g => some (w ++ '/' :: g)
          | none => lastDot w
        | _ => lastDot w
      else none

/-- `pkgRegexp.FindStringSubmatch`: what is captured at the first place where the expression matches. -/
def capture : Text → Option Text
  | [] => none
  | c :: s =>
    match matchAt (s.length + 1) (c :: s) with
    | some g => some g
    | none => capture s

/-- `strings.Replace(s, old, new, -1)` for `old` not empty; `k` characters are still part of the last occurrence. -/
def replaceGo (old new : Text) : Nat → Text → Text
  | _, [] => []
  | k + 1, _ :: s => replaceGo old new k s
  | 0, c :: s => if old.isPrefixOf (c :: s) then new ++ replaceGo old new (old.length - 1) s else c :: replaceGo old new 0 s

def replaceAll (old new s : Text) : Text := replaceGo old new 0 s

/-- `importPkgIfNeeded` (expr.go:108-120): the text afterwards and the package asked for.  `imp` gives the name of a package in the file, `none`
for the package of the file. -/
def importText (imp : Text → Option Text) (s : Text) : Text × Option Text :=
  match capture s with
  | none => (s, none)
  | some g =>
    match imp g with
    | some name => (replaceAll g name s, some g)
    | none => (replaceAll (g ++ ['.']) [] s, some g)

end Verif.Expr

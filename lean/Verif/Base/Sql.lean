import Verif.Base.Go

/-!
# SQL text under construction

A statement text is a list of symbols: ordinary characters and parameter placeholders.  A
placeholder carries the number that appears in the text (`$n`); for dialects with anonymous
placeholders (`?`) the number is absent.
-/

namespace Verif

inductive Sym where
  | ch (c : Char)
  /-- the anonymous placeholder `?` -/
  | anon
  /-- the numbered placeholder `$n` -/
  | num (n : Nat)
  deriving DecidableEq, Repr

abbrev Txt := List Sym

/-- A Go string literal or identifier as text. -/
def tx (s : String) : Txt := s.toList.map .ch

/-- `strings.Join(l, sep)`. -/
def joinTxt (sep : Txt) : List Txt → Txt
  | [] => []
  | [x] => x
  | x :: y :: r => x ++ sep ++ joinTxt sep (y :: r)

/-- Placeholder style of the dialect the helpers were generated for: `anon` for mysql and sqlite
(`isStaticVar`), `numbered` for postgres. -/
inductive Style where
  | anon
  | numbered
  deriving DecidableEq, Repr

/-- `dialect.QuoteVar(n)` (mysql/mysql.go, sqlite/sqlite.go: `?`; postgres/postgres.go: `$n`);
`wrapVar` in the generated helpers. -/
def Style.var : Style → Nat → Sym
  | .anon, _ => .anon
  | .numbered, n => .num n

end Verif

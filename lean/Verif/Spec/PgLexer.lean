import Verif.Base.Go

/-!
# A lexer for PostgreSQL escape-string literals

Follows the "String Constants with C-Style Escapes" section of the PostgreSQL manual.  Numeric
escapes (`\0`–`\7`, `\x`, `\u`, `\U`) are left undefined (`none`).  Adjacent literals separated by
white space containing a newline are one literal.
-/

namespace Verif.Spec

/-- White space of the PostgreSQL scanner. -/
def isSpace (c : Byte) : Bool := c = 32 ∨ c = 9 ∨ c = 10 ∨ c = 13 ∨ c = 12 ∨ c = 11

def isNewline (c : Byte) : Bool := c = 10 ∨ c = 13

/-- After a closing quote: white space with at least one newline followed by a quote continues the
literal; the result is what follows that quote. -/
def continuation : Bytes → Bool → Option Bytes
  | [], _ => none
  | c :: cs, nl =>
    if c = 39 then (if nl then some cs else none)
    else if isSpace c then continuation cs (nl || isNewline c)
    else none

theorem continuation_length {cs r : Bytes} {nl : Bool} (h : continuation cs nl = some r) :
    r.length < cs.length := by
  induction cs generalizing nl with
  | nil => simp [continuation] at h
  | cons c cs ih =>
    simp only [continuation] at h
    split at h
    · split at h <;> simp at h; subst h; simp
    · split at h
      · have := ih h; simp; omega
      · simp at h

/-- Value of the escape `\c`; `none` for numeric escapes. -/
def escapeValue (c : Byte) : Option Byte :=
  if c = 98 then some 8
  else if c = 102 then some 12
  else if c = 110 then some 10
  else if c = 114 then some 13
  else if c = 116 then some 9
  else if (48 ≤ c.toNat ∧ c.toNat ≤ 55) ∨ c = 120 ∨ c = 117 ∨ c = 85 then none
  else some c

/-- Inside the literal: decoded contents and the text after the literal. -/
def lexBody (s : Bytes) : Option (Bytes × Bytes) :=
  match s with
  | [] => none
  | c :: cs =>
    if c = 39 then
      match cs with
      | [] => some ([], [])
      | d :: ds =>
        if d = 39 then (lexBody ds).map (fun p => (39 :: p.1, p.2))
        else
          match _h : continuation (d :: ds) false with
          | some r => lexBody r
          | none => some ([], d :: ds)
    else if c = 92 then
      match cs with
      | [] => none
      | d :: ds =>
        match escapeValue d with
        | none => none
        | some v => (lexBody ds).map (fun p => (v :: p.1, p.2))
    else (lexBody cs).map (fun p => (c :: p.1, p.2))
termination_by s.length
decreasing_by
  · simp; omega
  · have := continuation_length _h; simp at this ⊢; omega
  · simp; omega
  · simp

/-- A whole literal: `E'` … `'`. -/
def lexEString (s : Bytes) : Option (Bytes × Bytes) :=
  match s with
  | 69 :: 39 :: body => lexBody body
  | 101 :: 39 :: body => lexBody body
  | _ => none

end Verif.Spec

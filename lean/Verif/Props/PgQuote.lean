import Verif.Model.PgQuote
import Verif.Spec.PgLexer

/-! # C11: PostgreSQL literal quoting -/

namespace Verif.Props
open Verif Spec

theorem lexBody_quoteByte (c : Byte) (rest : Bytes) :
    lexBody (quoteByte c ++ rest) = (lexBody rest).map (fun p => (c :: p.1, p.2)) := by
  unfold quoteByte
  repeat' split
  all_goals (rw [lexBody.eq_def]; simp_all [escapeValue])

/-- C11. `Quote(s)` followed by any text that neither starts with a quote nor continues the literal
is read as one literal, denoting exactly `s`, leaving exactly that text. -/
theorem C11_quote_is_one_literal (s t : Bytes) (h1 : ∀ r, t ≠ 39 :: r)
    (h2 : continuation t false = none) : lexEString (pgQuote s ++ t) = some (s, t) := by
  have key : lexBody (s.flatMap quoteByte ++ (39 :: t)) = some (s, t) := by
    induction s with
    | nil =>
      cases t with
      | nil => simp [lexBody]
      | cons d ds =>
        have hd : d ≠ 39 := fun e => h1 ds (by rw [e])
        rw [List.flatMap_nil, List.nil_append, lexBody.eq_def]
        simp only [if_true, if_neg hd]
        split
        · rename_i h; rw [h2] at h; simp at h
        · rfl
    | cons c s ih => rw [List.flatMap_cons, List.append_assoc, lexBody_quoteByte, ih]; rfl
  simpa [pgQuote, lexEString] using key

/-- Two different strings never have the same literal. -/
theorem C11_quote_injective (s s' : Bytes) (h : pgQuote s = pgQuote s') : s = s' := by
  have h1 := C11_quote_is_one_literal s [] (by simp) rfl
  have h2 := C11_quote_is_one_literal s' [] (by simp) rfl
  rw [h] at h1
  rw [h1] at h2
  simpa using h2

/-- A hostile string (`'; DROP--` with a trailing backslash) followed by ` OR 1`. -/
example : ∀ r, ([32, 79, 82, 32, 49] : Bytes) ≠ 39 :: r := by simp
example : continuation [32, 79, 82, 32, 49] false = none := by decide
example : pgQuote [39, 59, 92] = [69, 39, 39, 39, 59, 92, 92, 39] := by decide

end Verif.Props

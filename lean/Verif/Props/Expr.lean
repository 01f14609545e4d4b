import Verif.Lemmas.Expr

/-!
# C78: package paths in the types and expressions of the generated file

A type is given as the checker writes it, with import paths for package names: `pre` is what comes before the first path (`*`, `[]`, `(`),
`pathOf ps` the path with elements `ps`, `n` the name of the type, `post` the rest.
-/

namespace Verif.Props

open Verif Verif.Expr
open Verif.Source (isAlphaI)

variable {imp : Expr.Text → Option Expr.Text} {pre n post : List Char} {ps : List (List Char)}

/-- C78, exactly, for a package with paths whose elements start with letters: the package is asked for, no other is, and its path is replaced
wherever it occurs as a text. -/
theorem C78_first (hpre : ∀ c ∈ pre, isAlphaI c = false) (hps : ∀ p ∈ ps, Elem p) (hne : ps ≠ []) (hn : Expr.Name n) (hpost : Ends post) :
    (∀ a, imp (pathOf ps) = some a → importText imp (pre ++ (pathOf ps ++ '.' :: n ++ post)) =
      (pre ++ (a ++ replaceAll (pathOf ps) a ('.' :: n ++ post)), some (pathOf ps))) ∧
    (imp (pathOf ps) = none → importText imp (pre ++ (pathOf ps ++ '.' :: n ++ post)) =
      (pre ++ replaceAll (pathOf ps ++ ['.']) [] (n ++ post), some (pathOf ps))) := by
  have hc := capture_path hpre hps hne hn hpost
  obtain ⟨c, cs, e, hca⟩ := pathOf_alpha hps hne
  have hsk : ∀ d ∈ pre, d ≠ c := by
    rintro d hd rfl
    rw [hpre d hd] at hca
    cases hca
  constructor
  · intro a ha
    unfold importText
    rw [hc]
    simp only [ha]
    rw [List.append_assoc, e, replaceAll_skip hsk, ← e, replaceAll_at (by rw [e]; simp)]
  · intro ha
    unfold importText
    rw [hc]
    simp only [ha]
    have e1 : pathOf ps ++ '.' :: n ++ post = (pathOf ps ++ ['.']) ++ (n ++ post) := by simp
    rw [e1, e, List.cons_append, replaceAll_skip hsk, ← List.cons_append, replaceAll_at (by simp), List.nil_append]

/-- C78, as far as it holds: in a text with one package path, that path is replaced by the name of the package in the file; the path of the
package of the file is taken away. -/
theorem C78_partial (hpre : ∀ c ∈ pre, isAlphaI c = false) (hps : ∀ p ∈ ps, Elem p) (hne : ps ≠ []) (hn : Expr.Name n) (hpost : Ends post)
    (hone : ¬Has ('.' :: n ++ post) (pathOf ps)) :
    (∀ a, imp (pathOf ps) = some a → importText imp (pre ++ (pathOf ps ++ '.' :: n ++ post)) = (pre ++ (a ++ '.' :: n ++ post), some (pathOf ps))) ∧
    (imp (pathOf ps) = none → importText imp (pre ++ (pathOf ps ++ '.' :: n ++ post)) = (pre ++ (n ++ post), some (pathOf ps))) := by
  obtain ⟨h1, h2⟩ := C78_first (imp := imp) hpre hps hne hn hpost
  constructor
  · intro a ha
    rw [h1 a ha, replaceAll_none hone, List.append_assoc]
  · intro ha
    rw [h2 ha, replaceAll_none]
    rintro ⟨x, y, e⟩
    exact hone ⟨'.' :: x, '.' :: y, by simp [e]⟩

/-- C78 fails for every text with a second package whose path has a `/`: that path stays, and the package is not asked for. -/
theorem C78_second {mid m tail : List Char} {qs : List (List Char)} (hpre : ∀ c ∈ pre, isAlphaI c = false) (hps : ∀ p ∈ ps, Elem p) (hne : ps ≠ [])
    (hn : Expr.Name n) (hpost : Ends (mid ++ (pathOf qs ++ '.' :: m ++ tail))) (hq : pathOf qs ≠ pathOf ps)
    (hone : ¬Has ('.' :: n ++ (mid ++ (pathOf qs ++ '.' :: m ++ tail))) (pathOf ps)) :
    let r := importText imp (pre ++ (pathOf ps ++ '.' :: n ++ (mid ++ (pathOf qs ++ '.' :: m ++ tail))))
    Has r.1 (pathOf qs ++ '.' :: m) ∧ r.2 ≠ some (pathOf qs) := by
  obtain ⟨h1, h2⟩ := C78_partial (imp := imp) hpre hps hne hn hpost hone
  dsimp only
  cases hi : imp (pathOf ps) with
  | some a =>
    rw [h1 a hi]
    exact ⟨⟨pre ++ (a ++ '.' :: n ++ mid), tail, by simp⟩, fun e => hq (Option.some.inj e).symm⟩
  | none =>
    rw [h2 hi]
    exact ⟨⟨pre ++ (n ++ mid), tail, by simp⟩, fun e => hq (Option.some.inj e).symm⟩

/-- C78 fails for every text in which an element of a path does not start with a letter, as in `github.com/99designs/gqlgen/graphql.Upload`:
whatever is replaced, a `/` stays, which no type and no expression has. -/
theorem C78_digit {a b : List Char} {d : Char} (hd : isAlphaI d = false) : '/' ∈ (importText imp (a ++ '/' :: d :: b)).1 := by
  unfold importText
  cases hc : capture (a ++ '/' :: d :: b) with
  | none => simp
  | some g =>
    obtain ⟨hs, hg⟩ := capture_slash hc
    simp only
    cases imp g with
    | some name => exact slash_stays hg hs hd a b 0 [] g _ (by simp) rfl rfl
    | none =>
      refine slash_stays (by simp) ?_ hd a b 0 [] (g ++ ['.']) _ (by simp) rfl rfl
      -- the text with the dot
      intro x y e
      cases List.eq_nil_or_concat y with
      | inl h =>
        subst h
        have := congrArg List.getLast? e
        simp at this
      | inr h =>
        obtain ⟨y', l, rfl⟩ := h
        have e' : g ++ ['.'] = (x ++ '/' :: y') ++ [l] := by rw [e]; simp
        have e2 := List.append_inj' e' rfl
        obtain ⟨c, b', hb, hc⟩ := hs x y' e2.1
        exact ⟨c, b' ++ [l], by rw [hb]; simp, hc⟩

/-- C78 fails for every expression whose field path has the package path in it as a text, if the name of the package is of another length: the
field path is changed. -/
theorem C78_field_changed (hpre : ∀ c ∈ pre, isAlphaI c = false) (hps : ∀ p ∈ ps, Elem p) (hne : ps ≠ []) (hn : Expr.Name n) (hpost : Ends post)
    {a : Expr.Text} (ha : imp (pathOf ps) = some a) (hin : Has ('.' :: n ++ post) (pathOf ps)) (hlen : a.length ≠ (pathOf ps).length) :
    (importText imp (pre ++ (pathOf ps ++ '.' :: n ++ post))).1 ≠ pre ++ (a ++ '.' :: n ++ post) := by
  rw [(C78_first hpre hps hne hn hpost).1 a ha]
  intro e
  have e := List.append_cancel_left e
  rw [List.append_assoc] at e
  obtain ⟨c, cs, ec, -⟩ := pathOf_alpha hps hne
  exact replaceAll_changes (by rw [ec]; simp) hin hlen (List.append_cancel_left e)

/-! ## Instances -/

private def exImp (p : Expr.Text) : Option Expr.Text :=
  if p = "m/models".toList then none
  else if p = "time".toList then some "time1".toList
  else if p = "github.com/x/y".toList then some "y".toList
  else some p

example : (importText exImp "[]*github.com/x/y.T".toList).1 = "[]*y.T".toList := by decide +kernel
example : (importText exImp "*m/models.User".toList).1 = "*User".toList := by decide +kernel
-- a second package
example : (importText exImp "github.com/x/y.Opt[github.com/a/b.T]".toList).1 = "y.Opt[github.com/a/b.T]".toList := by decide +kernel
-- an element that starts with a digit
example : (importText exImp "github.com/99designs/gqlgen/graphql.Upload".toList) =
  ("github.com/99designs/gqlgen/graphql.Upload".toList, some "github".toList) := by decide +kernel
-- the package is called `time1`, the field `Lifetime`
example : (importText exImp "(time.Duration)(v.Lifetime)".toList).1 = "(time1.Duration)(v.Lifetime1)".toList := by decide +kernel
-- the hypotheses hold for these texts
example : (∀ c ∈ "[]*".toList, isAlphaI c = false) ∧ pathOf ["github.com".toList, "x".toList, "y".toList] = "github.com/x/y".toList ∧
    Expr.Name "T".toList ∧ Ends "[github.com/a/b.T]".toList := by
  refine ⟨by decide +kernel, by decide +kernel, ⟨'T', [], rfl, .inr (by decide), by simp⟩, ?_⟩
  intro c hc
  cases hc
  decide
example : Elem "github.com".toList := by
  refine ⟨'g', "ithub.com".toList, rfl, .inl (by decide), ?_⟩
  unfold PathChar Letter
  decide +kernel

end Verif.Props

import Verif.Spec.Parser
import Mathlib.Data.List.Forall2

/-!
# Tags that say the same

Packages that differ in the options of tags only.
-/

namespace Verif.Spec.Tags

open Verif Verif.Parser Verif.Spec.Parser

/-- The options that are said to be there (`docs/MODELS.md:19-28`), apart from those that choose keys. -/
def documented : List Str := ["size", "binary", "encode", "decode"].map String.toList

/-- The options that make a difference. -/
def known : List Str := ["auto_increment", "pk", "primary_key", "readonly"].map String.toList

/-- Tags with the same name that carry the same of the known options. -/
def SameTag (a b : Str) : Prop := tagHead a = tagHead b ∧ ∀ o ∈ known, HasOpt a o ↔ HasOpt b o

/-- Declarations that differ in tags that say the same. -/
inductive SameDecl : Decl → Decl → Prop
  | named {ns ty a b} : SameTag a b → SameDecl (.named ns ty a) (.named ns ty b)
  | embed {n e ty a b target} : SameTag a b → SameDecl (.embed n e ty a target) (.embed n e ty b target)

/-- Packages that differ in tags that say the same. -/
def SameEnv (env env' : Env) : Prop := ∀ id, List.Forall₂ SameDecl (env id) (env' id)

/-- `sort.Slice` is given a comparison of the indices, and sees nothing else of the fields. -/
def Blind (srt : Sorter) : Prop := ∀ (R : SField → SField → Prop) (l l' : List (List Nat × SField)),
  List.Forall₂ (fun a b => a.1 = b.1 ∧ R a.2 b.2) l l' → List.Forall₂ (fun a b => a.1 = b.1 ∧ R a.2 b.2) (srt l) (srt l')

end Verif.Spec.Tags

import Verif.Model.JsonField
import Mathlib.Data.List.Forall2

/-!
# What it means that a field in a JSON column is read back
-/

namespace Verif.JsonField.Spec

open Verif.JsonField

mutual
/-- Values of a type that exist: integers in range, arrays of the right length, maps with one entry per key. -/
def Ty.Wf : (t : Ty) → t.Val → Prop
  | .bool => fun _ => True
  | .int lo hi => fun n => lo ≤ (show Int from n) ∧ (show Int from n) ≤ hi
  | .str => fun _ => True
  | .ptr t => fun p => ∀ v, (show Option t.Val from p) = some v → Ty.Wf t v
  | .slice t => fun l => ∀ vs, (show Option (List t.Val) from l) = some vs → ∀ v ∈ vs, Ty.Wf t v
  | .array n t => fun l => (show List t.Val from l).length = n ∧ ∀ v ∈ (show List t.Val from l), Ty.Wf t v
  | .map t => fun m => ∀ es, (show Option (List (Name × t.Val)) from m) = some es →
      (es.map Prod.fst).Nodup ∧ ∀ e ∈ es, Ty.Wf t e.2
  | .struct fs => fun v => Fields.Wf fs v
def Fields.Wf : (fs : Fields) → fs.Val → Prop
  | .nil => fun _ => True
  | .cons _ _ t rest => fun v => Ty.Wf t v.1 ∧ Fields.Wf rest v.2
end

mutual
/-- The fields of a struct have different keys, 0 is an integer of every integer type. -/
def Ty.Ok : Ty → Prop
  | .bool => True
  | .int lo hi => lo ≤ 0 ∧ 0 ≤ hi
  | .str => True
  | .ptr t => Ty.Ok t
  | .slice t => Ty.Ok t
  | .array _ t => Ty.Ok t
  | .map t => Ty.Ok t
  | .struct fs => fs.keys.Nodup ∧ Fields.Ok fs
def Fields.Ok : Fields → Prop
  | .nil => True
  | .cons _ _ t rest => Ty.Ok t ∧ Fields.Ok rest
end

mutual
/-- Two values are the same (`reflect.DeepEqual`): the order of the entries of a map does not matter. -/
def Ty.Same : (t : Ty) → t.Val → t.Val → Prop
  | .bool => fun a b => (show Bool from a) = b
  | .int _ _ => fun a b => (show Int from a) = b
  | .str => fun a b => (show List Rune from a) = b
  | .ptr t => fun a b => Option.Rel (Ty.Same t) a b
  | .slice t => fun a b => Option.Rel (List.Forall₂ (Ty.Same t)) a b
  | .array _ t => fun a b => List.Forall₂ (Ty.Same t) a b
  | .map t => fun a b => Option.Rel
      (fun (m m' : List (Name × t.Val)) => ∀ k, Option.Rel (Ty.Same t) (entry k m) (entry k m')) a b
  | .struct fs => fun a b => Fields.Same fs a b
def Fields.Same : (fs : Fields) → fs.Val → fs.Val → Prop
  | .nil => fun _ _ => True
  | .cons _ _ t rest => fun a b => Ty.Same t a.1 b.1 ∧ Fields.Same rest a.2 b.2
end

/-- A nil pointer, slice or map. -/
def IsNil : (t : Ty) → t.Val → Prop
  | .ptr t => fun p => (show Option t.Val from p) = none
  | .slice t => fun p => (show Option (List t.Val) from p) = none
  | .map t => fun p => (show Option (List (Name × t.Val)) from p) = none
  | _ => fun _ => False

mutual
/-- When `v` comes back if it is read over `old`:
* strings are made of characters;
* a pointer does not point to something nil;
* where `v` has a map, `old` has none there or only keys that `v` has too; the values of the entries come back over
  zero values;
* an element of a slice comes back over the element that was there, or over a zero value;
* fields that are not written, or left out, are the same in `old`. -/
def Ty.Back : (t : Ty) → (old v : t.Val) → Prop
  | .bool => fun _ _ => True
  | .int _ _ => fun _ _ => True
  | .str => fun _ v => ∀ r ∈ (show List Rune from v), ∃ c, r = .char c
  | .ptr t => fun old p => ∀ v, (show Option t.Val from p) = some v →
      ¬ IsNil t v ∧ Ty.Back t ((show Option t.Val from old).getD t.zero) v
  | .slice t => fun old l => ∀ vs, (show Option (List t.Val) from l) = some vs →
      ∀ (i : Nat) v, vs[i]? = some v → Ty.Back t ((((show Option (List t.Val) from old).getD [])[i]?).getD t.zero) v
  | .array _ t => fun old l => ∀ (i : Nat) o v, (show List t.Val from old)[i]? = some o →
      (show List t.Val from l)[i]? = some v → Ty.Back t o v
  | .map t => fun old m => ∀ es, (show Option (List (Name × t.Val)) from m) = some es →
      (∀ os, (show Option (List (Name × t.Val)) from old) = some os →
        ∀ k ∈ os.map Prod.fst, k ∈ es.map Prod.fst) ∧
      ∀ e ∈ es, Ty.Back t t.zero e.2
  | .struct fs => fun old v => Fields.Back fs old v
def Fields.Back : (fs : Fields) → (old v : fs.Val) → Prop
  | .nil => fun _ _ => True
  | .cons key om t rest => fun old v =>
      (if key = none ∨ (om && t.isEmpty v.1) = true then Ty.Same t old.1 v.1 else Ty.Back t old.1 v.1) ∧
        Fields.Back rest old.2 v.2
end

mutual
/-- All fields are written, none is left out. -/
def Ty.Written : Ty → Prop
  | .bool => True
  | .int _ _ => True
  | .str => True
  | .ptr t => Ty.Written t
  | .slice t => Ty.Written t
  | .array _ t => Ty.Written t
  | .map t => Ty.Written t
  | .struct fs => Fields.Written fs
def Fields.Written : Fields → Prop
  | .nil => True
  | .cons key om t rest => key ≠ none ∧ om = false ∧ Ty.Written t ∧ Fields.Written rest
end

mutual
/-- No maps. -/
def Ty.NoMap : Ty → Prop
  | .bool => True
  | .int _ _ => True
  | .str => True
  | .ptr t => Ty.NoMap t
  | .slice t => Ty.NoMap t
  | .array _ t => Ty.NoMap t
  | .map _ => False
  | .struct fs => Fields.NoMap fs
def Fields.NoMap : Fields → Prop
  | .nil => True
  | .cons _ _ t rest => Ty.NoMap t ∧ Fields.NoMap rest
end

mutual
/-- Strings are made of characters, pointers do not point to something nil. -/
def Ty.Clean : (t : Ty) → t.Val → Prop
  | .bool => fun _ => True
  | .int _ _ => fun _ => True
  | .str => fun v => ∀ r ∈ (show List Rune from v), ∃ c, r = .char c
  | .ptr t => fun p => ∀ v, (show Option t.Val from p) = some v → ¬ IsNil t v ∧ Ty.Clean t v
  | .slice t => fun l => ∀ vs, (show Option (List t.Val) from l) = some vs → ∀ v ∈ vs, Ty.Clean t v
  | .array _ t => fun l => ∀ v ∈ (show List t.Val from l), Ty.Clean t v
  | .map t => fun m => ∀ es, (show Option (List (Name × t.Val)) from m) = some es → ∀ e ∈ es, Ty.Clean t e.2
  | .struct fs => fun v => Fields.Clean fs v
def Fields.Clean : (fs : Fields) → fs.Val → Prop
  | .nil => fun _ => True
  | .cons _ _ t rest => fun v => Ty.Clean t v.1 ∧ Fields.Clean rest v.2
end

mutual
/-- The JSON values that fit a type: `null` always does; elements that have no place in an array, and members that
belong to no field, do not matter. -/
def Ty.Accepts (fold : Name → Name) : Ty → Json → Prop
  | .bool => fun j => j = .null ∨ ∃ b, j = .bool b
  | .int lo hi => fun j => j = .null ∨ ∃ n, j = .num n ∧ lo ≤ n ∧ n ≤ hi
  | .str => fun j => j = .null ∨ ∃ s, j = .str s
  | .ptr t => fun j => j = .null ∨ Ty.Accepts fold t j
  | .slice t => fun j => j = .null ∨ ∃ js, j = .arr js ∧ ∀ x ∈ js, Ty.Accepts fold t x
  | .array n t => fun j => j = .null ∨ ∃ js, j = .arr js ∧ ∀ x ∈ js.take n, Ty.Accepts fold t x
  | .map t => fun j => j = .null ∨ ∃ ms, j = .obj ms ∧ ∀ m ∈ ms, Ty.Accepts fold t m.2
  | .struct fs => fun j => j = .null ∨ ∃ ms, j = .obj ms ∧ Fields.Accepts fold fs fs.keys ms
def Fields.Accepts (fold : Name → Name) : Fields → List Name → List (Name × Json) → Prop
  | .nil => fun _ _ => True
  | .cons key _ t rest => fun keys ms =>
      (∀ n, key = some n → ∀ m ∈ ms, target fold keys m.1 = some n → Ty.Accepts fold t m.2) ∧
        Fields.Accepts fold rest keys ms
end

/-- Two JSON values are the same up to the order of the members of objects. -/
inductive Alike : Json → Json → Prop
  | null : Alike .null .null
  | bool (b : Bool) : Alike (.bool b) (.bool b)
  | num (n : Int) : Alike (.num n) (.num n)
  | frac (t : Bytes) : Alike (.frac t) (.frac t)
  | str (t : List Char) : Alike (.str t) (.str t)
  | arr {js js'} : List.Forall₂ Alike js js' → Alike (.arr js) (.arr js')
  | obj {ms ms₁ ms'} : ms.Perm ms₁ → ms₁.map Prod.fst = ms'.map Prod.fst →
      List.Forall₂ Alike (ms₁.map Prod.snd) (ms'.map Prod.snd) → Alike (.obj ms) (.obj ms')

end Verif.JsonField.Spec

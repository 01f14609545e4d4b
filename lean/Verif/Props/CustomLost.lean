import Verif.Props.CustomMore

/-!
# Property C104: types of which the methods do not belong together, and an example
-/

namespace Verif.Props

open Verif Verif.Dispatch Verif.Typed Verif.Custom Verif.ColumnType Verif.Scan Verif.Spec Verif.Spec.Custom

variable {F U : Type} {W : Custom.World F U} {f : F} {id : Nat} {u : U}

/-! ## Where values are lost -/

/-- Types of structs that have no column of their own. -/
structure Plain (W : Custom.World F U) (id : Nat) : Prop where
  struct : W.base.base.decls.under id = .struct
  outside : Spec.Document.Outside (W.base.base.decls.name id)
  unset : Unset W.base.base.facts (.named id)

private theorem plain_valuer (h : Plain W id) :
    valuer W.base.base.decls (tableOf W.base.base.dialect) W.base.base.facts fuel (.named id) =
      some (if W.base.base.facts.hasValue (.named id) then .own else if W.base.base.facts.marshals (.named id) then .text else .json) := by
  have hs : Spec.Document.Simple W.base.base.decls (.named id) := .named h.struct h.outside
  have h1 : W.base.base.facts.confValue (.named id) = false := h.unset.value
  cases hv : W.base.base.facts.hasValue (.named id) <;> cases hm : W.base.base.facts.marshals (.named id) <;>
    simp [valuer, (simple_cases hs).2, h1, deref, (simple_key W.base.base.dialect hs).1, fallback, hv, hm]

private theorem plain_scanner (h : Plain W id) :
    Dispatch.scanner W.base.base.decls (tableOf W.base.base.dialect) W.base.base.facts fuel (.named id) =
      some (if W.base.base.facts.scans (.named id) then .own else if W.base.base.facts.unmarshals (.named id) then .text else .json) := by
  have hs : Spec.Document.Simple W.base.base.decls (.named id) := .named h.struct h.outside
  cases hv : W.base.base.facts.scans (.named id) <;> cases hm : W.base.base.facts.unmarshals (.named id) <;>
    simp [Dispatch.scanner, (simple_cases hs).2, h.unset.scan, pointee, (simple_key W.base.base.dialect hs).1, fallback, hv, hm]

/-- A struct of which only the pointer has `MarshalText`, as `big.Int`: it is written as JSON, and `UnmarshalText` is given the JSON,
on the value that is there. -/
theorem C104_receiver (ho : W.own f = true) (ht : W.base.base.ty f = .named id) (h : Plain W id)
    (hv : W.base.base.facts.hasValue (.named id) = false) (hs : W.base.base.facts.scans (.named id) = false)
    (hm : W.base.base.facts.marshals (.named id) = false) (hu : W.base.base.facts.unmarshals (.named id) = true) {j : Bytes}
    (hj : W.toJson f u = some j) (hk : Kept W f (.bytes j)) (old : U) :
    W.dec f (W.enc f (.own (some u))) (.own (some old)) = (done (W.unmarshal f old j)).map fun v => .own (some v) := by
  have hw : writes W.base.base.decls (tableOf W.base.base.dialect) W.base.base.facts fuel (.named id) = _ := plain_valuer h
  have hr : reads W.base.base.decls (tableOf W.base.base.dialect) W.base.base.facts fuel (.named id) = _ := plain_scanner h
  simp only [hv, hm, hs, hu, Bool.false_eq_true, if_false, if_true] at hw hr
  have hp : W.param f (some u) = .bytes j := by simp [Custom.World.param, ht, hw, hj]
  rw [enc_some hp (by simp)]
  have hg := hk (by simp)
  generalize hx : W.shown f (W.store f (.bytes j)) = s' at hg
  have key : ∀ r : Res U, Option.map Val.own (Option.map content (done (r.map Dest.val))) = (done r).map fun v => Val.own (some v) := by
    intro r; cases r <;> rfl
  cases hg <;>
    simp only [Custom.World.dec, ho, if_true, Custom.World.read, ht, hr, Custom.World.hand, hx, scanText, isPtr, Bool.false_eq_true, if_false,
      callMethod, key, Custom.World.current]

/-- A struct with `Scan` but without `Value`: it is written as text if it has `MarshalText`, otherwise as JSON, and `Scan` is given this. -/
theorem C104_scan_only (ho : W.own f = true) (ht : W.base.base.ty f = .named id) (h : Plain W id)
    (hv : W.base.base.facts.hasValue (.named id) = false) (hs : W.base.base.facts.scans (.named id) = true) {b : Bytes}
    (hb : (if W.base.base.facts.marshals (.named id) then W.marshal f u else W.toJson f u) = some b) (hk : Kept W f (.bytes b))
    (old : U) :
    ∃ s, Handed (.bytes b) s ∧ W.dec f (W.enc f (.own (some u))) (.own (some old)) = (done (W.scan f old s)).map fun v => .own (some v) := by
  have hw : writes W.base.base.decls (tableOf W.base.base.dialect) W.base.base.facts fuel (.named id) = _ := plain_valuer h
  have hr : reads W.base.base.decls (tableOf W.base.base.dialect) W.base.base.facts fuel (.named id) = _ := plain_scanner h
  simp only [hv, hs, Bool.false_eq_true, if_false, if_true] at hw hr
  have hp : W.param f (some u) = .bytes b := by
    cases hm : W.base.base.facts.marshals (.named id) <;> simp only [hm, Bool.false_eq_true, if_false, if_true] at hw hb <;>
      simp [Custom.World.param, ht, hw, hb]
  refine ⟨_, hk (by simp), ?_⟩
  rw [enc_some hp (by simp)]
  simp only [Custom.World.dec, ho, if_true, Custom.World.read, ht, hr, Custom.World.hand, isPtr, Bool.false_eq_true, if_false, Option.map_map]
  rfl

/-- A struct with `Value` but without `Scan`: a number, a time or a truth value that `Value` gives is never read. -/
theorem C104_value_only (ho : W.own f = true) (ht : W.base.base.ty f = .named id) (h : Plain W id)
    (hv : W.base.base.facts.hasValue (.named id) = true) (hs : W.base.base.facts.scans (.named id) = false)
    (hu : W.base.base.facts.unmarshals (.named id) = false) {s : Src} (hg : W.value f u = some s) (hk : Kept W f s)
    (hn : s ≠ .nil) (hb : ∀ b, s ≠ .bytes b ∧ s ≠ .str b) (old : Val U) : W.dec f (W.enc f (.own (some u))) old = none := by
  have hw : writes W.base.base.decls (tableOf W.base.base.dialect) W.base.base.facts fuel (.named id) = _ := plain_valuer h
  have hr : reads W.base.base.decls (tableOf W.base.base.dialect) W.base.base.facts fuel (.named id) = _ := plain_scanner h
  simp only [hv, hs, hu, Bool.false_eq_true, if_false, if_true] at hw hr
  have hp : W.param f (some u) = s := by simp [Custom.World.param, ht, hw, hg]
  rw [enc_some hp hn]
  have hg := hk hn
  generalize hx : W.shown f (W.store f s) = s' at hg
  cases hg with
  | same =>
    simp only [Custom.World.dec, ho, if_true, Custom.World.read, ht, hr, Custom.World.hand, hx]
    cases s <;> first | exact absurd rfl hn | exact absurd rfl (hb _).1 | exact absurd rfl (hb _).2 | rfl
  | str => exact absurd rfl (hb _).1
  | bytes => exact absurd rfl (hb _).2

/-- A pointer to a map, or to another type that is not a struct, with `MarshalText` and `UnmarshalText`: it is written as text and read as
JSON. -/
theorem C104_text_pointer (ho : W.own f = true) (ht : W.base.base.ty f = .ptr (.named id)) (hm : W.base.base.decls.under id = .other)
    (hn : W.base.base.decls.name id ≠ "time.Time".toList) (hv : W.base.base.facts.hasValue (.named id) = false)
    (hs : W.base.base.facts.scans (.named id) = false) (hma : W.base.base.facts.marshals (.named id) = true)
    (hu : Unset W.base.base.facts (.ptr (.named id))) {b : Bytes} (hb : W.marshal f u = some b) (hk : Kept W f (.bytes b)) (old : Val U) :
    W.dec f (W.enc f (.own (some u))) old = (W.fromJson f (some (W.current f old)) b).map .own := by
  have hsi : Spec.Document.Simple W.base.base.decls (.named id) := .namedMap hm hn
  have h1 : W.base.base.facts.confValue (.named id) = false := hu.value
  have hw : writes W.base.base.decls (tableOf W.base.base.dialect) W.base.base.facts fuel (.ptr (.named id)) = some .text := by
    show valuer _ _ _ _ (.named id) = _
    simp [valuer, (simple_cases hsi).2, h1, deref, hv, (simple_key W.base.base.dialect hsi).1, hma]
  have hr : reads W.base.base.decls (tableOf W.base.base.dialect) W.base.base.facts fuel (.ptr (.named id)) = some .json := by
    show Dispatch.scanner _ _ _ _ _ = _
    simp [Dispatch.scanner, isDirect, hu.scan, pointee, hs, other_ptr_key W.base.base.dialect (D := W.base.base.decls) (id := id) (by rw [hm]; simp),
      needsLen, ofKey]
  have hp : W.param f (some u) = .bytes b := by simp [Custom.World.param, ht, hw, hb]
  rw [enc_some hp (by simp)]
  have hg := hk (by simp)
  generalize hx : W.shown f (W.store f (.bytes b)) = s' at hg
  cases hg <;> simp only [Custom.World.dec, ho, if_true, Custom.World.read, ht, hr, Custom.World.hand, hx, Custom.World.scanJson]

end Verif.Props

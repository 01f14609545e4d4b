import Verif.Model.Dispatch

/-!
# C79, C80, C81: how fields are written and read

`tab` is the table of a dialect, `D` the defined types of the program, `F` what is known of methods and configuration, `n` a number of rounds that is
enough for the loop over the type.
-/

namespace Verif.Props

open Verif Verif.Dispatch

/-- What is used of the tables: but for `*`, keys have no star and end with a name. -/
structure Sane (tab : Table) : Prop where
  star : tab (.toks [.star]) = true
  keys : ∀ l, tab (.toks l) = true → l = [.star] ∨ (.star ∉ l ∧ ∃ b, l.getLast? = some (.name b))
  /-- The types that are written as they are have entries. -/
  direct : ∀ b ∈ ["string", "bool", "int64", "float64", "time.Time"].map String.toList, tab (.toks [.name b]) = true

private def okKey : Key → Bool
  | .toks l => l = [.star] || (!l.contains .star && match l.getLast? with | some (.name _) => true | _ => false)
  | .fixed _ => true

private theorem sane_of {ks : List Key} (h1 : Key.toks [.star] ∈ ks) (h2 : ks.all okKey = true)
    (h3 : ∀ b ∈ ["string", "bool", "int64", "float64", "time.Time"].map String.toList, Key.toks [.name b] ∈ ks) : Sane fun k => k ∈ ks where
  star := by simpa using h1
  keys := by
    intro l hl
    have := List.all_eq_true.1 h2 (.toks l) (by simpa using hl)
    simp only [okKey, Bool.or_eq_true, decide_eq_true_eq, Bool.and_eq_true, Bool.not_eq_true', List.contains_eq_mem] at this
    rcases this with h | ⟨ha, hb⟩
    · exact .inl h
    · refine .inr ⟨by simpa using ha, ?_⟩
      split at hb
      · next b e => exact ⟨b, e⟩
      · cases hb
  direct := fun b hb => by simpa using h3 b hb

theorem sane_mysql : Sane mysql := sane_of (by decide +kernel) (by decide +kernel) (by decide +kernel)
theorem sane_sqlite : Sane sqlite := sane_of (by decide +kernel) (by decide +kernel) (by decide +kernel)
theorem sane_postgres : Sane postgres := sane_of (by decide +kernel) (by decide +kernel) (by decide +kernel)

variable {D : Decls} {tab : Table} {F : Facts} {n : Nat}

/-- What the loop collects if no key is found in it. -/
def spell (D : Decls) : Nat → Ty → Option Nat → Option (List Tok)
  | 0, _, _ => none
  | n + 1, ty, last =>
    match ty with
    | .basic b => some [.name b]
    | .named id =>
      if D.under id = .struct then some [.name (D.name id)]
      else if last = some (D.obj id) then some []
      else spell D n (D.under id) (some (D.obj id))
    | .alias r => spell D n r last
    | .ptr e => (spell D n e last).map (.star :: ·)
    | .slice e => (spell D n e last).map (.slice :: ·)
    | .array k e => (spell D n e last).map (.arr k :: ·)
    | .struct => some []
    | .other => some []

/-- What is collected is not a key of the table. -/
def Inert (s : List Tok) : Prop := s ≠ [] ∧ s ≠ [.star] ∧ ∀ b, Tok.name b ∉ s

theorem Inert.not_key (ht : Sane tab) {s : List Tok} (h : Inert s) : tab (.toks s) = false := by
  cases hk : tab (.toks s) with
  | false => rfl
  | true =>
    rcases ht.keys s hk with e | ⟨-, b, hb⟩
    · exact absurd e h.2.1
    · exact absurd (List.mem_of_getLast? hb) (h.2.2 b)

theorem Inert.push {s : List Tok} (h : Inert s) {k : Tok} (hk : ∀ b, k ≠ .name b) : Inert (s ++ [k]) := by
  refine ⟨by simp, ?_, ?_⟩
  · intro e
    have hl := congrArg List.length e
    simp at hl
    exact h.1 hl
  · intro b hb
    rcases List.mem_append.1 hb with h' | h'
    · exact h.2.2 b h'
    · exact hk b (List.mem_singleton.1 h').symm

theorem walk_inert (ht : Sane tab) {n : Nat} {ty : Ty} {last : Option Nat} {s : List Tok} (h : Inert s) :
    walk D tab n ty last s = (spell D n ty last).map fun w => .rest (s ++ w) := by
  induction n generalizing ty last s with
  | zero => rfl
  | succ n ih =>
    cases ty with
    | basic b => rfl
    | named id =>
      simp only [walk, spell]
      by_cases h1 : D.under id = .struct
      · rw [if_pos h1, if_pos h1]; rfl
      · rw [if_neg h1, if_neg h1, if_neg (by rw [h.not_key ht]; simp)]
        by_cases h2 : last = some (D.obj id)
        · rw [if_pos h2, if_pos h2]; simp
        · rw [if_neg h2, if_neg h2, ih h]
    | alias r => simp only [walk, spell]; exact ih h
    | ptr e =>
      simp only [walk, spell]
      rw [ih (h.push (by simp))]
      cases spell D n e last <;> simp
    | slice e =>
      simp only [walk, spell]
      rw [ih (h.push (by simp))]
      cases spell D n e last <;> simp
    | array k e =>
      simp only [walk, spell]
      rw [ih (h.push (by simp))]
      cases spell D n e last <;> simp
    | struct => simp [walk, spell]
    | other => simp [walk, spell]

/-- A type, aliases resolved. -/
def unalias : Ty → Ty
  | .alias r => unalias r
  | t => t

/-! ## C79 -/

/-- A type without methods that matter and without configuration. -/
structure Bare (F : Facts) (t : Ty) : Prop where
  value : F.hasValue t = false
  scan : F.scans t = false
  marshal : F.marshals t = false
  unmarshal : F.unmarshals t = false
  confV : F.confValue t = false
  confS : F.confScan t = false

/-- The name of the types that are passed as they are. -/
def nameOf (D : Decls) : Ty → Text
  | .basic b => b
  | .named id => D.name id
  | _ => []

/-- The database value is read as what was written: in the same way, or with the table entry of a type that is written as it is. -/
def Agree (D : Decls) (e : Ty) (w r : How) : Prop := r = w ∨ (w = .direct ∧ r = .table (.toks [.name (nameOf D e)]))

/-- C79 for fields that are no pointers: they are read as they were written, or the generator panics. -/
theorem C79_plain_partial {t : Ty} (hp : ∀ e, t ≠ .ptr e) (hb : Bare F t) {w r : How} (hw : writes D tab F n t = some w)
    (hr : Dispatch.reads D tab F n t = some r) : r = w ∨ r = .panic := by
  have hd : deref t = t := by
    cases t with
    | ptr e => exact absurd rfl (hp e)
    | _ => rfl
  have hpt : pointee t = t := by
    cases t with
    | ptr e => exact absurd rfl (hp e)
    | _ => rfl
  have hw' : valuer D tab F n t = some w := by
    cases t with
    | ptr e => exact absurd rfl (hp e)
    | _ => exact hw
  have hr' : scanner D tab F n t = some r := hr
  unfold valuer at hw'
  unfold scanner at hr'
  by_cases h1 : isDirect D t = true
  · rw [if_pos h1] at hw' hr'
    cases hw'; cases hr'; exact .inl rfl
  rw [if_neg h1] at hw' hr'
  rw [if_neg (by simp [hb.confV]), hd, if_neg (by simp [hb.value]), hb.marshal] at hw'
  rw [if_neg (by simp [hb.confS]), hpt, if_neg (by simp [hb.scan]), hb.unmarshal] at hr'
  cases hc : columnKey D tab n t with
  | none => rw [hc] at hw'; cases hw'
  | some k? =>
    rw [hc] at hw' hr'
    cases k? with
    | none => simp at hw' hr'; rw [← hw', ← hr']; exact .inl rfl
    | some k =>
      simp only [Option.map_some, Option.some.injEq] at hw' hr'
      subst hw' hr'
      by_cases h : needsLen k = true ∧ arraySize t ≤ 0
      · rw [if_pos h]; exact .inr rfl
      · rw [if_neg h]; exact .inl rfl

theorem walk_mono {ty : Ty} {last : Option Nat} {s : List Tok} {x : Walk} (h : walk D tab n ty last s = some x) {m : Nat} (hm : n ≤ m) :
    walk D tab m ty last s = some x := by
  induction n generalizing m ty last s with
  | zero => cases h
  | succ n ih =>
    obtain ⟨m, rfl⟩ : ∃ k, m = k + 1 := ⟨m - 1, by omega⟩
    have hm : n ≤ m := by omega
    cases ty with
    | basic b => exact h
    | named id =>
      simp only [walk] at h ⊢
      by_cases h1 : D.under id = .struct
      · rw [if_pos h1] at h ⊢; exact h
      · rw [if_neg h1] at h ⊢
        by_cases h2 : tab (.toks s) = true
        · rw [if_pos h2] at h ⊢; exact h
        · rw [if_neg h2] at h ⊢
          by_cases h3 : last = some (D.obj id)
          · rw [if_pos h3] at h ⊢; exact h
          · rw [if_neg h3] at h ⊢; exact ih h hm
    | alias r => simp only [walk] at h ⊢; exact ih h hm
    | ptr e => simp only [walk] at h ⊢; exact ih h hm
    | slice e => simp only [walk] at h ⊢; exact ih h hm
    | array k e => simp only [walk] at h ⊢; exact ih h hm
    | struct => exact h
    | other => exact h

theorem columnKey_mono {t : Ty} {x : Option Key} (h : columnKey D tab n t = some x) {m : Nat} (hm : n ≤ m) : columnKey D tab m t = some x := by
  unfold columnKey at h ⊢
  cases hw : walk D tab n t none [] with
  | none => rw [hw] at h; cases h
  | some w => rw [hw] at h; rw [walk_mono hw hm]; exact h

/-- Types whose pointers are looked up like themselves. -/
def Open (D : Decls) (t : Ty) : Prop := (∀ e, t ≠ .ptr e) ∧ ∀ id, t = .named id → D.under id = .struct

theorem inert_slice : Inert [.slice] := ⟨by simp, by simp, by simp⟩
theorem inert_arr (k : Nat) : Inert [.arr k] := ⟨by simp, by simp, by simp⟩
theorem inert_star_slice : Inert [.star, .slice] := ⟨by simp, by simp, by simp⟩
theorem inert_star_arr (k : Nat) : Inert [.star, .arr k] := ⟨by simp, by simp, by simp⟩

theorem walk_ptr (ht : Sane tab) {e : Ty} (ho : Open D (unalias e)) {x : Walk} (h : walk D tab n e none [] = some x) :
    ∃ w, x = .rest w ∧ w.head? ≠ some .star ∧ walk D tab n e none [.star] = some (.rest (.star :: w)) := by
  induction n generalizing e with
  | zero => cases h
  | succ n ih =>
    cases e with
    | basic b => cases h; exact ⟨_, rfl, by simp, rfl⟩
    | named id =>
      have hs := ho.2 id rfl
      simp only [walk, if_pos hs] at h ⊢
      cases h
      exact ⟨_, rfl, by simp, rfl⟩
    | alias r => simp only [walk] at h ⊢; exact ih ho h
    | ptr e => exact absurd rfl (ho.1 e)
    | slice e =>
      simp only [walk, List.nil_append] at h ⊢
      rw [walk_inert ht inert_slice] at h
      cases hsp : spell D n e none with
      | none => rw [hsp] at h; cases h
      | some w =>
        rw [hsp] at h
        cases h
        refine ⟨_, rfl, by simp, ?_⟩
        rw [show [Tok.star] ++ [Tok.slice] = [.star, .slice] from rfl, walk_inert ht inert_star_slice, hsp]
        rfl
    | array k e =>
      simp only [walk, List.nil_append] at h ⊢
      rw [walk_inert ht (inert_arr k)] at h
      cases hsp : spell D n e none with
      | none => rw [hsp] at h; cases h
      | some w =>
        rw [hsp] at h
        cases h
        refine ⟨_, rfl, by simp, ?_⟩
        rw [show [Tok.star] ++ [Tok.arr k] = [.star, .arr k] from rfl, walk_inert ht (inert_star_arr k), hsp]
        rfl
    | struct => cases h; exact ⟨_, rfl, by simp, rfl⟩
    | other => cases h; exact ⟨_, rfl, by simp, rfl⟩

/-- What a pointer is looked up as. -/
theorem columnKey_ptr (ht : Sane tab) {e : Ty} (ho : Open D (unalias e)) {k? : Option Key} (h : columnKey D tab n e = some k?) :
    (columnKey D tab (n + 1) (.ptr e) = some k? ∧ ∀ b, k? ≠ some (.fixed b)) ∨
    (k? = none ∧ columnKey D tab (n + 1) (.ptr e) = some (some (.toks [.star]))) ∨
    (∃ b, k? = some (.fixed b)) ∧ columnKey D tab (n + 1) (.ptr e) = some none := by
  unfold columnKey at h ⊢
  cases hw : walk D tab n e none [] with
  | none => rw [hw] at h; cases h
  | some x =>
    obtain ⟨w, rfl, hh, hp⟩ := walk_ptr ht ho hw
    rw [hw] at h
    have hp' : walk D tab (n + 1) (.ptr e) none [] = some (.rest (.star :: w)) := hp
    rw [hp']
    simp only [Option.map_some, Option.some.injEq] at h ⊢
    subst h
    simp only [lookup, List.head?_cons, List.tail_cons, true_and]
    by_cases hn : w = []
    · subst hn
      rw [if_pos ht.star]
      refine .inr (.inl ⟨?_, rfl⟩)
      rw [if_neg, if_neg (by simp)]
      · rfl
      · intro h
        rcases ht.keys [] h with e | ⟨-, b, hb⟩
        · cases e
        · cases hb
    · have h1 : ¬tab (.toks (.star :: w)) = true := by
        intro h
        rcases ht.keys _ h with e | ⟨hs, -⟩
        · exact hn (by simpa using e)
        · exact hs (List.mem_cons_self ..)
      rw [if_neg h1]
      by_cases h2 : tab (.toks w) = true
      · rw [if_pos h2, if_pos h2]
        exact .inl ⟨rfl, by simp⟩
      · rw [if_neg h2, if_neg h2, if_neg fun h => hh h.1]
        have hf : fixedName (.star :: w) = none := by unfold fixedName; rfl
        rw [hf]
        cases hfw : fixedName w with
        | none => exact .inl ⟨rfl, by simp⟩
        | some b =>
          by_cases h3 : tab (.fixed b) = true
          · simp only [if_pos h3]
            exact .inr (.inr ⟨⟨b, rfl⟩, trivial⟩)
          · simp only [if_neg h3]
            exact .inl ⟨trivial, by simp⟩

theorem deref_open {e : Ty} (ho : Open D (unalias e)) : deref e = e := by
  cases e with
  | ptr x => exact absurd rfl (ho.1 x)
  | _ => rfl

theorem isDirect_key (ht : Sane tab) {e : Ty} (ho : Open D (unalias e)) (hd : isDirect D e = true) :
    columnKey D tab (n + 1) e = some (some (.toks [.name (nameOf D e)])) := by
  unfold columnKey
  cases e with
  | basic b =>
    have hk := ht.direct b (by
      have hd' : b ∈ ["string", "bool", "int64", "float64"].map String.toList := by simpa only [isDirect, decide_eq_true_eq] using hd
      simp only [List.map_cons, List.map_nil, List.mem_cons, List.not_mem_nil, or_false] at hd' ⊢
      rcases hd' with h | h | h | h <;> simp [h])
    simp [walk, lookup, hk, nameOf]
  | named id =>
    have hk := ht.direct (D.name id) (by simp only [isDirect, decide_eq_true_eq] at hd; rw [hd]; decide +kernel)
    have hs := ho.2 id rfl
    simp [walk, lookup, hk, nameOf, hs]
  | _ => simp [isDirect] at hd

/-- C79 for pointers, as far as it holds: they are read as what they point to was written, if that is neither a defined type other than a struct,
nor a pointer, nor an array of bytes or runes. -/
theorem C79_pointer_partial (ht : Sane tab) {e : Ty} (ho : Open D (unalias e)) (hb : Bare F e) (hc : F.confScan (.ptr e) = false)
    (ha : ∀ b, columnKey D tab (n + 1) e ≠ some (some (.fixed b))) {w r : How}
    (hw : writes D tab F (n + 1) (.ptr e) = some w) (hr : Dispatch.reads D tab F (n + 2) (.ptr e) = some r) : Agree D e w r := by
  have hw' : valuer D tab F (n + 1) e = some w := hw
  have hr' : scanner D tab F (n + 2) (.ptr e) = some r := hr
  unfold valuer at hw'
  unfold scanner at hr'
  rw [if_neg (by simp [isDirect]), if_neg (by simp [hc]), show pointee (.ptr e) = e from rfl, if_neg (by simp [hb.scan]), hb.unmarshal] at hr'
  rw [deref_open ho, hb.marshal] at hw'
  have fin : ∀ k?, columnKey D tab (n + 1) e = some k? → (match k? with | some k => ofKey k | none => fallback) = r := by
    intro k? hk
    rcases columnKey_ptr ht ho hk with ⟨h, hf⟩ | ⟨rfl, h⟩ | ⟨⟨b, rfl⟩, -⟩
    · rw [h] at hr'
      cases k? with
      | none => simpa using hr'
      | some k =>
        simp only [Option.map_some, Option.some.injEq] at hr'
        rw [if_neg] at hr'
        · exact hr'
        · rintro ⟨h, -⟩
          cases k with
          | toks l => simp [needsLen] at h
          | fixed b => exact hf b rfl
    · rw [h] at hr'
      simpa [needsLen, ofKey, fallback] using hr'
    · exact absurd hk (ha b)
  by_cases h1 : isDirect D e = true
  · rw [if_pos h1] at hw'
    cases hw'
    have := fin _ (isDirect_key ht ho h1)
    right
    refine ⟨rfl, ?_⟩
    rw [← this]
    simp [ofKey]
  · rw [if_neg h1, if_neg (by simp [hb.confV]), if_neg (by simp [hb.value])] at hw'
    cases hk : columnKey D tab (n + 1) e with
    | none => rw [hk] at hw'; cases hw'
    | some k? =>
      rw [hk] at hw'
      left
      rw [← fin k? hk]
      cases k? with
      | none => simpa using hw'
      | some k => simpa using hw'

/-- C79 fails for every pointer to a defined type that is no struct: it is read as JSON, whatever is written. -/
theorem C79_pointer_named (ht : Sane tab) {id : Nat} (hu : D.under id ≠ .struct) (hb : Bare F (.named id)) (hc : F.confScan (.ptr (.named id)) = false) :
    Dispatch.reads D tab F (n + 2) (.ptr (.named id)) = some .json := by
  show scanner D tab F (n + 2) (.ptr (.named id)) = some .json
  unfold scanner
  rw [if_neg (by simp [isDirect]), if_neg (by simp [hc]), show pointee (.ptr (.named id)) = .named id from rfl, if_neg (by simp [hb.scan])]
  simp [columnKey, walk, hu, ht.star, lookup, needsLen, ofKey]

/-- What is written for them is the value as a number, a text or a truth value, if the type is defined from one of these. -/
theorem C79_pointer_named_written {id : Nat} {b : Text} (hu : D.under id = .basic b) (hk : tab (.toks [.name b]) = true) (h0 : tab (.toks []) = false)
    (hb : Bare F (.named id)) (hd : D.name id ≠ "time.Time".toList) :
    writes D tab F (n + 2) (.ptr (.named id)) = some (.table (.toks [.name b])) := by
  show valuer D tab F (n + 2) (.named id) = _
  unfold valuer
  have hd' : ¬isDirect D (.named id) = true := fun h => hd (by simpa only [isDirect, decide_eq_true_eq] using h)
  rw [if_neg hd', if_neg (by simp [hb.confV]), show deref (.named id) = .named id from rfl, if_neg (by simp [hb.value])]
  simp [columnKey, walk, hu, hk, h0, lookup, ofKey]

theorem Sane.nil (ht : Sane tab) : tab (.toks []) = false := by
  cases h : tab (.toks []) with
  | false => rfl
  | true =>
    rcases ht.keys [] h with e | ⟨-, b, hb⟩
    · cases e
    · cases hb

/-- C79 fails for every pointer to a byte or rune array: it is written as bytes or text and read as JSON. -/
theorem C79_pointer_array (ht : Sane tab) {k : Nat} {b : Text} (hb1 : b = "byte".toList ∨ b = "rune".toList)
    (hk : tab (.fixed b) = true) (hn1 : tab (.toks [.arr k, .name b]) = false) (hb : Bare F (.array k (.basic b)))
    (hc : F.confScan (.ptr (.array k (.basic b))) = false) :
    writes D tab F (n + 3) (.ptr (.array k (.basic b))) = some (.table (.fixed b)) ∧
      Dispatch.reads D tab F (n + 3) (.ptr (.array k (.basic b))) = some .json := by
  constructor
  · show valuer D tab F (n + 3) (.array k (.basic b)) = _
    unfold valuer
    rw [if_neg (by simp [isDirect]), if_neg (by simp [hb.confV]), show deref (.array k (.basic b)) = .array k (.basic b) from rfl,
      if_neg (by simp [hb.value])]
    have hf : fixedName [.arr k, .name b] = some b := by
      exact if_pos (by rcases hb1 with h | h <;> simp [h])
    simp [columnKey, walk, lookup, hn1, hf, hk, ofKey]
  · show scanner D tab F (n + 3) (.ptr (.array k (.basic b))) = _
    unfold scanner
    rw [if_neg (by simp [isDirect]), if_neg (by simp [hc]), show pointee (.ptr (.array k (.basic b))) = .array k (.basic b) from rfl,
      if_neg (by simp [hb.scan]), hb.unmarshal]
    have h1 : tab (.toks [.star, .arr k, .name b]) = false := by
      cases h : tab (.toks [.star, .arr k, .name b]) with
      | false => rfl
      | true => rcases ht.keys _ h with e | ⟨e, -⟩ <;> simp at e
    have hf : fixedName [.star, .arr k, .name b] = none := rfl
    simp [columnKey, walk, lookup, hn1, h1, hf, fallback]

/-- C79 fails for types with a method `Value` and no `Scan`: the value of the method is read as if the field had been written as it is. -/
theorem C79_value_only {t : Ty} (hd : isDirect D t = false) (hv : F.hasValue (deref t) = true) (hs : F.scans (pointee t) = false)
    (hcv : F.confValue t = false) (hcs : F.confScan t = false) {r : How} (hr : Dispatch.reads D tab F n t = some r) :
    valuer D tab F n t = some .own ∧ r ≠ .own := by
  refine ⟨by unfold valuer; rw [if_neg (by simp [hd]), if_neg (by simp [hcv]), if_pos hv], ?_⟩
  have hr : scanner D tab F n t = some r := hr
  unfold scanner at hr
  rw [if_neg (by simp [hd]), if_neg (by simp [hcs]), if_neg (by simp [hs])] at hr
  cases hk : columnKey D tab n t with
  | none => rw [hk] at hr; cases hr
  | some k? =>
    rw [hk] at hr
    cases k? with
    | none =>
      simp only [Option.map_some, Option.some.injEq] at hr
      subst hr
      split <;> simp [fallback]
    | some k =>
      simp only [Option.map_some, Option.some.injEq] at hr
      subst hr
      unfold ofKey
      split
      · simp
      · split <;> simp

/-- C79 fails for pointers to types that are configured: the type of the field is not the one configured when it is read. -/
theorem C79_config_pointer {e : Ty} (hd : isDirect D e = false) (hcv : F.confValue e = true) (hcs : F.confScan (.ptr e) = false) {r : How}
    (hr : Dispatch.reads D tab F n (.ptr e) = some r) : writes D tab F n (.ptr e) = some .config ∧ r ≠ .config := by
  refine ⟨by show valuer D tab F n e = _; unfold valuer; rw [if_neg (by simp [hd]), if_pos hcv], ?_⟩
  have hr : scanner D tab F n (.ptr e) = some r := hr
  unfold scanner at hr
  rw [if_neg (by simp [isDirect]), if_neg (by simp [hcs])] at hr
  split at hr
  · cases hr; simp
  · cases hk : columnKey D tab n (.ptr e) with
    | none => rw [hk] at hr; cases hr
    | some k? =>
      rw [hk] at hr
      cases k? with
      | none =>
        simp only [Option.map_some, Option.some.injEq] at hr
        subst hr
        split <;> simp [fallback]
      | some k =>
        simp only [Option.map_some, Option.some.injEq] at hr
        subst hr
        unfold ofKey
        split
        · simp
        · split <;> simp

end Verif.Props

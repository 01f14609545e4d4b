import Verif.Model.Import
import Verif.Lemmas.Numeral

/-!
# C51: imports of the generated file
-/

namespace Verif.Props

open Verif Verif.Import

/-- The name under which a Go file with this import line refers to the package: the one written, or else the one the package
declares. -/
def declares (load : Bytes → Option Bytes) (x : Imp) : Option Bytes :=
  match lineName x with
  | some n => some n
  | none => load x.path

theorem natDec_inj {a b : Nat} (h : natDec a = natDec b) : a = b := by
  have h1 := parseUint_natDec (n := a) (w := a + b + 1) (Nat.lt_of_lt_of_le Nat.lt_two_pow_self (Nat.pow_le_pow_right (by omega) (by omega)))
  have h2 := parseUint_natDec (n := b) (w := a + b + 1) (Nat.lt_of_lt_of_le Nat.lt_two_pow_self (Nat.pow_le_pow_right (by omega) (by omega)))
  rw [h, h2] at h1
  exact (Option.some.inj h1).symm

/-- The candidates the search goes through. -/
def candidate (name : Bytes) : Nat → Bytes
  | 0 => name
  | i + 1 => name ++ natDec (i + 1)

theorem candidate_inj (name : Bytes) {i j : Nat} (h : candidate name i = candidate name j) : i = j := by
  have ne : ∀ k, natDec k ≠ [] := fun k => (natDec_numeral k).ne_nil
  cases i <;> cases j <;> simp only [candidate] at h
  · rfl
  · exact absurd (List.append_right_eq_self.1 h.symm) (ne _)
  · exact absurd (List.append_right_eq_self.1 h) (ne _)
  · exact natDec_inj (List.append_cancel_left h)

theorem fresh_spec (cache : List Bytes) (name : Bytes) (n i : Nat) :
    (∀ a, fresh cache name n (i + 1) (candidate name i) = some a →
      ∃ k, i ≤ k ∧ k < i + n ∧ a = candidate name k ∧ a ∉ cache ∧ ∀ j, i ≤ j → j < k → candidate name j ∈ cache) ∧
    (fresh cache name n (i + 1) (candidate name i) = none → ∀ j, i ≤ j → j < i + n → candidate name j ∈ cache) := by
  induction n generalizing i with
  | zero => exact ⟨fun a h => (by cases h), fun _ j h1 h2 => (by omega)⟩
  | succ n ih =>
    obtain ⟨ih1, ih2⟩ := ih (i + 1)
    simp only [fresh]
    by_cases hc : candidate name i ∈ cache
    · rw [if_pos hc]
      constructor
      · intro a h
        obtain ⟨k, h1, h2, h3, h4, h5⟩ := ih1 a h
        refine ⟨k, by omega, by omega, h3, h4, fun j hj hk => ?_⟩
        by_cases e : j = i
        · exact e ▸ hc
        · exact h5 j (by omega) hk
      · intro h j h1 h2
        by_cases e : j = i
        · exact e ▸ hc
        · exact ih2 h j (by omega) (by omega)
    · rw [if_neg hc]
      refine ⟨fun a h => ?_, fun h => by cases h⟩
      cases h
      exact ⟨i, by omega, by omega, rfl, hc, fun j h1 h2 => by omega⟩

/-- C51: the search for a name ends: after at most one round more than there are names. -/
theorem C51_search_ends (cache : List Bytes) (name : Bytes) (n : Nat) (h : cache.length < n) :
    ∃ a, fresh cache name n 1 name = some a := by
  cases he : fresh cache name n 1 name with
  | some a => exact ⟨a, rfl⟩
  | none =>
    exfalso
    have hall := (fresh_spec cache name n 0).2 he
    have hn : ((List.range n).map (candidate name)).Nodup := by
      rw [List.nodup_iff_pairwise_ne, List.pairwise_map]
      exact List.nodup_range.imp fun hne e => hne (candidate_inj name e)
    have hs : ((List.range n).map (candidate name)) ⊆ cache := by
      intro x hx
      obtain ⟨j, hj, rfl⟩ := List.mem_map.1 hx
      exact hall j (by omega) (by have := List.mem_range.1 hj; omega)
    have := hn.length_le_of_subset hs
    rw [List.length_map, List.length_range] at this
    omega

/-- C51: the name found is not in use. -/
theorem fresh_not_mem {cache : List Bytes} {name a : Bytes} {n : Nat} (h : fresh cache name n 1 name = some a) : a ∉ cache := by
  obtain ⟨k, _, _, _, h4, _⟩ := (fresh_spec cache name n 0).1 a h
  exact h4

/-- The state is consistent. -/
structure Ok (p : Pkg) : Prop where
  names : p.cache = (p.imports.map (·.name)).reverse
  distinct : (p.imports.map (·.name)).Nodup
  paths : (p.imports.map (·.path)).Nodup
  own : p.pkgPath ∉ p.imports.map (·.path)

theorem ok_empty (path : Bytes) : Ok ⟨path, [], []⟩ := ⟨rfl, by simp, by simp, by simp⟩

theorem imp_spec (load : Bytes → Option Bytes) {n : Nat} {p p' : Pkg} {r : Imp} {a : Option Imp} {b : Bool} (hp : Ok p)
    (h : imp load n p r = some (a, b, p')) :
    Ok p' ∧ p.imports <+: p'.imports ∧ p'.pkgPath = p.pkgPath ∧ p'.imports.length ≤ p.imports.length + 1 ∧
      (load r.path ≠ none → ∀ x, a = some x → x.path = r.path ∧ x ∈ p'.imports) ∧ (load r.path ≠ none → a = none → r.path = p.pkgPath) := by
  unfold imp at h
  cases hf : p.imports.find? (fun x => r.path = x.path) with
  | some x =>
    rw [hf] at h
    cases h
    refine ⟨hp, List.prefix_rfl, rfl, by omega, ?_, ?_⟩
    · intro _ y hy
      cases hy
      exact ⟨by have h := List.find?_some hf; exact (of_decide_eq_true h).symm, List.mem_of_find?_eq_some hf⟩
    · intro _ e; cases e
  | none =>
    rw [hf] at h
    simp only at h
    cases hl : load r.path with
    | none =>
      rw [hl] at h
      cases h
      exact ⟨hp, List.prefix_rfl, rfl, by omega, fun h => absurd rfl h, fun h => absurd rfl h⟩
    | some real =>
      rw [hl] at h
      simp only at h
      split at h
      · rename_i e
        cases h
        exact ⟨hp, List.prefix_rfl, rfl, by omega, fun _ x hx => (by cases hx), fun _ _ => e⟩
      · rename_i e
        generalize hn : (if real ≠ [] ∧ real ≠ r.name then real else r.name) = name at h
        cases hfr : fresh p.cache name n 1 name with
        | none => rw [hfr] at h; cases h
        | some al =>
          rw [hfr] at h
          cases h
          have hnew := fresh_not_mem hfr
          rw [hp.names, List.mem_reverse] at hnew
          refine ⟨⟨?_, ?_, ?_, ?_⟩, List.prefix_append _ _, rfl, by simp, ?_, ?_⟩
          · simp [hp.names]
          · simp only [List.map_append, List.map_cons, List.map_nil]
            rw [List.nodup_append]
            refine ⟨hp.distinct, by simp, ?_⟩
            intro a ha b hb
            rw [List.mem_singleton] at hb
            subst hb
            exact fun e => hnew (e ▸ ha)
          · simp only [List.map_append, List.map_cons, List.map_nil]
            rw [List.nodup_append]
            refine ⟨hp.paths, by simp, ?_⟩
            intro a ha b hb
            rw [List.mem_singleton] at hb
            subst hb
            intro e
            obtain ⟨x, hx, rfl⟩ := List.mem_map.1 ha
            have := List.find?_eq_none.1 hf x hx
            simp [e] at this
          · simp only [List.map_append, List.map_cons, List.map_nil, List.mem_append, List.mem_singleton, not_or]
            exact ⟨hp.own, fun e' => e e'.symm⟩
          · intro _ x hx; cases hx; simp
          · intro _ hx; cases hx

theorem imp_total (load : Bytes → Option Bytes) {n : Nat} {p : Pkg} (hp : Ok p) (hn : p.imports.length < n) (r : Imp) :
    ∃ a b p', imp load n p r = some (a, b, p') := by
  unfold imp
  cases p.imports.find? (fun x => r.path = x.path) with
  | some x => exact ⟨_, _, _, rfl⟩
  | none =>
    simp only
    cases load r.path with
    | none => exact ⟨_, _, _, rfl⟩
    | some real =>
      simp only
      split
      · exact ⟨_, _, _, rfl⟩
      · obtain ⟨a, ha⟩ := C51_search_ends p.cache (if real ≠ [] ∧ real ≠ r.name then real else r.name) n
          (by rw [hp.names, List.length_reverse, List.length_map]; exact hn)
        rw [ha]
        exact ⟨_, _, _, rfl⟩

theorem imps_spec (load : Bytes → Option Bytes) {n : Nat} (rs : List Imp) {p : Pkg} (hp : Ok p) (hn : p.imports.length + rs.length ≤ n) :
    ∃ as p', imps load n p rs = some (as, p') ∧ Ok p' ∧ p.imports <+: p'.imports ∧ p'.pkgPath = p.pkgPath ∧
      as.length = rs.length ∧ p'.imports.length ≤ p.imports.length + rs.length ∧
      ∀ (i : Nat) (r : Imp) (a : Option Imp), rs[i]? = some r → as[i]? = some a → load r.path ≠ none →
        (∀ x, a = some x → x.path = r.path ∧ x ∈ p'.imports) ∧ (a = none → r.path = p.pkgPath) := by
  induction rs generalizing p with
  | nil =>
    exact ⟨[], p, rfl, hp, List.prefix_rfl, rfl, rfl, by simp, by simp⟩
  | cons r rs ih =>
    simp only [List.length_cons] at hn
    obtain ⟨a, b, p1, h1⟩ := imp_total load (n := n) hp (by omega) r
    obtain ⟨k1, k2, k3, k4, k5, k6⟩ := imp_spec load hp h1
    obtain ⟨as, p2, h2, h3, h4, h5, h6, h7, h8⟩ := ih k1 (by omega)
    refine ⟨a :: as, p2, ?_, h3, k2.trans h4, h5.trans k3, by simp [h6], by simp; omega, ?_⟩
    · rw [imps, h1, Option.bind_some]
      simp [h2]
    · intro i r' a' hr ha hl
      cases i with
      | zero =>
        simp only [List.getElem?_cons_zero, Option.some.injEq] at hr ha
        subst hr ha
        exact ⟨fun x hx => ⟨(k5 hl x hx).1, h4.subset (k5 hl x hx).2⟩, k6 hl⟩
      | succ i =>
        simp only [List.getElem?_cons_succ] at hr ha
        have := h8 i r' a' hr ha hl
        rw [k3] at this
        exact this

theorem mem_unique {α β : Type} {f : α → β} {l : List α} (h : (l.map f).Nodup) {x y : α} (hx : x ∈ l) (hy : y ∈ l) (e : f x = f y) : x = y := by
  induction l with
  | nil => cases hx
  | cons a l ih =>
    rw [List.map_cons, List.nodup_cons] at h
    rcases List.mem_cons.1 hx with h1 | h1 <;> rcases List.mem_cons.1 hy with h2 | h2
    · rw [h1, h2]
    · exact absurd (by rw [← h1, e]; exact List.mem_map_of_mem h2) h.1
    · exact absurd (by rw [← h2, ← e]; exact List.mem_map_of_mem h1) h.1
    · exact ih h.2 h1 h2

/-- C51 for packages that can be loaded, after any sequence of requests: every request is answered, with the name it was first given; for
different paths these are different names; only the package of the file itself gets none.  Full statement: for all
requests.  Missing: packages that cannot be loaded, see `C51_load_failure`. -/
theorem C51_names_partial (load : Bytes → Option Bytes) (own : Bytes) (rs : List Imp) :
    ∃ as p, imps load rs.length ⟨own, [], []⟩ rs = some (as, p) ∧ as.length = rs.length ∧
      ∀ (i j : Nat) (r r' : Imp) (a a' : Option Imp), rs[i]? = some r → as[i]? = some a → rs[j]? = some r' → as[j]? = some a' →
        load r.path ≠ none → load r'.path ≠ none →
          (a = none → r.path = own) ∧
          (∀ x, a = some x → x ∈ p.imports ∧ x.path = r.path) ∧
          (r.path = r'.path → ∀ x x', a = some x → a' = some x' → x = x') ∧
          (r.path ≠ r'.path → ∀ x x', a = some x → a' = some x' → x.name ≠ x'.name) := by
  obtain ⟨as, p, h1, h2, _, _, h5, _, h7⟩ := imps_spec load (n := rs.length) rs (ok_empty own) (by simp)
  refine ⟨as, p, h1, h5, ?_⟩
  intro i j r r' a a' hr ha hr' ha' hl hl'
  obtain ⟨k1, k2⟩ := h7 i r a hr ha hl
  obtain ⟨l1, l2⟩ := h7 j r' a' hr' ha' hl'
  refine ⟨k2, fun x hx => ⟨(k1 x hx).2, (k1 x hx).1⟩, ?_, ?_⟩
  · intro e x x' hx hx'
    obtain ⟨m1, m2⟩ := k1 x hx
    obtain ⟨m3, m4⟩ := l1 x' hx'
    exact mem_unique h2.paths m2 m4 (m1.trans (e.trans m3.symm))
  · intro e x x' hx hx' en
    obtain ⟨m1, m2⟩ := k1 x hx
    obtain ⟨m3, m4⟩ := l1 x' hx'
    have := mem_unique h2.distinct m2 m4 en
    subst this
    exact e (m1.symm.trans m3)

/-- C51: asking again, however many other requests come between, changes nothing and gives the same answer. -/
theorem C51_again (load : Bytes → Option Bytes) (n : Nat) (p : Pkg) (hp : Ok p) (x : Imp) (hx : x ∈ p.imports) (name : Bytes) :
    imp load n p ⟨x.path, name⟩ = some (some x, false, p) := by
  unfold imp
  cases hf : p.imports.find? (fun y => x.path = y.path) with
  | none => exact absurd (List.find?_eq_none.1 hf x hx) (by simp)
  | some y =>
    have h1 := List.mem_of_find?_eq_some hf
    have h2 : x.path = y.path := by have := List.find?_some hf; simpa using this
    rw [mem_unique hp.paths h1 hx h2.symm]

/-- The name is the declared one if that is free. -/
theorem C51_own_name (load : Bytes → Option Bytes) (n : Nat) (p : Pkg) (hp : Ok p) (r : Imp) (real : Bytes) (hl : load r.path = some real)
    (hr : real ≠ []) (ho : r.path ≠ p.pkgPath) (hnew : r.path ∉ p.imports.map (·.path)) (hfree : real ∉ p.imports.map (·.name)) :
    ∃ p', imp load (n + 1) p r = some (some ⟨r.path, real⟩, true, p') := by
  unfold imp
  have hf : p.imports.find? (fun x => r.path = x.path) = none := by
    rw [List.find?_eq_none]
    intro x hx
    simp only [decide_eq_true_eq]
    exact fun e => hnew (e ▸ List.mem_map_of_mem hx)
  rw [hf]
  simp only [hl]
  rw [if_neg ho]
  have hn : (if real ≠ [] ∧ real ≠ r.name then real else r.name) = real := by
    split
    · rfl
    · rename_i h
      simp only [not_and, ne_eq, Decidable.not_not] at h
      exact (h hr).symm
  rw [hn]
  have : real ∉ p.cache := by rw [hp.names, List.mem_reverse]; exact hfree
  simp only [fresh, if_neg this, Option.map_some]
  exact ⟨_, rfl⟩

/-- C51 is false of the code for packages that cannot be loaded: every request is answered with the name asked for, even if another package has
it, and nothing is imported. -/
theorem C51_load_failure (load : Bytes → Option Bytes) (n : Nat) (p : Pkg) (r : Imp) (hl : load r.path = none) (x : Imp) (_ : x ∈ p.imports)
    (hn : x.name = r.name) (hnew : r.path ∉ p.imports.map (·.path)) :
    imp load n p r = some (some ⟨r.path, x.name⟩, false, p) := by
  unfold imp
  have hf : p.imports.find? (fun y => r.path = y.path) = none := by
    rw [List.find?_eq_none]
    intro y hy
    simp only [decide_eq_true_eq]
    exact fun e => hnew (e ▸ List.mem_map_of_mem hy)
  rw [hf]
  simp only [hl]
  rw [hn]

/-- The import block gives a package the name the rest of the file uses for it, exactly unless that name is the last part
of its path and not its declared name. -/
theorem C51_line_iff (load : Bytes → Option Bytes) (x : Imp) :
    declares load x = some x.name ↔ (base x.path = x.name → load x.path = some x.name) := by
  unfold declares lineName
  by_cases h : base x.path = x.name
  · rw [if_pos h]; simp [h]
  · rw [if_neg h]; simp [h]

theorem natDec_one : natDec 1 = [49] := by decide

/-- C51 is false of the code in the import block: whenever a package whose declared name is taken is called by the first free
variant of that name in its path (`v/foo1` with package name `foo`), it is imported without a name; the file then has two packages
of one name. -/
theorem C51_bare_line_wrong (load : Bytes → Option Bytes) (own n p q m : Bytes) (hn : n ≠ []) (hp : load p = some n) (hq : load q = some n)
    (hpq : q ≠ p) (hpo : p ≠ own) (hqo : q ≠ own) (hbq : base q = n ++ [49]) :
    ∃ s, imps load 2 ⟨own, [], []⟩ [⟨p, m⟩, ⟨q, m⟩] = some ([some ⟨p, n⟩, some ⟨q, n ++ [49]⟩], s) ∧
      declares load ⟨p, n⟩ = some n ∧ declares load ⟨q, n ++ [49]⟩ = some n := by
  have hnm : ∀ m : Bytes, (if n ≠ [] ∧ n ≠ m then n else m) = n := by
    intro m
    split
    · rfl
    · rename_i h
      simp only [not_and, ne_eq, Decidable.not_not] at h
      exact (h hn).symm
  refine ⟨⟨own, [n ++ [49], n], [⟨p, n⟩, ⟨q, n ++ [49]⟩]⟩, ?_, ?_, ?_⟩
  · simp [imps, imp, hp, hq, hpo, hqo, hpq, hnm, fresh, natDec_one, List.find?]
  · unfold declares lineName
    by_cases hb : base p = n
    · rw [if_pos hb]; exact hp
    · rw [if_neg hb]
  · unfold declares lineName
    rw [if_pos hbq]; exact hq

/-! ## Examples -/

def exLoad (p : Bytes) : Option Bytes := if p = [97, 47, 98] ∨ p = [99, 47, 98] then some [98] else if p = [120] then none else some []

example : imps exLoad 3 ⟨[109], [], []⟩ [⟨[97, 47, 98], []⟩, ⟨[99, 47, 98], []⟩, ⟨[97, 47, 98], []⟩] =
    some ([some ⟨[97, 47, 98], [98]⟩, some ⟨[99, 47, 98], [98, 49]⟩, some ⟨[97, 47, 98], [98]⟩],
      ⟨[109], [[98, 49], [98]], [⟨[97, 47, 98], [98]⟩, ⟨[99, 47, 98], [98, 49]⟩]⟩) := by decide +kernel
example : Ok ⟨[109], [[98, 49], [98]], [⟨[97, 47, 98], [98]⟩, ⟨[99, 47, 98], [98, 49]⟩]⟩ := ⟨by decide, by decide, by decide, by decide⟩
example : base [97, 47, 98, 49] = [98] ++ [49] := by decide

end Verif.Props

import Verif.Model.Naming
import Verif.Spec.Naming
import Mathlib.Data.List.TakeWhile
import Mathlib.Data.List.Induction

/-! # Lemmas about names -/

namespace Verif.Naming

open Verif.Spec.Naming

/-! ## Trimming -/

theorem strip_some {qs : List Bytes} {s r : Bytes} (h : strip qs s = some r) : ∃ q ∈ qs, s = q ++ r := by
  induction qs with
  | nil => cases h
  | cons q qs ih =>
    simp only [strip] at h
    split at h
    · rename_i hq
      obtain ⟨r', rfl⟩ := hq
      simp only [List.drop_left, Option.some.injEq] at h
      exact ⟨q, List.mem_cons_self, by rw [h]⟩
    · obtain ⟨q', h1, h2⟩ := ih h
      exact ⟨q', List.mem_cons_of_mem _ h1, h2⟩

theorem strip_none {qs : List Bytes} {s : Bytes} : strip qs s = none ↔ ∀ q ∈ qs, ¬ q <+: s := by
  induction qs with
  | nil => simp [strip]
  | cons q qs ih =>
    simp only [strip]
    by_cases h : q <+: s
    · simp [h]
    · simp [h, ih]

theorem stripAll_spec (qs : List Bytes) (n : Nat) (s : Bytes) :
    ∃ a, s = a ++ stripAll qs n s ∧ ∀ b ∈ a, b ∈ qs.flatten := by
  induction n generalizing s with
  | zero => exact ⟨[], rfl, by simp⟩
  | succ n ih =>
    simp only [stripAll]
    cases h : strip qs s with
    | none => exact ⟨[], rfl, by simp⟩
    | some r =>
      obtain ⟨q, hq, rfl⟩ := strip_some h
      obtain ⟨a, ha, hb⟩ := ih r
      refine ⟨q ++ a, by rw [List.append_assoc, ← ha], ?_⟩
      intro b hb'
      rcases List.mem_append.1 hb' with h1 | h1
      · exact List.mem_flatten.2 ⟨q, hq, h1⟩
      · exact hb b h1

theorem stripAll_id (qs : List Bytes) (n : Nat) (s : Bytes) (h : ∀ q ∈ qs, ¬ q <+: s) : stripAll qs n s = s := by
  cases n with
  | zero => rfl
  | succ n => simp only [stripAll, strip_none.2 h]

theorem stripAll_none (qs : List Bytes) (hne : ∀ q ∈ qs, q ≠ []) (n : Nat) (s : Bytes) (hn : s.length ≤ n) :
    ∀ q ∈ qs, ¬ q <+: stripAll qs n s := by
  induction n generalizing s with
  | zero =>
    have : s = [] := List.length_eq_zero_iff.1 (by omega)
    subst this
    intro q hq h
    exact hne q hq (List.prefix_nil.1 h)
  | succ n ih =>
    simp only [stripAll]
    cases h : strip qs s with
    | none => exact strip_none.1 h
    | some r =>
      obtain ⟨q, hq, rfl⟩ := strip_some h
      have : 0 < q.length := List.length_pos_iff.2 (hne q hq)
      exact ih r (by simp at hn; omega)

/-- No white space at either end. -/
def Trimmed (s : Bytes) : Prop := (∀ q ∈ spaceSeqs, ¬ q <+: s) ∧ ∀ q ∈ spaceSeqs, ¬ q <:+ s

theorem trimSpace_of_trimmed {s : Bytes} (h : Trimmed s) : trimSpace s = s := by
  unfold trimSpace
  simp only
  rw [stripAll_id _ _ _ h.1, stripAll_id, List.reverse_reverse]
  intro q hq
  obtain ⟨q', hq', rfl⟩ := List.mem_map.1 hq
  rw [List.reverse_prefix]
  exact h.2 q' hq'

theorem trimSpace_trimmed (s : Bytes) : Trimmed (trimSpace s) := by
  have hne : ∀ q ∈ spaceSeqs, q ≠ [] := by decide
  have hne' : ∀ q ∈ spaceSeqs.map List.reverse, q ≠ [] := by decide
  unfold trimSpace
  simp only
  generalize ht : stripAll spaceSeqs s.length s = t
  have h1 : ∀ q ∈ spaceSeqs, ¬ q <+: t := ht ▸ stripAll_none spaceSeqs hne _ s (le_refl _)
  have h2 := stripAll_none (spaceSeqs.map List.reverse) hne' t.length t.reverse (by simp)
  obtain ⟨a, ha, _⟩ := stripAll_spec (spaceSeqs.map List.reverse) t.length t.reverse
  generalize stripAll (spaceSeqs.map List.reverse) t.length t.reverse = u at *
  constructor
  · intro q hq h
    apply h1 q hq
    have : t = u.reverse ++ a.reverse := by
      rw [← List.reverse_append, ← ha, List.reverse_reverse]
    rw [this]
    exact h.trans (List.prefix_append _ _)
  · intro q hq h
    exact h2 q.reverse (List.mem_map.2 ⟨q, hq, rfl⟩) (by simpa using List.reverse_prefix.2 h)

theorem trimSpace_infix (s : Bytes) :
    ∃ a b, s = a ++ trimSpace s ++ b ∧ (∀ x ∈ a, x ∈ spaceSeqs.flatten) ∧ ∀ x ∈ b, x ∈ spaceSeqs.flatten := by
  unfold trimSpace
  simp only
  obtain ⟨a, ha, hax⟩ := stripAll_spec spaceSeqs s.length s
  generalize stripAll spaceSeqs s.length s = t at *
  obtain ⟨b, hb, hbx⟩ := stripAll_spec (spaceSeqs.map List.reverse) t.length t.reverse
  generalize stripAll (spaceSeqs.map List.reverse) t.length t.reverse = u at *
  refine ⟨a, b.reverse, ?_, hax, ?_⟩
  · rw [ha, List.append_assoc, ← List.reverse_append, ← hb, List.reverse_reverse]
  · intro x hx
    have := hbx x (List.mem_reverse.1 hx)
    revert this
    have : ∀ y ∈ (spaceSeqs.map List.reverse).flatten, y ∈ spaceSeqs.flatten := by decide
    exact this x

theorem alnums_append (a b : List Nat) : alnums (a ++ b) = alnums a ++ alnums b := by simp [alnums]

theorem alnums_spaces (a : List Nat) (h : ∀ x ∈ a, x ∈ spaceSeqs.flatten) : alnums a = [] := by
  have : ∀ y ∈ spaceSeqs.flatten, ¬ (capital y ∨ small y ∨ digit y) := by decide
  unfold alnums
  rw [List.filter_eq_nil_iff]
  intro x hx
  simpa using this x (h x hx)

theorem alnums_trim (s : Bytes) : alnums (trimSpace s) = alnums s := by
  obtain ⟨a, b, h, ha, hb⟩ := trimSpace_infix s
  conv_rhs => rw [h]
  rw [alnums_append, alnums_append, alnums_spaces a ha, alnums_spaces b hb]
  simp

/-- What stands at the beginning and is no white space stays. -/
theorem trimSpace_prefix (a r : Bytes) (ha : a ≠ []) (hl : ∀ x ∈ a.getLast?, x ∉ spaceSeqs.flatten)
    (hh : ∀ x ∈ a.head?, x ∉ spaceSeqs.flatten) : ∃ r', trimSpace (a ++ r) = a ++ r' ∧ r' <+: r := by
  have h1 : ∀ q ∈ spaceSeqs, ¬ q <+: a ++ r := by
    intro q hq ⟨z, hz⟩
    cases q with
    | nil => revert hq; decide
    | cons x q =>
      cases a with
      | nil => exact ha rfl
      | cons y a =>
        simp only [List.cons_append, List.cons.injEq] at hz
        exact hh y rfl (hz.1 ▸ List.mem_flatten.2 ⟨_, hq, List.mem_cons_self⟩)
  unfold trimSpace
  simp only
  rw [stripAll_id _ _ _ h1]
  obtain ⟨b, hb, hbx⟩ := stripAll_spec (spaceSeqs.map List.reverse) (a ++ r).length (a ++ r).reverse
  generalize stripAll (spaceSeqs.map List.reverse) (a ++ r).length (a ++ r).reverse = u at *
  have hbx' : ∀ x ∈ b, x ∈ spaceSeqs.flatten := by
    have : ∀ y ∈ (spaceSeqs.map List.reverse).flatten, y ∈ spaceSeqs.flatten := by decide
    exact fun x hx => this x (hbx x hx)
  have he : a ++ r = u.reverse ++ b.reverse := by
    rw [← List.reverse_append, ← hb, List.reverse_reverse]
  rcases List.append_eq_append_iff.1 he with ⟨w, hw1, hw2⟩ | ⟨w, hw1, hw2⟩
  · exact ⟨w, hw1, ⟨_, hw2.symm⟩⟩
  · -- `a` would end in white space
    cases w using List.reverseRecOn with
    | nil => simp only [List.append_nil] at hw1; exact ⟨[], by rw [hw1]; simp, List.nil_prefix⟩
    | append_singleton w x =>
      exfalso
      refine hl x (by rw [hw1]; simp) (hbx' x ?_)
      have : x ∈ b.reverse := by rw [hw2]; simp
      simpa using this

/-! ## snake_case -/

theorem lower_eq (v : Nat) : lower v = lc v := by
  unfold lower lc isCap capital
  by_cases h : 65 ≤ v ∧ v ≤ 90 <;> simp [h]

theorem plain_cases (v : Nat) : plain v = 95 ∨ (plain v = lower v ∧ lower v ≠ 32 ∧ lower v ≠ 95 ∧ lower v ≠ 45 ∧ lower v ≠ 46) := by
  unfold plain
  simp only
  split
  · exact .inl rfl
  · rename_i h; simp only [not_or] at h; exact .inr ⟨rfl, h.1, h.2.1, h.2.2.1, h.2.2.2⟩

theorem snake_step (p : Bool) (v : Nat) (r : Bytes) : ∃ pre post q, snakeLoop p (v :: r) = pre ++ [q] ++ post ++ snakeLoop (isCap v) r ∧
    (∀ b ∈ pre, b = 95) ∧ (∀ b ∈ post, b = 95) ∧ (q = plain v ∨ q = lower v ∧ (isCap v = true ∨ isLow v = true ∨ isNum v = true)) := by
  cases r with
  | nil => exact ⟨[], [], plain v, by simp [snakeLoop], by simp, by simp, .inl rfl⟩
  | cons n r =>
    simp only [snakeLoop]
    by_cases hb : boundary v n = true
    · rw [if_pos hb]
      refine ⟨_, _, lower v, rfl, ?_, ?_, .inr ⟨rfl, ?_⟩⟩
      · intro b hb; split at hb <;> simp_all
      · intro b hb; split at hb <;> simp_all
      · unfold boundary at hb
        generalize isCap v = x, isLow v = y, isNum v = z at *
        cases x <;> cases y <;> cases z <;> simp_all
    · rw [if_neg hb]
      exact ⟨[], [], plain v, by simp, by simp, by simp, .inl rfl⟩

/-- Bytes that may occur in a snake_case name. -/
def okByte (b : Nat) : Prop := isCap b = false ∧ b ≠ 32 ∧ b ≠ 45 ∧ b ≠ 46

theorem lower_ok (v : Nat) (h : isCap v = true ∨ isLow v = true ∨ isNum v = true) : okByte (lower v) := by
  unfold okByte lower isCap at *
  unfold isLow isNum at h
  simp only [Bool.and_eq_true, decide_eq_true_eq] at *
  by_cases hc : 65 ≤ v ∧ v ≤ 90
  · simp only [hc, and_self, if_true]
    simp only [Bool.and_eq_false_iff, decide_eq_false_iff_not]
    omega
  · rw [if_neg hc]
    simp only [Bool.and_eq_false_iff, decide_eq_false_iff_not]
    omega

theorem lower_not_cap (v : Nat) : isCap (lower v) = false := by
  unfold lower isCap
  simp only [Bool.and_eq_true, decide_eq_true_eq]
  split
  · simp only [Bool.and_eq_false_iff, decide_eq_false_iff_not]; omega
  · rename_i h; simp only [Bool.and_eq_false_iff, decide_eq_false_iff_not]; omega

theorem plain_ok (v : Nat) : okByte (plain v) := by
  rcases plain_cases v with h | ⟨h, h1, _, h3, h4⟩
  · rw [h]; unfold okByte; decide
  · rw [h]; exact ⟨lower_not_cap v, h1, h3, h4⟩

theorem snake_ok (p : Bool) (s : Bytes) : ∀ b ∈ snakeLoop p s, okByte b := by
  induction s generalizing p with
  | nil => simp [snakeLoop]
  | cons v r ih =>
    obtain ⟨pre, post, q, he, h1, h2, h3⟩ := snake_step p v r
    rw [he]
    intro b hb
    have h95 : okByte 95 := by unfold okByte; decide
    simp only [List.mem_append, List.mem_singleton] at hb
    rcases hb with ((hb | rfl) | hb) | hb
    · rw [h1 b hb]; exact h95
    · rcases h3 with h3 | ⟨h3, h4⟩
      · rw [h3]; exact plain_ok v
      · rw [h3]; exact lower_ok v h4
    · rw [h2 b hb]; exact h95
    · exact ih _ b hb

/-- Bytes that are neither letters nor digits nor separators. -/
def sep (b : Nat) : Bool := b == 32 || b == 95 || b == 45 || b == 46

theorem snake_content (p : Bool) (s : Bytes) :
    (snakeLoop p s).filter (· ≠ 95) = (s.map lc).filter (fun b => !sep b) := by
  induction s generalizing p with
  | nil => simp [snakeLoop]
  | cons v r ih =>
    obtain ⟨pre, post, q, he, h1, h2, h3⟩ := snake_step p v r
    have f95 : ∀ l : List Nat, (∀ b ∈ l, b = 95) → l.filter (· ≠ 95) = [] := by
      intro l hl
      rw [List.filter_eq_nil_iff]
      intro b hb
      simp [hl b hb]
    rw [he, List.filter_append, List.filter_append, List.filter_append, f95 pre h1, f95 post h2, ih,
      List.map_cons, ← lower_eq]
    have hq : q ≠ 95 ∧ q = lower v ∧ sep (lower v) = false ∨ q = 95 ∧ sep (lower v) = true := by
      rcases h3 with h3 | ⟨h3, h4⟩
      · unfold plain at h3
        simp only at h3
        split at h3
        · rename_i h; right; refine ⟨h3, ?_⟩; unfold sep; simp; omega
        · rename_i h; left; simp only [not_or] at h; refine ⟨by rw [h3]; exact h.2.1, h3, ?_⟩
          unfold sep; simp; omega
      · left
        have := lower_ok v h4
        have h95 : lower v ≠ 95 := by
          unfold lower isCap isLow isNum at *
          simp only [Bool.and_eq_true, decide_eq_true_eq] at *
          split <;> omega
        refine ⟨by rw [h3]; exact h95, h3, ?_⟩
        unfold sep
        simp only [Bool.or_eq_false_iff, beq_eq_false_iff_ne]
        exact ⟨⟨⟨this.2.1, h95⟩, this.2.2.1⟩, this.2.2.2⟩
    rcases hq with ⟨hq1, hq2, hq3⟩ | ⟨hq1, hq2⟩
    · rw [List.filter_cons_of_pos (by simpa using hq1), List.filter_cons_of_pos (by simp [hq3]), hq2]; simp
    · rw [List.filter_cons_of_neg (by simpa using hq1), List.filter_cons_of_neg (by simp [hq2])]; simp

/-! ### Converting again changes nothing -/

/-- No letter next to a digit. -/
def apart (a b : Nat) : Prop := ¬ (isLow a = true ∧ isNum b = true) ∧ ¬ (isNum a = true ∧ isLow b = true)

theorem snake_fix (p : Bool) (s : Bytes) (hok : ∀ b ∈ s, okByte b) (hc : s.IsChain apart) : snakeLoop p s = s := by
  induction s generalizing p with
  | nil => rfl
  | cons v r ih =>
    have hv := hok v List.mem_cons_self
    have hpl : plain v = v := by
      have : lower v = v := by unfold lower; rw [hv.1]; rfl
      unfold plain
      simp only [this]
      split
      · rename_i h; rcases h with h | h | h | h
        · exact absurd h hv.2.1
        · exact h.symm
        · exact absurd h hv.2.2.1
        · exact absurd h hv.2.2.2
      · rfl
    cases r with
    | nil => simp [snakeLoop, hpl]
    | cons n r =>
      rw [List.isChain_cons_cons] at hc
      have hn := hok n (by simp)
      have hb : boundary v n = false := by
        unfold boundary
        rw [hv.1, hn.1]
        obtain ⟨h1, h2⟩ := hc.1
        clear ih hok hc hv hn
        generalize isLow v = x, isNum n = y, isNum v = z, isLow n = w at *
        cases x <;> cases y <;> cases z <;> cases w <;> simp_all
      simp only [snakeLoop, hb, Bool.false_eq_true, if_false, hpl]
      rw [ih _ (fun b hb => hok b (List.mem_cons_of_mem _ hb)) hc.2]

/-- The first byte of the result. -/
theorem snake_head (p : Bool) (v : Nat) (r : Bytes) :
    (snakeLoop p (v :: r)).head? = some 95 ∨ (snakeLoop p (v :: r)).head? = some (lower v) := by
  obtain ⟨pre, post, q, he, h1, h2, h3⟩ := snake_step p v r
  rw [he]
  cases pre with
  | cons b pre => left; simp [h1 b List.mem_cons_self]
  | nil =>
    rcases h3 with h3 | ⟨h3, _⟩
    · rcases plain_cases v with h | ⟨h, _⟩
      · left; simp [h3, h]
      · right; simp [h3, h]
    · right; simp [h3]

theorem apart_95_left (b : Nat) : apart 95 b := by unfold apart; simp [isLow, isNum]
theorem apart_95_right (a : Nat) : apart a 95 := by unfold apart; simp [isLow, isNum]

theorem chain_95 (x : Nat) (l : List Nat) (h : l.IsChain apart) : (x :: 95 :: l).IsChain apart := by
  rw [List.isChain_cons_cons]
  refine ⟨apart_95_right x, ?_⟩
  cases l with
  | nil => simp
  | cons y l => rw [List.isChain_cons_cons]; exact ⟨apart_95_left y, h⟩

theorem chain_cons_of_head (x : Nat) (l : List Nat) (h : l.IsChain apart) (hx : ∀ y ∈ l.head?, apart x y) :
    (x :: l).IsChain apart := by
  cases l with
  | nil => simp
  | cons y l => rw [List.isChain_cons_cons]; exact ⟨hx y rfl, h⟩

theorem cls_lower (v : Nat) : isLow (lower v) = (isCap v || isLow v) ∧ isNum (lower v) = isNum v := by
  unfold lower isLow isCap isNum
  by_cases h : 65 ≤ v ∧ v ≤ 90
  · have h1 : ¬ (97 ≤ v) := by omega
    have h2 : 97 ≤ v + 32 := by omega
    have h3 : v + 32 ≤ 122 := by omega
    have h4 : ¬ (v + 32 ≤ 57) := by omega
    have h5 : ¬ (v ≤ 57) := by omega
    simp [h, h2, h3, h4, h5]
  · by_cases h1 : 65 ≤ v
    · have h2 : ¬ v ≤ 90 := by omega
      simp [h1, h2]
    · simp [h1]

theorem cls_excl (v : Nat) : (isCap v = true → isLow v = false ∧ isNum v = false) ∧ (isLow v = true → isNum v = false) := by
  unfold isLow isCap isNum
  simp only [Bool.and_eq_true, decide_eq_true_eq, Bool.and_eq_false_iff, decide_eq_false_iff_not]
  omega

theorem snake_apart (p : Bool) (s : Bytes) : (snakeLoop p s).IsChain apart := by
  induction s generalizing p with
  | nil => simp [snakeLoop]
  | cons v r ih =>
    cases r with
    | nil => simp [snakeLoop]
    | cons n r =>
      simp only [snakeLoop]
      have hi := ih (isCap v)
      have hh := snake_head (isCap v) n r
      generalize snakeLoop (isCap v) (n :: r) = out at *
      have hcl := cls_lower v
      have hcn := cls_lower n
      have hev := cls_excl v
      have hen := cls_excl n
      by_cases hb : boundary v n = true
      · rw [if_pos hb]
        have tail : ([lower v] ++ (if isLow v || isNum v || isNum n then [95] else []) ++ out).IsChain apart := by
          split
          · exact chain_95 _ _ hi
          · rename_i hne
            simp only [List.append_nil, List.singleton_append]
            refine chain_cons_of_head _ _ hi ?_
            intro y hy
            rcases hh with hh | hh
            · rw [hh] at hy; cases hy; exact apart_95_right _
            · rw [hh] at hy; cases hy
              unfold apart
              simp only [Bool.or_eq_true, not_or, Bool.not_eq_true] at hne
              rw [hcl.1, hcl.2, hcn.1, hcn.2, hne.1.2, hne.2]
              simp
        split
        · rw [List.append_assoc, List.singleton_append]
          exact chain_cons_of_head _ _ tail fun y _ => apart_95_left y
        · exact tail
      · rw [if_neg hb]
        refine chain_cons_of_head _ _ hi ?_
        intro y hy
        rcases hh with hh | hh
        · rw [hh] at hy; cases hy; exact apart_95_right _
        · rw [hh] at hy; cases hy
          rcases plain_cases v with h | ⟨h, _⟩
          · rw [h]; exact apart_95_left _
          · rw [h]
            unfold apart
            rw [hcl.1, hcl.2, hcn.1, hcn.2]
            simp only [boundary, Bool.or_eq_true, Bool.and_eq_true, not_or, not_and] at hb
            constructor
            · rintro ⟨h1, h2⟩
              rw [Bool.or_eq_true] at h1
              rcases h1 with h1 | h1
              · exact (hb.1.1 h1).2 h2
              · exact (hb.1.2 h1).2 h2
            · rintro ⟨h1, h2⟩
              rw [Bool.or_eq_true] at h2
              rcases h2 with h2 | h2
              · exact (hb.2 h1).1 h2
              · exact (hb.2 h1).2 h2

/-! ### The result has no white space at its ends -/

/-- Neither letter nor digit nor separator. -/
def inert (b : Nat) : Bool := !(isCap b || isLow b || isNum b || sep b)

theorem inert_plain {b : Nat} (h : inert b = true) : plain b = b := by
  unfold inert sep at h
  simp only [Bool.not_eq_true', Bool.or_eq_false_iff, beq_eq_false_iff_ne] at h
  unfold plain lower
  rw [h.1.1.1]
  simp [h.2.1.1.1, h.2.1.1.2, h.2.1.2, h.2.2]

theorem inert_boundary {a b : Nat} (h : inert a = true ∨ inert b = true) : boundary a b = false := by
  unfold inert at h
  unfold boundary
  generalize isCap a = x1, isLow a = x2, isNum a = x3, isCap b = y1, isLow b = y2, isNum b = y3 at *
  cases x1 <;> cases x2 <;> cases x3 <;> cases y1 <;> cases y2 <;> cases y3 <;> simp_all

theorem plain_not_inert {b : Nat} (h : inert b = false) : inert (plain b) = false := by
  rcases plain_cases b with h' | ⟨h', h1⟩
  · rw [h']; rfl
  · rw [h']
    unfold inert at *
    have h2 := cls_lower b
    simp only [Bool.not_eq_false', Bool.or_eq_true] at h ⊢
    rcases h with ((h | h) | h) | h
    · left; left; right; rw [h2.1, h]; rfl
    · left; left; right; rw [h2.1, h]; simp
    · left; right; rw [h2.2, h]
    · exfalso
      unfold sep at h
      simp only [Bool.or_eq_true, beq_iff_eq] at h
      unfold lower isCap at h1
      simp only [Bool.and_eq_true, decide_eq_true_eq] at h1
      split at h1 <;> omega

theorem snake_front (p : Bool) (s : Bytes) : (snakeLoop p s).takeWhile inert = s.takeWhile inert := by
  induction s generalizing p with
  | nil => rfl
  | cons v r ih =>
    cases hv : inert v with
    | true =>
      cases r with
      | nil => simp [snakeLoop, inert_plain hv]
      | cons n r =>
        simp only [snakeLoop, inert_boundary (.inl hv), Bool.false_eq_true, if_false, inert_plain hv]
        rw [List.takeWhile_cons_of_pos hv, List.takeWhile_cons_of_pos hv, ih]
    | false =>
      rw [List.takeWhile_cons_of_neg (by simp [hv])]
      rcases snake_head p v r with h | h
      · cases hs : snakeLoop p (v :: r) with
        | nil => rfl
        | cons a l =>
          rw [hs] at h; cases h
          rw [List.takeWhile_cons_of_neg (by decide)]
      · cases hs : snakeLoop p (v :: r) with
        | nil => rfl
        | cons a l =>
          have ha : a = 95 ∨ a = lower v := .inr (by rw [hs] at h; simpa using h)
          rw [List.takeWhile_cons_of_neg]
          have hl : inert (lower v) = false ∨ a = 95 := by
            rcases plain_cases v with h' | ⟨h', _⟩
            · -- `v` is a separator
              obtain ⟨pre, post, q, he, h1, h2, h3⟩ := snake_step p v r
              right
              rw [he] at hs
              cases pre with
              | cons b pre => simp only [List.cons_append, List.cons.injEq] at hs; rw [← hs.1]; exact h1 b List.mem_cons_self
              | nil =>
                simp only [List.nil_append, List.cons_append, List.cons.injEq] at hs
                rcases h3 with h3 | ⟨h3, h4⟩
                · rw [← hs.1, h3, h']
                · exfalso
                  have := lower_ok v h4
                  unfold plain at h'
                  simp only at h'
                  split at h'
                  · rename_i hh
                    rcases hh with hh | hh | hh | hh
                    · exact this.2.1 hh
                    · unfold lower isCap isLow isNum at *
                      simp only [Bool.and_eq_true, decide_eq_true_eq] at *
                      split at hh <;> omega
                    · exact this.2.2.1 hh
                    · exact this.2.2.2 hh
                  · rename_i hh; exact hh (.inr (.inl h'))
            · left; rw [← h']; exact plain_not_inert hv
          rcases hl with hl | hl
          · rcases ha with ha | ha
            · rw [ha]; decide
            · rw [ha]; simp [hl]
          · rw [hl]; decide

theorem snake_last (p : Bool) (s : Bytes) (b : Nat) :
    ∃ x, snakeLoop p (s ++ [b]) = x ++ [plain b] ∧ (inert b = true → x = snakeLoop p s) := by
  induction s generalizing p with
  | nil => exact ⟨[], by simp [snakeLoop], fun _ => rfl⟩
  | cons v r ih =>
    cases r with
    | nil =>
      simp only [List.cons_append, List.nil_append, snakeLoop]
      by_cases hb : boundary v b = true
      · rw [if_pos hb]
        exact ⟨_, rfl, fun h => by rw [inert_boundary (.inr h)] at hb; cases hb⟩
      · rw [if_neg hb]
        exact ⟨[plain v], rfl, fun _ => rfl⟩
    | cons n r =>
      obtain ⟨x, hx, hi⟩ := ih (isCap v)
      simp only [List.cons_append] at hx
      simp only [List.cons_append, snakeLoop, hx]
      by_cases hb : boundary v n = true
      · rw [if_pos hb]
        refine ⟨_, (List.append_assoc _ _ _).symm, fun h => ?_⟩
        rw [hi h, if_pos hb]
      · rw [if_neg hb]
        refine ⟨plain v :: x, rfl, fun h => ?_⟩
        rw [hi h, if_neg hb]

theorem snake_back (p : Bool) (s : Bytes) : (snakeLoop p s).reverse.takeWhile inert = s.reverse.takeWhile inert := by
  induction s using List.reverseRecOn with
  | nil => rfl
  | append_singleton s b ih =>
    obtain ⟨x, hx, hi⟩ := snake_last p s b
    rw [hx, List.reverse_append, List.reverse_append]
    simp only [List.reverse_cons, List.reverse_nil, List.nil_append, List.singleton_append]
    cases hb : inert b with
    | true =>
      rw [inert_plain hb, List.takeWhile_cons_of_pos hb, List.takeWhile_cons_of_pos hb, hi hb, ih]
    | false =>
      have := plain_not_inert hb
      rw [List.takeWhile_cons_of_neg (by simp [this]), List.takeWhile_cons_of_neg (by simp [hb])]

theorem prefix_takeWhile {f : Nat → Bool} {q l : List Nat} (hq : ∀ b ∈ q, f b = true) (h : q <+: l) : q <+: l.takeWhile f := by
  induction q generalizing l with
  | nil => exact List.nil_prefix
  | cons x q ih =>
    cases l with
    | nil => simp at h
    | cons y l =>
      rw [List.cons_prefix_cons] at h
      obtain ⟨rfl, h⟩ := h
      rw [List.takeWhile_cons_of_pos (hq x List.mem_cons_self), List.cons_prefix_cons]
      exact ⟨rfl, ih (fun b hb => hq b (List.mem_cons_of_mem _ hb)) h⟩

theorem snake_trimmed (p : Bool) (s : Bytes) (h : Trimmed s) : Trimmed (snakeLoop p s) := by
  have hq : ∀ q ∈ spaceSeqs, q = [32] ∨ ∀ b ∈ q, inert b = true := by decide
  have hok := snake_ok p s
  constructor
  · intro q hm hp
    rcases hq q hm with rfl | hi
    · exact (hok 32 (hp.subset (by simp))).2.1 rfl
    · have := prefix_takeWhile hi hp
      rw [snake_front] at this
      exact h.1 q hm (this.trans (List.takeWhile_prefix _))
  · intro q hm hp
    rcases hq q hm with rfl | hi
    · exact (hok 32 (hp.subset (by simp))).2.1 rfl
    · have hp' := List.reverse_prefix.2 hp
      have := prefix_takeWhile (f := inert) (by simpa using hi) hp'
      rw [snake_back] at this
      exact h.2 q hm (List.reverse_prefix.1 (this.trans (List.takeWhile_prefix _)))

/-! ## camelCase -/

theorem camelByte_cases (cn fi pc ac : Bool) (v : Nat) : camelByte cn fi pc ac v = v ∨
    (isLow v = true ∧ camelByte cn fi pc ac v = v - 32) ∨ (isCap v = true ∧ camelByte cn fi pc ac v = v + 32) := by
  unfold camelByte
  have := cls_excl v
  generalize isLow v = x, isCap v = y at *
  cases cn <;> cases fi <;> cases pc <;> cases ac <;> cases x <;> cases y <;> simp

theorem camelByte_lc (cn fi pc ac : Bool) (v : Nat) : lc (camelByte cn fi pc ac v) = lc v ∧
    (isCap v = false → isLow v = false → camelByte cn fi pc ac v = v) := by
  rcases camelByte_cases cn fi pc ac v with h | ⟨h1, h⟩ | ⟨h1, h⟩
  · exact ⟨by rw [h], fun _ _ => h⟩
  · rw [h]
    refine ⟨?_, fun _ h2 => by rw [h1] at h2; cases h2⟩
    unfold isLow at h1
    simp only [Bool.and_eq_true, decide_eq_true_eq] at h1
    unfold lc
    rw [if_pos (by unfold capital; omega), if_neg (by unfold capital; omega)]
    omega
  · rw [h]
    refine ⟨?_, fun h2 => by rw [h1] at h2; cases h2⟩
    unfold isCap at h1
    simp only [Bool.and_eq_true, decide_eq_true_eq] at h1
    unfold lc
    rw [if_neg (by unfold capital; omega), if_pos (by unfold capital; omega)]

theorem alnum_lc (v : Nat) : (capital (lc v) ∨ small (lc v) ∨ digit (lc v)) ↔ (capital v ∨ small v ∨ digit v) := by
  unfold lc
  by_cases h : capital v
  · rw [if_pos h]; unfold capital small digit at *; omega
  · rw [if_neg h]

theorem cls_spec (v : Nat) : (isCap v = true ↔ capital v) ∧ (isLow v = true ↔ small v) ∧ (isNum v = true ↔ digit v) := by
  simp [isCap, isLow, isNum, capital, small, digit]

theorem camel_content (ac cn fi pc : Bool) (s : Bytes) :
    (camelLoop ac cn fi pc s).map lc = (alnums s).map lc ∧
    ∀ b ∈ camelLoop ac cn fi pc s, capital b ∨ small b ∨ digit b := by
  induction s generalizing cn fi pc with
  | nil => simp [camelLoop, alnums]
  | cons v r ih =>
    obtain ⟨hc, hl, hn⟩ := cls_spec v
    obtain ⟨hb1, hb2⟩ := camelByte_lc cn fi pc ac v
    simp only [camelLoop]
    have hal : ∀ w, lc w = lc v → (capital v ∨ small v ∨ digit v) → (capital w ∨ small w ∨ digit w) := by
      intro w hw h
      rw [← alnum_lc, hw, alnum_lc]; exact h
    by_cases h1 : (isCap v || isLow v) = true
    · rw [if_pos h1]
      obtain ⟨i1, i2⟩ := ih false false (isCap v)
      have ha : capital v ∨ small v ∨ digit v := by
        rw [Bool.or_eq_true, hc, hl] at h1
        exact h1.imp id .inl
      have : alnums (v :: r) = v :: alnums r := by unfold alnums; rw [List.filter_cons_of_pos (by simpa using ha)]
      rw [this]
      refine ⟨by rw [List.map_cons, List.map_cons, hb1, i1], ?_⟩
      intro b hb
      rcases List.mem_cons.1 hb with rfl | hb
      · exact hal _ hb1 ha
      · exact i2 b hb
    · rw [if_neg h1]
      simp only [Bool.or_eq_true, not_or, Bool.not_eq_true] at h1
      have hw := hb2 h1.1 h1.2
      rw [hw]
      have hnc : ¬ capital v := by rw [← hc, h1.1]; simp
      have hns : ¬ small v := by rw [← hl, h1.2]; simp
      by_cases h2 : isNum v = true
      · rw [if_pos h2]
        obtain ⟨i1, i2⟩ := ih true false (isCap v)
        have ha : capital v ∨ small v ∨ digit v := .inr (.inr (hn.1 h2))
        have : alnums (v :: r) = v :: alnums r := by unfold alnums; rw [List.filter_cons_of_pos (by simpa using ha)]
        rw [this]
        refine ⟨by rw [List.map_cons, List.map_cons, i1], ?_⟩
        intro b hb
        rcases List.mem_cons.1 hb with rfl | hb
        · exact ha
        · exact i2 b hb
      · rw [if_neg h2]
        obtain ⟨i1, i2⟩ := ih (v == 95 || v == 32 || v == 45 || v == 46) false (isCap v)
        have : alnums (v :: r) = alnums r := by
          unfold alnums
          rw [List.filter_cons_of_neg]
          simp only [decide_eq_true_eq]
          rw [← hn]
          simp [hnc, hns, h2]
        rw [this]
        exact ⟨i1, i2⟩

/-! ## Words -/

theorem letter_not_space {b : Nat} (h : capital b ∨ small b) : b ∉ spaceSeqs.flatten := by
  have : ∀ y ∈ spaceSeqs.flatten, ¬ (capital y ∨ small y) := by decide
  exact fun hm => this b hm h

/-- A text is not trimmed if its first and last bytes are letters. -/
theorem trim_letters (s : Bytes) (h1 : ∀ b ∈ s.head?, capital b ∨ small b) (h2 : ∀ b ∈ s.getLast?, capital b ∨ small b) :
    trimSpace s = s := by
  cases s with
  | nil => decide
  | cons c r =>
    obtain ⟨r', h, hp⟩ := trimSpace_prefix (c :: r) [] (by simp) (fun x hx => letter_not_space (h2 x hx))
      (fun x hx => letter_not_space (h1 x hx))
    have : r' = [] := List.prefix_nil.1 hp
    subst this
    simpa using h

theorem join_cons (w : Bytes) (ws : List Bytes) :
    join (w :: ws) = if ws = [] then w else w ++ 95 :: join ws := by
  cases ws <;> simp [join]

theorem join_head (ws : List Bytes) (h : ∀ w ∈ ws, Word w) : ∀ b ∈ (join ws).head?, small b := by
  cases ws with
  | nil => simp [join]
  | cons w ws =>
    obtain ⟨hne, hs⟩ := h w List.mem_cons_self
    cases w with
    | nil => exact absurd rfl hne
    | cons c r =>
      rw [join_cons]
      split <;> simpa using hs c List.mem_cons_self

theorem join_ne_nil (ws : List Bytes) (h : ∀ w ∈ ws, Word w) (hn : ws ≠ []) : join ws ≠ [] := by
  cases ws with
  | nil => exact absurd rfl hn
  | cons w ws =>
    rw [join_cons]
    split
    · exact (h w List.mem_cons_self).1
    · simp

theorem join_last (ws : List Bytes) (h : ∀ w ∈ ws, Word w) : ∀ b ∈ (join ws).getLast?, small b := by
  induction ws with
  | nil => simp [join]
  | cons w ws ih =>
    rw [join_cons]
    split
    · intro b hb
      exact (h w List.mem_cons_self).2 b (List.mem_of_getLast? (by simpa using hb))
    · rename_i hne
      have hj := join_ne_nil ws (fun v hv => h v (List.mem_cons_of_mem _ hv)) hne
      intro b hb
      apply ih (fun v hv => h v (List.mem_cons_of_mem _ hv))
      rw [List.getLast?_append, List.getLast?_cons] at hb
      cases hg : (join ws).getLast? with
      | none => exact absurd (List.getLast?_eq_none_iff.1 hg) hj
      | some x => rw [hg] at hb; simpa using hb

theorem trim_join (ws : List Bytes) (h : ∀ w ∈ ws, Word w) : trimSpace (join ws) = join ws :=
  trim_letters _ (fun b hb => .inr (join_head ws h b hb)) fun b hb => .inr (join_last ws h b hb)

theorem join_ne_id (ws : List Bytes) (h : ∀ w ∈ ws, Word w) : join ws ≠ [73, 68] := by
  intro he
  have := join_head ws h 73 (by rw [he]; rfl)
  revert this; decide

theorem small_cls {b : Nat} (h : small b) : isLow b = true ∧ isCap b = false ∧ isNum b = false := by
  obtain ⟨_, h2, _⟩ := cls_spec b
  have hl := h2.2 h
  have := cls_excl b
  refine ⟨hl, ?_, this.2 hl⟩
  cases hc : isCap b with
  | false => rfl
  | true => rw [(this.1 hc).1] at hl; cases hl

theorem camel_small (ac p f : Bool) (w r : Bytes) (hw : ∀ b ∈ w, small b) (hn : w ≠ []) :
    camelLoop ac false f p (w ++ r) = w ++ camelLoop ac false false false r := by
  induction w generalizing p f with
  | nil => exact absurd rfl hn
  | cons c w ih =>
    obtain ⟨h1, h2, h3⟩ := small_cls (hw c List.mem_cons_self)
    simp only [List.cons_append, camelLoop, h1, h2, Bool.or_true, if_true]
    have hc : camelByte false f p ac c = c := by simp [camelByte, h2]
    rw [hc]
    by_cases hw' : w = []
    · subst hw'; simp
    · rw [ih _ _ (fun b hb => hw b (List.mem_cons_of_mem _ hb)) hw']

theorem camel_capital (ac p f : Bool) (w r : Bytes) (hw : Word w) :
    camelLoop ac true f p (w ++ r) = capitalise w ++ camelLoop ac false false false r := by
  obtain ⟨hn, hs⟩ := hw
  cases w with
  | nil => exact absurd rfl hn
  | cons c w =>
    obtain ⟨h1, h2, h3⟩ := small_cls (hs c List.mem_cons_self)
    simp only [List.cons_append, camelLoop, h1, h2, Bool.or_true, if_true, capitalise]
    have hc : camelByte true f p ac c = c - 32 := by simp [camelByte, h1]
    rw [hc]
    by_cases hw' : w = []
    · subst hw'; simp
    · rw [camel_small _ _ _ _ _ (fun b hb => hs b (List.mem_cons_of_mem _ hb)) hw']

theorem camel_sep (ac cn f p : Bool) (r : Bytes) : camelLoop ac cn f p (95 :: r) = camelLoop ac true false false r := by
  have : camelByte cn f p ac 95 = 95 := (camelByte_lc cn f p ac 95).2 (by decide) (by decide)
  simp [camelLoop, this, isCap, isLow, isNum]

theorem camel_join_true (ac f p : Bool) (ws : List Bytes) (h : ∀ w ∈ ws, Word w) :
    camelLoop ac true f p (join ws) = (ws.map capitalise).flatten := by
  induction ws generalizing f p with
  | nil => simp [join, camelLoop]
  | cons w ws ih =>
    rw [join_cons, List.map_cons, List.flatten_cons]
    split
    · rename_i he
      subst he
      have := camel_capital ac p f w [] (h w List.mem_cons_self)
      simpa [camelLoop] using this
    · rw [camel_capital _ _ _ _ _ (h w List.mem_cons_self), camel_sep, ih _ _ fun v hv => h v (List.mem_cons_of_mem _ hv)]

theorem camel_join_false (w : Bytes) (ws : List Bytes) (h : ∀ v ∈ w :: ws, Word v) :
    camelLoop false false true false (join (w :: ws)) = w ++ (ws.map capitalise).flatten := by
  obtain ⟨hn, hs⟩ := h w List.mem_cons_self
  rw [join_cons]
  split
  · rename_i he
    subst he
    have := camel_small false false true w [] hs hn
    simpa [camelLoop] using this
  · rw [camel_small _ _ _ _ _ hs hn, camel_sep, camel_join_true _ _ _ _ fun v hv => h v (List.mem_cons_of_mem _ hv)]

theorem capital_of_small {c : Nat} (h : small c) : capital (c - 32) := by
  unfold small at h; unfold capital; omega

theorem capitalise_letters (w : Bytes) (h : Word w) : capitalise w ≠ [] ∧ ∀ b ∈ capitalise w, capital b ∨ small b := by
  obtain ⟨hn, hs⟩ := h
  cases w with
  | nil => exact absurd rfl hn
  | cons c w =>
    refine ⟨by simp [capitalise], ?_⟩
    intro b hb
    rcases List.mem_cons.1 hb with rfl | hb
    · exact .inl (capital_of_small (hs c List.mem_cons_self))
    · exact .inr (hs b (List.mem_cons_of_mem _ hb))

theorem trim_pascal (ws : List Bytes) (h : ∀ w ∈ ws, Word w) :
    trimSpace (ws.map capitalise).flatten = (ws.map capitalise).flatten := by
  have hall : ∀ b ∈ (ws.map capitalise).flatten, capital b ∨ small b := by
    intro b hb
    obtain ⟨l, hl, hb⟩ := List.mem_flatten.1 hb
    obtain ⟨w, hw, rfl⟩ := List.mem_map.1 hl
    exact (capitalise_letters w (h w hw)).2 b hb
  exact trim_letters _ (fun b hb => hall b (List.mem_of_head? (by simpa using hb)))
    fun b hb => hall b (List.mem_of_getLast? (by simpa using hb))

theorem plain_small {b : Nat} (h : small b) : plain b = b := by
  have hl : lower b = b := by unfold lower; rw [(small_cls h).2.1]; rfl
  unfold plain
  simp only [hl]
  unfold small at h
  rw [if_neg (by omega)]

/-- The rest of a word, before the next one. -/
theorem snake_tail (p : Bool) (w r : Bytes) (hw : ∀ b ∈ w, small b) (hn : w ≠ []) (hr : ∀ b ∈ r.head?, capital b) :
    snakeLoop p (w ++ r) = w ++ (if r = [] then [] else 95 :: snakeLoop false r) := by
  induction w generalizing p with
  | nil => exact absurd rfl hn
  | cons c w ih =>
    have hc := hw c List.mem_cons_self
    obtain ⟨h1, h2, h3⟩ := small_cls hc
    have hl : lower c = c := by unfold lower; rw [h2]; rfl
    cases w with
    | cons d w =>
      obtain ⟨k1, k2, k3⟩ := small_cls (hw d (by simp))
      have hb : boundary c d = false := by simp [boundary, h1, h2, h3, k1, k2, k3]
      have := ih false (fun b hb => hw b (List.mem_cons_of_mem _ hb)) (by simp)
      simp only [List.cons_append] at this
      simp only [List.cons_append, snakeLoop, hb, Bool.false_eq_true, if_false, plain_small hc, h2, this]
    | nil =>
      cases r with
      | nil => simp [snakeLoop, plain_small hc]
      | cons d r =>
        have hd := hr d rfl
        have hdc := (cls_spec d).1.2 hd
        have hb : boundary c d = true := by simp [boundary, h1, hdc]
        simp [snakeLoop, hb, hl, h1, h2]

theorem snake_word (w r : Bytes) (hw : Word w) (h2 : 2 ≤ w.length) (hr : ∀ b ∈ r.head?, capital b) :
    snakeLoop false (capitalise w ++ r) = w ++ (if r = [] then [] else 95 :: snakeLoop false r) := by
  obtain ⟨_, hs⟩ := hw
  match w, h2 with
  | c :: d :: w, _ =>
    have hc := hs c List.mem_cons_self
    have hd := hs d (by simp)
    have hcc := capital_of_small hc
    obtain ⟨k1, k2, k3⟩ := small_cls hd
    have e1 := (cls_spec (c - 32)).1.2 hcc
    have e2 := (cls_excl (c - 32)).1 e1
    have hb : boundary (c - 32) d = true := by simp [boundary, e1, k1]
    have hl : lower (c - 32) = c := by
      unfold lower
      rw [e1]
      simp only [if_true]
      unfold small at hc
      omega
    have := snake_tail true (d :: w) r (fun b hb => hs b (List.mem_cons_of_mem _ hb)) (by simp) hr
    simp only [List.cons_append] at this
    simp only [capitalise, List.cons_append, snakeLoop, hb, if_true, e1, e2, k3, hl, this]
    simp

theorem snake_words (ws : List Bytes) (h : ∀ w ∈ ws, Word w ∧ 2 ≤ w.length) :
    snakeLoop false (ws.map capitalise).flatten = join ws := by
  induction ws with
  | nil => simp [snakeLoop, join]
  | cons w ws ih =>
    have h' : ∀ v ∈ ws, Word v ∧ 2 ≤ v.length := fun v hv => h v (List.mem_cons_of_mem _ hv)
    rw [List.map_cons, List.flatten_cons, snake_word w _ (h w List.mem_cons_self).1 (h w List.mem_cons_self).2, ih h', join_cons]
    · cases ws with
      | nil => simp
      | cons v ws =>
        have := (capitalise_letters v (h' v List.mem_cons_self).1).1
        simp [this]
    · cases ws with
      | nil => simp
      | cons v ws =>
        obtain ⟨hn, hs⟩ := (h' v List.mem_cons_self).1
        cases v with
        | nil => exact absurd rfl hn
        | cons c v => simpa [capitalise] using capital_of_small (hs c List.mem_cons_self)

end Verif.Naming

import Verif.Model.Expr
import Verif.Spec.Expr

/-! # Lemmas on captured package paths and their replacement -/

namespace Verif.Expr

open Verif.Source (isAlphaI isDigit isLower isUpper)

theorem len_pos {α : Type} {l : List α} (h : l ≠ []) : 0 < l.length := by
  cases l with
  | nil => exact absurd rfl h
  | cons a l => simp

theorem Letter.alpha {c : Char} (h : Letter c) : isAlphaI c = true := by
  unfold isAlphaI isLower isUpper
  rcases h with ⟨h1, h2⟩ | ⟨h1, h2⟩ <;> simp [h1, h2]

theorem PathChar.seg {c : Char} (h : PathChar c) : isSeg c = true := by
  unfold isSeg isDigit
  rcases h with h | ⟨h1, h2⟩ | rfl | rfl | rfl
  · simp [h.alpha]
  · simp [h1, h2]
  · decide
  · decide
  · decide

theorem alpha_seg {c : Char} (h : isAlphaI c = true) : isSeg c = true := by simp [isSeg, h]

theorem Elem.seg {p : List Char} (h : Elem p) : ∀ c ∈ p, isSeg c = true := by
  obtain ⟨c, cs, rfl, hc, hs⟩ := h
  intro d hd
  rcases List.mem_cons.1 hd with rfl | hd
  · exact alpha_seg hc.alpha
  · exact (hs d hd).seg

theorem Name.ne_dot {n : List Char} (h : Name n) : ∀ c ∈ n, c ≠ '.' := by
  obtain ⟨c, cs, rfl, hc, hs⟩ := h
  have hl : ∀ d, Letter d → d ≠ '.' := by rintro d h rfl; revert h; unfold Letter; decide
  intro d hd
  rcases List.mem_cons.1 hd with rfl | hd
  · exact hl _ hc
  · rcases hs d hd with h | h | rfl
    · exact hl _ h
    · rintro rfl; revert h; decide
    · decide

theorem Name.seg {n : List Char} (h : Name n) : ∀ c ∈ n, isSeg c = true := by
  obtain ⟨c, cs, rfl, hc, hs⟩ := h
  intro d hd
  rcases List.mem_cons.1 hd with rfl | hd
  · exact alpha_seg hc.alpha
  · rcases hs d hd with h | h | rfl
    · exact alpha_seg h.alpha
    · exact PathChar.seg (.inr (.inl h))
    · decide

theorem lastDot_none {n : List Char} (h : ∀ c ∈ n.tail, c ≠ '.') : lastDot n = none := by
  induction n with
  | nil => rfl
  | cons c s ih =>
    have hs : lastDot s = none := ih fun d hd => h d (List.mem_of_mem_tail hd)
    rw [lastDot, hs]
    simp only
    rw [if_neg]
    intro hd
    cases s with
    | nil => cases hd
    | cons x s =>
      have hx := h x (by simp)
      cases s with
      | nil => cases hd
      | cons y s => simp [dotNext, hx] at hd

theorem lastDot_name {p n : List Char} (hp : p ≠ []) (hn : Name n) : lastDot (p ++ '.' :: n) = some p := by
  induction p with
  | nil => exact absurd rfl hp
  | cons c p ih =>
    rw [List.cons_append, lastDot]
    cases p with
    | nil =>
      rw [List.nil_append, lastDot_none (n := '.' :: n) hn.ne_dot]
      obtain ⟨d, ds, rfl, hd, -⟩ := hn
      simp [dotNext, hd.alpha]
    | cons d p => rw [ih (by simp)]

theorem takeWhile_stop {α : Type} {q : α → Bool} {a b : List α} (ha : ∀ x ∈ a, q x = true) (hb : ∀ x, b.head? = some x → q x = false) :
    (a ++ b).takeWhile q = a ∧ (a ++ b).dropWhile q = b := by
  induction a with
  | nil =>
    cases b with
    | nil => exact ⟨rfl, rfl⟩
    | cons x b =>
      have := hb x rfl
      simp [this]
  | cons x a ih =>
    have h := ih fun y hy => ha y (List.mem_cons_of_mem _ hy)
    have hx := ha x (List.mem_cons_self ..)
    rw [List.cons_append, List.takeWhile_cons, List.dropWhile_cons]
    simp [hx, h.1, h.2]

/-- What comes after a qualified name. -/
def Ends (post : List Char) : Prop := ∀ c, post.head? = some c → isSeg c = false ∧ c ≠ '/'

theorem Elem.ne_nil {p : List Char} (h : Elem p) : p ≠ [] := by obtain ⟨c, cs, rfl, -⟩ := h; simp

theorem pathOf_alpha {ps : List (List Char)} (h : ∀ p ∈ ps, Elem p) (hne : ps ≠ []) : ∃ c cs, pathOf ps = c :: cs ∧ isAlphaI c = true := by
  cases ps with
  | nil => exact absurd rfl hne
  | cons p ps =>
    obtain ⟨c, cs, rfl, hc, -⟩ := h p (List.mem_cons_self ..)
    cases ps with
    | nil => exact ⟨c, cs, rfl, hc.alpha⟩
    | cons q qs => exact ⟨c, _, rfl, hc.alpha⟩

theorem matchAt_path {ps : List (List Char)} {n post : List Char} (hps : ∀ p ∈ ps, Elem p) (hne : ps ≠ []) (hn : Name n) (hpost : Ends post)
    {k : Nat} (hk : ps.length ≤ k) : matchAt k (pathOf ps ++ '.' :: n ++ post) = some (pathOf ps) := by
  induction ps generalizing k with
  | nil => exact absurd rfl hne
  | cons p ps ih =>
    have hp := hps p (List.mem_cons_self ..)
    obtain ⟨c, cs, hcs, hc, -⟩ := id hp
    cases k with
    | zero => simp at hk
    | succ k =>
      cases ps with
      | nil =>
        show matchAt (k + 1) (p ++ '.' :: n ++ post) = some p
        have hseg : ∀ x ∈ p ++ '.' :: n, isSeg x = true := by
          intro x hx
          rcases List.mem_append.1 hx with h | h
          · exact hp.seg x h
          · rcases List.mem_cons.1 h with rfl | h
            · decide
            · exact hn.seg x h
        obtain ⟨h1, h2⟩ := takeWhile_stop (b := post) hseg fun x hx => (hpost x hx).1
        rw [matchAt, h1, h2]
        have hl := lastDot_name hp.ne_nil hn
        subst hcs
        simp only [List.cons_append] at hl ⊢
        rw [if_pos hc.alpha]
        cases post with
        | nil => exact hl
        | cons x post =>
          have hx := (hpost x rfl).2
          split
          · next t e => cases e; exact absurd rfl hx
          · exact hl
      | cons q qs =>
        have hr := ih (fun x hx => hps x (List.mem_cons_of_mem _ hx)) (by simp) (k := k) (by simpa using hk)
        show matchAt (k + 1) ((p ++ '/' :: pathOf (q :: qs)) ++ '.' :: n ++ post) = some (p ++ '/' :: pathOf (q :: qs))
        have e : (p ++ '/' :: pathOf (q :: qs)) ++ '.' :: n ++ post = p ++ '/' :: (pathOf (q :: qs) ++ '.' :: n ++ post) := by simp
        rw [e]
        obtain ⟨h1, h2⟩ := takeWhile_stop (b := '/' :: (pathOf (q :: qs) ++ '.' :: n ++ post)) hp.seg (fun x hx => by cases hx; decide)
        rw [matchAt, h1, h2]
        subst hcs
        simp only
        rw [if_pos hc.alpha, hr]

theorem matchAt_nonalpha {k : Nat} {c : Char} {s : List Char} (h : isAlphaI c = false) : matchAt k (c :: s) = none := by
  cases k with
  | zero => rfl
  | succ k =>
    rw [matchAt, List.takeWhile_cons]
    cases hs : isSeg c with
    | false => simp
    | true => simp [h]

theorem capture_skip {pre s : List Char} (h : ∀ c ∈ pre, isAlphaI c = false) : capture (pre ++ s) = capture s := by
  induction pre with
  | nil => rfl
  | cons c pre ih =>
    rw [List.cons_append, capture, matchAt_nonalpha (h c (List.mem_cons_self ..))]
    exact ih fun d hd => h d (List.mem_cons_of_mem _ hd)

theorem pathOf_length {ps : List (List Char)} (h : ∀ p ∈ ps, Elem p) : ps.length ≤ (pathOf ps).length := by
  induction ps with
  | nil => simp
  | cons p ps ih =>
    have hp := len_pos (h p (List.mem_cons_self ..)).ne_nil
    have := ih fun x hx => h x (List.mem_cons_of_mem _ hx)
    cases ps with
    | nil => simp only [pathOf, List.length_cons, List.length_nil]; omega
    | cons q qs => simp only [pathOf, List.length_append, List.length_cons] at *; omega

theorem capture_path {pre n post : List Char} {ps : List (List Char)} (hpre : ∀ c ∈ pre, isAlphaI c = false) (hps : ∀ p ∈ ps, Elem p)
    (hne : ps ≠ []) (hn : Name n) (hpost : Ends post) : capture (pre ++ (pathOf ps ++ '.' :: n ++ post)) = some (pathOf ps) := by
  rw [capture_skip hpre]
  obtain ⟨c, cs, e, -⟩ := pathOf_alpha hps hne
  have hm := matchAt_path hps hne hn hpost (k := (pathOf ps ++ '.' :: n ++ post).length) (by
    have := pathOf_length hps
    simp only [List.length_append]; omega)
  cases h : pathOf ps ++ '.' :: n ++ post with
  | nil => rw [e] at h; cases h
  | cons x xs =>
    rw [h] at hm
    rw [capture]
    have e : (x :: xs).length = xs.length + 1 := rfl
    rw [e] at hm
    rw [hm]

/-! ## Replacement -/

theorem replaceGo_drop (old new : List Char) (a b : List Char) : replaceGo old new a.length (a ++ b) = replaceGo old new 0 b := by
  induction a with
  | nil => rfl
  | cons c a ih => rw [List.cons_append, List.length_cons, replaceGo, ih]

theorem replaceAll_at {old new rest : List Char} (h : old ≠ []) : replaceAll old new (old ++ rest) = new ++ replaceAll old new rest := by
  unfold replaceAll
  cases old with
  | nil => exact absurd rfl h
  | cons c old =>
    rw [List.cons_append, replaceGo, if_pos (by rw [← List.cons_append]; exact List.isPrefixOf_iff_prefix.2 (List.prefix_append ..))]
    have : (c :: old).length - 1 = old.length := rfl
    rw [this, replaceGo_drop]

theorem replaceAll_skip {c : Char} {old new pre s : List Char} (h : ∀ d ∈ pre, d ≠ c) :
    replaceAll (c :: old) new (pre ++ s) = pre ++ replaceAll (c :: old) new s := by
  unfold replaceAll
  induction pre with
  | nil => rfl
  | cons d pre ih =>
    rw [List.cons_append, replaceGo, if_neg, ih fun x hx => h x (List.mem_cons_of_mem _ hx)]
    · rfl
    · intro e
      obtain ⟨t, e⟩ := List.isPrefixOf_iff_prefix.1 e
      rw [List.cons_append, List.cons.injEq] at e
      exact h d (List.mem_cons_self ..) e.1.symm

theorem replaceAll_none {old new s : List Char} (h : ¬Has s old) : replaceAll old new s = s := by
  unfold replaceAll
  induction s with
  | nil => rfl
  | cons c s ih =>
    rw [replaceGo, if_neg, ih]
    · rintro ⟨a, b, rfl⟩
      exact h ⟨c :: a, b, by simp⟩
    · intro e
      obtain ⟨t, e⟩ := List.isPrefixOf_iff_prefix.1 e
      exact h ⟨[], t, by rw [← e]; simp⟩

/-- The number of replacements. -/
def occ (old : List Char) : Nat → List Char → Nat
  | _, [] => 0
  | k + 1, _ :: s => occ old k s
  | 0, c :: s => if old.isPrefixOf (c :: s) then 1 + occ old (old.length - 1) s else occ old 0 s

theorem replaceGo_length {old new : List Char} (ho : old ≠ []) (s : List Char) (k : Nat) (hk : k ≤ s.length) :
    (replaceGo old new k s).length + k + occ old k s * old.length = s.length + occ old k s * new.length := by
  induction s generalizing k with
  | nil => simp at hk; subst hk; simp [replaceGo, occ]
  | cons c s ih =>
    cases k with
    | succ k =>
      have := ih k (by simpa using hk)
      simp only [replaceGo, occ, List.length_cons]
      omega
    | zero =>
      rw [replaceGo, occ]
      by_cases h : old.isPrefixOf (c :: s) = true
      · rw [if_pos h, if_pos h]
        have hp := (List.isPrefixOf_iff_prefix.1 h).length_le
        have hl := len_pos ho
        simp only [List.length_cons] at hp
        have := ih (old.length - 1) (by omega)
        simp only [List.length_append, List.length_cons, Nat.add_mul, Nat.one_mul]
        omega
      · rw [if_neg h, if_neg h]
        have := ih 0 (Nat.zero_le _)
        simp only [List.length_cons]
        omega

theorem occ_pos {old s : List Char} (ho : old ≠ []) (h : Has s old) : 0 < occ old 0 s := by
  induction s with
  | nil =>
    obtain ⟨a, b, e⟩ := h
    simp at e
    exact absurd e.2.1 ho
  | cons c s ih =>
    rw [occ]
    by_cases hp : old.isPrefixOf (c :: s) = true
    · rw [if_pos hp]; omega
    · rw [if_neg hp]
      apply ih
      obtain ⟨a, b, e⟩ := h
      cases a with
      | nil => exact absurd (List.isPrefixOf_iff_prefix.2 ⟨b, by rw [e]; simp⟩) hp
      | cons x a => cases e; exact ⟨a, b, rfl⟩

theorem replaceAll_changes {old new s : List Char} (ho : old ≠ []) (h : Has s old) (hl : new.length ≠ old.length) : replaceAll old new s ≠ s := by
  intro e
  have h1 := replaceGo_length (new := new) ho s 0 (Nat.zero_le _)
  have h2 := occ_pos ho h
  unfold replaceAll at e
  rw [e] at h1
  have : occ old 0 s * old.length = occ old 0 s * new.length := by omega
  exact hl (Nat.eq_of_mul_eq_mul_left h2 this).symm

/-! ## Slashes -/

/-- Every `/` is followed by a letter. -/
def SlashLetter (g : List Char) : Prop := ∀ a b, g = a ++ '/' :: b → ∃ c b', b = c :: b' ∧ isAlphaI c = true

theorem lastDot_prefix {w p : List Char} (h : lastDot w = some p) : ∃ t, w = p ++ t ∧ p ≠ [] := by
  induction w generalizing p with
  | nil => cases h
  | cons c s ih =>
    rw [lastDot] at h
    cases hs : lastDot s with
    | some q =>
      rw [hs] at h
      cases h
      obtain ⟨t, e, -⟩ := ih hs
      exact ⟨t, by rw [e]; rfl, by simp⟩
    | none =>
      rw [hs] at h
      simp only at h
      split at h
      · cases h; exact ⟨s, rfl, by simp⟩
      · cases h

theorem seg_ne_slash {c : Char} (h : isSeg c = true) : c ≠ '/' := by rintro rfl; revert h; decide

theorem mem_takeWhile {α : Type} {q : α → Bool} {l : List α} {x : α} (h : x ∈ l.takeWhile q) : q x = true := by
  induction l with
  | nil => cases h
  | cons a l ih =>
    rw [List.takeWhile_cons] at h
    split at h
    · next ha =>
      rcases List.mem_cons.1 h with rfl | h
      · exact ha
      · exact ih h
    · cases h

theorem matchAt_slash {k : Nat} {s g : List Char} (h : matchAt k s = some g) : SlashLetter g ∧ ∃ c cs, g = c :: cs ∧ isAlphaI c = true := by
  induction k generalizing s g with
  | zero => cases h
  | succ k ih =>
    rw [matchAt] at h
    have hseg : ∀ x ∈ s.takeWhile isSeg, isSeg x = true := fun x hx => mem_takeWhile hx
    generalize s.takeWhile isSeg = w at h hseg
    cases w with
    | nil => cases h
    | cons c w =>
      simp only at h
      by_cases hc : isAlphaI c = true
      · rw [if_pos hc] at h
        have last : ∀ {g}, lastDot (c :: w) = some g → SlashLetter g ∧ ∃ c cs, g = c :: cs ∧ isAlphaI c = true := by
          intro g h
          obtain ⟨t, e, hg⟩ := lastDot_prefix h
          refine ⟨fun a b e' => ?_, ?_⟩
          · exact absurd rfl (seg_ne_slash (hseg '/' (by rw [e, e']; simp)))
          · cases g with
            | nil => exact absurd rfl hg
            | cons x xs => cases e; exact ⟨_, _, rfl, hc⟩
        split at h
        · next t ht =>
          cases hm : matchAt k t with
          | none => rw [hm] at h; exact last h
          | some g' =>
            rw [hm] at h
            cases h
            obtain ⟨hs', x, xs, rfl, hx⟩ := ih hm
            refine ⟨fun a b e => ?_, c, _, rfl, hc⟩
            -- the slash is the one added, or one of the rest
            have key : ∀ (u : List Char), (∀ y ∈ u, isSeg y = true) → ∀ a, u ++ '/' :: x :: xs = a ++ '/' :: b →
                ∃ c b', b = c :: b' ∧ isAlphaI c = true := by
              intro u
              induction u with
              | nil =>
                intro _ a e
                cases a with
                | nil => cases e; exact ⟨x, xs, rfl, hx⟩
                | cons y a => rw [List.nil_append, List.cons_append, List.cons.injEq] at e; exact hs' a b e.2
              | cons y u ihu =>
                intro hu a e
                cases a with
                | nil => cases e; exact absurd rfl (seg_ne_slash (hu '/' (List.mem_cons_self ..)))
                | cons z a => rw [List.cons_append, List.cons_append, List.cons.injEq] at e; exact ihu (fun y hy => hu y (List.mem_cons_of_mem _ hy)) a e.2
            exact key (c :: w) hseg a e
        · exact last h
      · rw [if_neg hc] at h; cases h

theorem capture_slash {s g : List Char} (h : capture s = some g) : SlashLetter g ∧ g ≠ [] := by
  induction s with
  | nil => cases h
  | cons c s ih =>
    rw [capture] at h
    cases hm : matchAt (s.length + 1) (c :: s) with
    | some g' =>
      rw [hm] at h
      cases h
      obtain ⟨h1, c, cs, rfl, -⟩ := matchAt_slash hm
      exact ⟨h1, by simp⟩
    | none => rw [hm] at h; exact ih h

/-- A slash that no letter follows is never replaced. -/
theorem slash_stays {old new : List Char} (hne : old ≠ []) (ho : SlashLetter old) {d : Char} (hd : isAlphaI d = false) (a b : List Char) (k : Nat)
    (u v t : List Char) (hu : old = v ++ u) (hl : u.length = k) (ht : a ++ '/' :: d :: b = u ++ t) :
    '/' ∈ replaceGo old new k (a ++ '/' :: d :: b) := by
  -- an occurrence does not have the slash
  have key : ∀ u v t : List Char, old = v ++ '/' :: u → d :: b = u ++ t → False := by
    intro u v t h e
    obtain ⟨c, u', rfl, hc⟩ := ho v u h
    rw [List.cons_append, List.cons.injEq] at e
    rw [← e.1, hd] at hc
    cases hc
  induction a generalizing k u v t with
  | nil =>
    rw [List.nil_append] at ht ⊢
    cases u with
    | cons x u =>
      rw [List.cons_append, List.cons.injEq] at ht
      exact (key u v t (by rw [hu, ← ht.1]) ht.2).elim
    | nil =>
      subst hl
      rw [List.length_nil, replaceGo]
      split
      · next h =>
        obtain ⟨t, e⟩ := List.isPrefixOf_iff_prefix.1 h
        cases old with
        | nil => exact absurd rfl hne
        | cons x old =>
          rw [List.cons_append, List.cons.injEq] at e
          exact (key old [] t (by rw [e.1]; rfl) e.2.symm).elim
      · exact List.mem_cons_self ..
  | cons y a ih =>
    cases u with
    | cons x u =>
      rw [List.cons_append, List.cons_append, List.cons.injEq] at ht
      subst hl
      rw [List.cons_append, List.length_cons, replaceGo]
      exact ih _ u (v ++ [x]) t (by simp [hu]) rfl ht.2
    | nil =>
      subst hl
      rw [List.cons_append, List.length_nil, replaceGo]
      split
      · next h =>
        obtain ⟨t, e⟩ := List.isPrefixOf_iff_prefix.1 h
        cases old with
        | nil => exact absurd rfl hne
        | cons x old =>
          rw [List.cons_append, List.cons.injEq] at e
          exact List.mem_append_right _ (ih _ old [x] t rfl rfl e.2.symm)
      · exact List.mem_cons_of_mem _ (ih _ [] old _ (by simp) rfl rfl)

end Verif.Expr

import Verif.Spec.Parser
import Mathlib.Data.List.TakeWhile

/-! # Texts of tags and comments -/

namespace Verif.Parser

open Verif Verif.Spec.Parser

/-! ## Trimming -/

theorem rtrim_eq (l : Str) : rtrim l = (l.reverse.dropWhile isSpace).reverse := by
  induction l with
  | nil => rfl
  | cons c cs ih =>
    simp only [rtrim, List.reverse_cons, List.dropWhile_append, ih]
    by_cases h : (cs.reverse.dropWhile isSpace) = []
    · rw [h]
      by_cases hc : isSpace c <;> simp [hc]
    · have hne : (cs.reverse.dropWhile isSpace).isEmpty = false := by
        simpa [List.isEmpty_eq_false_iff] using h
      rw [hne]
      simp [h]

theorem trim_eq (l : Str) : trim l = trimSpace l := by
  unfold trimSpace
  induction l with
  | nil => rfl
  | cons c cs ih =>
    simp only [trim]
    by_cases hc : isSpace c
    · simp [hc, ih]
    · simp only [hc, Bool.false_eq_true, if_false, List.dropWhile_cons, rtrim_eq]

theorem dropWhile_all_append {p : Char → Bool} (a x : Str) (ha : ∀ c ∈ a, p c = true) :
    (a ++ x).dropWhile p = x.dropWhile p := by
  induction a with
  | nil => rfl
  | cons c cs ih =>
    simp only [List.cons_append, List.dropWhile_cons, ha c List.mem_cons_self, if_true]
    exact ih fun d hd => ha d (List.mem_cons_of_mem _ hd)

theorem dropWhile_of_head {p : Char → Bool} (x : Str) (h : ∀ c, x.head? = some c → p c = false) :
    x.dropWhile p = x := by
  cases x with
  | nil => rfl
  | cons c cs => simp [h c rfl]

theorem trimSpace_of_parts (a core b : Str) (ha : ∀ c ∈ a, isSpace c) (hb : ∀ c ∈ b, isSpace c)
    (hne : core ≠ []) (hh : ∀ c, core.head? = some c → ¬isSpace c)
    (hl : ∀ c, core.getLast? = some c → ¬isSpace c) : trimSpace (a ++ core ++ b) = core := by
  unfold trimSpace
  rw [List.append_assoc, dropWhile_all_append a _ ha]
  have h1 : (core ++ b).dropWhile isSpace = core ++ b := by
    apply dropWhile_of_head
    intro c hc
    cases core with
    | nil => exact absurd rfl hne
    | cons d ds =>
      simp only [List.cons_append, List.head?_cons, Option.some.injEq] at hc
      subst hc
      simpa using hh d rfl
  rw [h1, List.reverse_append, dropWhile_all_append b.reverse _ (by simpa using hb),
    dropWhile_of_head, List.reverse_reverse]
  intro c hc
  rw [List.head?_reverse] at hc
  simpa using hl c hc

theorem takeWhile_all {p : Char → Bool} (l : Str) : ∀ c ∈ l.takeWhile p, p c = true := by
  intro c hc
  exact List.mem_takeWhile_imp hc

theorem head_dropWhile {p : Char → Bool} (l : Str) (c : Char) (h : (l.dropWhile p).head? = some c) :
    p c = false := by
  have := List.head?_dropWhile_not p l
  rw [h] at this
  simpa using this

theorem trimSpace_parts (e : Str) : ∃ a b, e = a ++ trimSpace e ++ b ∧ (∀ c ∈ a, isSpace c) ∧
    (∀ c ∈ b, isSpace c) ∧ (∀ c, (trimSpace e).head? = some c → ¬isSpace c) ∧
    (∀ c, (trimSpace e).getLast? = some c → ¬isSpace c) := by
  let y := e.dropWhile isSpace
  let z := y.reverse.dropWhile isSpace
  have hz : trimSpace e = z.reverse := rfl
  have h1 : e = e.takeWhile isSpace ++ y := (List.takeWhile_append_dropWhile).symm
  have h2 : y.reverse = y.reverse.takeWhile isSpace ++ z := (List.takeWhile_append_dropWhile).symm
  have h3 : y = z.reverse ++ (y.reverse.takeWhile isSpace).reverse := by
    have := congrArg List.reverse h2
    simpa using this
  refine ⟨e.takeWhile isSpace, (y.reverse.takeWhile isSpace).reverse, ?_, takeWhile_all e, ?_, ?_, ?_⟩
  · rw [hz, List.append_assoc, ← h3]
    exact h1
  · intro c hc
    exact takeWhile_all _ c (List.mem_reverse.1 hc)
  · intro c hc
    rw [hz] at hc
    have : y.head? = some c := by
      rw [h3]
      cases hzr : z.reverse with
      | nil => rw [hzr] at hc; simp at hc
      | cons d ds => rw [hzr] at hc; simpa using hc
    simp [head_dropWhile e c this]
  · intro c hc
    rw [hz, List.getLast?_reverse] at hc
    simp [head_dropWhile y.reverse c hc]

theorem takeWhile_colon (core o : Str) (ho : ':' ∉ o) (h : core = o ∨ ∃ r, core = o ++ ':' :: r) :
    core.takeWhile (· ≠ ':') = o := by
  have hall : ∀ c ∈ o, (decide (c ≠ ':')) = true := by
    intro c hc
    have : c ≠ ':' := fun h => ho (h ▸ hc)
    simp [this]
  rcases h with rfl | ⟨r, rfl⟩
  · exact List.takeWhile_eq_self_iff.2 hall
  · rw [List.takeWhile_append_of_pos hall]
    simp

theorem optOf_iff (e o : Str) :
    OptOf e o ↔ trimSpace e ≠ [] ∧ (trimSpace e).takeWhile (· ≠ ':') = o := by
  constructor
  · rintro ⟨ho, a, core, b, he, ha, hb, hne, hh, hl, hc⟩
    rw [he, trimSpace_of_parts a core b ha hb hne hh hl]
    exact ⟨hne, takeWhile_colon core o ho hc⟩
  · rintro ⟨hne, ho⟩
    obtain ⟨a, b, he, ha, hb, hh, hl⟩ := trimSpace_parts e
    refine ⟨?_, a, trimSpace e, b, he, ha, hb, hne, hh, hl, ?_⟩
    · intro hm
      rw [← ho] at hm
      simpa using takeWhile_all _ _ hm
    · have h1 := List.takeWhile_append_dropWhile (p := fun c : Char => decide (c ≠ ':')) (l := trimSpace e)
      rw [ho] at h1
      cases hd : (trimSpace e).dropWhile (fun c => decide (c ≠ ':')) with
      | nil => rw [hd] at h1; left; simpa using h1.symm
      | cons d ds =>
        right
        have : d = ':' := by
          have := head_dropWhile (trimSpace e) d (by rw [hd]; rfl)
          simpa using this
        rw [hd, this] at h1
        exact ⟨ds, h1.symm⟩

theorem mem_parseTag (es : List Str) (o : Str) : o ∈ parseTag es ↔ ∃ e ∈ es, OptOf e o := by
  induction es with
  | nil => simp [parseTag]
  | cons v vs ih =>
    simp only [parseTag]
    by_cases h : trimSpace v = []
    · rw [if_pos h, ih]
      simp only [List.mem_cons, exists_eq_or_imp, optOf_iff v, h, ne_eq, not_true_eq_false,
        false_and, false_or]
    · rw [if_neg h, List.mem_cons, ih]
      simp only [List.mem_cons, exists_eq_or_imp, optOf_iff v, ne_eq, h, not_false_eq_true, true_and]
      constructor
      · rintro (h | h)
        · exact .inl h.symm
        · exact .inr h
      · rintro (h | h)
        · exact .inl h.symm
        · exact .inr h

theorem hasOpts_iff (pos ks : List Str) : hasOpts pos ks = true ↔ ∃ k ∈ ks, k ∈ pos := by
  induction ks with
  | nil => simp [hasOpts]
  | cons k ks ih =>
    simp only [hasOpts]
    by_cases h : k ∈ pos
    · simp [h]
    · simp [h, ih]

/-! ## Splitting -/

theorem split_ne_nil (sep : Char) (t : Str) : split sep t ≠ [] := by
  cases t with
  | nil => simp [split]
  | cons c cs =>
    simp only [split]
    split
    · simp
    · split <;> simp

theorem split_head (sep : Char) (t : Str) : (split sep t).head? = some (t.takeWhile (· ≠ sep)) := by
  induction t with
  | nil => rfl
  | cons c cs ih =>
    simp only [split]
    by_cases h : c = sep
    · simp [h]
    · rw [if_neg h]
      cases hs : split sep cs with
      | nil => exact absurd hs (split_ne_nil _ _)
      | cons w ws =>
        rw [hs] at ih
        simp only [List.head?_cons, Option.some.injEq] at ih
        simp [h, ih]

theorem part_cons (c : Char) (cs e : Str) (hc : c ≠ ',') :
    Part (c :: cs) e ↔ Entry cs e ∨ ∃ w, e = c :: w ∧ w = cs.takeWhile (· ≠ ',') := by
  constructor
  · rintro ⟨he, a, b, ht, ha, hb⟩
    rcases ha with rfl | ⟨a', rfl⟩
    · right
      cases e with
      | nil =>
        rcases hb with rfl | ⟨b', rfl⟩
        · simp at ht
        · simp at ht; exact absurd ht.1 hc
      | cons d w =>
        simp only [List.nil_append, List.cons_append, List.cons.injEq] at ht
        obtain ⟨rfl, ht⟩ := ht
        refine ⟨w, rfl, ?_⟩
        have hall : ∀ x ∈ w, (decide (x ≠ ',')) = true := by
          intro x hx
          have : x ≠ ',' := fun h => he (h ▸ List.mem_cons_of_mem _ hx)
          simp [this]
        rw [ht]
        rcases hb with rfl | ⟨b', rfl⟩
        · rw [List.append_nil]; exact (List.takeWhile_eq_self_iff.2 hall).symm
        · rw [List.takeWhile_append_of_pos hall]; simp
    · left
      cases a' with
      | nil => simp at ht; exact absurd ht.1 hc
      | cons d a' =>
        simp only [List.cons_append, List.cons.injEq, List.append_assoc] at ht
        refine ⟨he, a', b, ?_, hb⟩
        rw [ht.2]; simp
  · rintro (⟨he, a, b, ht, hb⟩ | ⟨w, rfl, rfl⟩)
    · exact ⟨he, c :: a ++ [','], b, by rw [ht]; simp, .inr ⟨c :: a, rfl⟩, hb⟩
    · refine ⟨?_, [], cs.dropWhile (· ≠ ','), ?_, .inl rfl, ?_⟩
      · intro h
        rcases List.mem_cons.1 h with h | h
        · exact hc h.symm
        · simpa using takeWhile_all _ _ h
      · simp [List.takeWhile_append_dropWhile]
      · cases hd : cs.dropWhile (fun c => decide (c ≠ ',')) with
        | nil => exact .inl rfl
        | cons d ds =>
          right
          have : d = ',' := by
            have := head_dropWhile cs d (by rw [hd]; rfl)
            simpa using this
          exact ⟨ds, by rw [this]⟩

theorem entry_comma (cs e : Str) : Entry (',' :: cs) e ↔ Part cs e := by
  constructor
  · rintro ⟨he, a, b, ht, hb⟩
    cases a with
    | nil =>
      simp only [List.nil_append, List.cons_append, List.cons.injEq, true_and] at ht
      exact ⟨he, [], b, by simpa using ht, .inl rfl, hb⟩
    | cons d a =>
      simp only [List.cons_append, List.cons.injEq] at ht
      exact ⟨he, a ++ [','], b, by rw [ht.2]; simp, .inr ⟨a, rfl⟩, hb⟩
  · rintro ⟨he, a, b, ht, ha, hb⟩
    rcases ha with rfl | ⟨a', rfl⟩
    · exact ⟨he, [], b, by rw [ht]; simp, hb⟩
    · exact ⟨he, ',' :: a', b, by rw [ht]; simp, hb⟩

theorem part_comma (cs e : Str) : Part (',' :: cs) e ↔ e = [] ∨ Part cs e := by
  rw [show Part cs e ↔ Entry (',' :: cs) e from (entry_comma cs e).symm]
  constructor
  · rintro ⟨he, a, b, ht, ha, hb⟩
    rcases ha with rfl | ⟨a', rfl⟩
    · cases e with
      | nil => exact .inl rfl
      | cons d w =>
        simp only [List.nil_append, List.cons_append, List.cons.injEq] at ht
        exact absurd (ht.1 ▸ List.mem_cons_self) he
    · exact .inr ⟨he, a', b, by rw [ht]; simp, hb⟩
  · rintro (rfl | ⟨he, a, b, ht, hb⟩)
    · exact ⟨by simp, [], ',' :: cs, rfl, .inl rfl, .inr ⟨cs, rfl⟩⟩
    · exact ⟨he, a ++ [','], b, by rw [ht]; simp, .inr ⟨a, rfl⟩, hb⟩

theorem entry_cons (c : Char) (cs e : Str) (hc : c ≠ ',') : Entry (c :: cs) e ↔ Entry cs e := by
  constructor
  · rintro ⟨he, a, b, ht, hb⟩
    cases a with
    | nil => simp at ht; exact absurd ht.1 hc
    | cons d a =>
      simp only [List.cons_append, List.cons.injEq] at ht
      exact ⟨he, a, b, ht.2, hb⟩
  · rintro ⟨he, a, b, ht, hb⟩
    exact ⟨he, c :: a, b, by rw [ht]; rfl, hb⟩

theorem split_spec (t : Str) :
    (∀ e, Part t e ↔ e ∈ split ',' t) ∧ (∀ e, Entry t e ↔ e ∈ (split ',' t).tail) := by
  induction t with
  | nil =>
    constructor
    · intro e
      simp only [split, List.mem_singleton]
      constructor
      · rintro ⟨_, a, b, ht, _⟩
        have := congrArg List.length ht
        simp only [List.length_nil, List.length_append] at this
        exact List.length_eq_zero_iff.1 (by omega)
      · rintro rfl
        exact ⟨by simp, [], [], rfl, .inl rfl, .inl rfl⟩
    · intro e
      simp only [split, List.tail_cons, List.not_mem_nil, iff_false]
      rintro ⟨_, a, b, ht, _⟩
      have := congrArg List.length ht
      simp at this
  | cons c cs ih =>
    by_cases hc : c = ','
    · subst hc
      simp only [split, if_true, List.tail_cons, List.mem_cons]
      exact ⟨fun e => by rw [part_comma, ih.1], fun e => by rw [entry_comma, ih.1]⟩
    · have hh := split_head ',' cs
      simp only [split, if_neg hc]
      cases hs : split ',' cs with
      | nil => exact absurd hs (split_ne_nil _ _)
      | cons w ws =>
        rw [hs] at hh ih
        simp only [List.head?_cons, Option.some.injEq] at hh
        simp only [List.tail_cons] at ih ⊢
        constructor
        · intro e
          rw [part_cons c cs e hc, ih.2, List.mem_cons]
          constructor
          · rintro (h | ⟨w', rfl, hw'⟩)
            · exact .inr h
            · left; rw [hw', hh]
          · rintro (h | h)
            · exact .inr ⟨w, h, hh⟩
            · exact .inl h
        · intro e
          rw [entry_cons c cs e hc, ih.2]

theorem part_iff (t e : Str) : Part t e ↔ e ∈ split ',' t := (split_spec t).1 e
theorem entry_iff (t e : Str) : Entry t e ↔ e ∈ (split ',' t).tail := (split_spec t).2 e

theorem split_eq (t : Str) : split ',' t = t.takeWhile (· ≠ ',') :: (split ',' t).tail := by
  have := split_head ',' t
  cases hs : split ',' t with
  | nil => exact absurd hs (split_ne_nil _ _)
  | cons w ws =>
    rw [hs] at this
    simp only [List.head?_cons, Option.some.injEq] at this
    rw [this]; rfl

/-! ## What a tag says -/

/-- The options of a tag. -/
def opts (t : Str) : List Str := (split ',' t).tail

theorem tagName_eq (cfg : Config) (f : SField) : tagName cfg f =
    if tagHead f.tag = ['-'] then .ok none
    else if tagHead f.tag = [] then .ok (some (cfg.rename f.name, opts f.tag))
    else if nameOk (tagHead f.tag) then .ok (some (tagHead f.tag, opts f.tag)) else .err := by
  unfold tagName
  by_cases ht : f.tag = []
  · rw [if_pos ht]
    have h1 : tagHead f.tag = [] := by rw [ht]; rfl
    have h2 : opts f.tag = [] := by rw [ht]; rfl
    simp [h1, h2]
  · rw [if_neg ht, split_eq f.tag]
    have h1 : trimSpace (f.tag.takeWhile (· ≠ ',')) = tagHead f.tag := (trim_eq _).symm
    simp only [h1]
    have h2 : "-".toList = ['-'] := rfl
    rw [h2]
    by_cases ha : tagHead f.tag = ['-']
    · simp [ha]
    · rw [if_neg ha, if_neg ha]
      by_cases hb : tagHead f.tag = []
      · simp [hb, opts]
      · simp [hb, opts]

theorem hasOpt_iff (t o : Str) : HasOpt t o ↔ o ∈ parseTag (opts t) := by
  rw [mem_parseTag]
  constructor
  · rintro ⟨e, he, ho⟩
    exact ⟨e, (entry_iff t e).1 he, ho⟩
  · rintro ⟨e, he, ho⟩
    exact ⟨e, (entry_iff t e).2 he, ho⟩

/-! ## Annotations -/

theorem toNat_toLower (c : Char) :
    c.toLower.toNat = if 65 ≤ c.toNat ∧ c.toNat ≤ 90 then c.toNat + 32 else c.toNat := by
  unfold Char.toLower
  have hA : 'A'.val.toNat = 65 := rfl
  have hZ : 'Z'.val.toNat = 90 := rfl
  by_cases h : c.val ≥ 'A'.val ∧ c.val ≤ 'Z'.val
  · rw [dif_pos h]
    have h1 : 65 ≤ c.val.toNat := by rw [← hA]; exact UInt32.le_iff_toNat_le.1 h.1
    have h2 : c.val.toNat ≤ 90 := by rw [← hZ]; exact UInt32.le_iff_toNat_le.1 h.2
    rw [if_pos ⟨h1, h2⟩]
    show (c.val + ('a'.val - 'A'.val)).toNat = c.val.toNat + 32
    rw [UInt32.toNat_add, show ('a'.val - 'A'.val).toNat = 32 from rfl]
    omega
  · rw [dif_neg h, if_neg]
    rintro ⟨h1, h2⟩
    exact h ⟨UInt32.le_iff_toNat_le.2 (by rw [hA]; exact h1), UInt32.le_iff_toNat_le.2 (by rw [hZ]; exact h2)⟩

theorem foldCase_eq (c : Char) (l : Char) (hl : l = 's' ∨ l = 'q' ∨ l = 'l') :
    foldCase c = l ↔ foldEq l c = true := by
  unfold foldCase foldEq
  by_cases h : c = 'ſ'
  · subst h
    rcases hl with rfl | rfl | rfl <;> decide
  · rw [if_neg h]
    have h' : ¬ c = '\u017f' := h
    simp only [Bool.or_eq_true, decide_eq_true_eq, Bool.and_eq_true, h', and_false, or_false]
    have hn : 97 ≤ l.toNat ∧ l.toNat ≤ 122 := by rcases hl with rfl | rfl | rfl <;> decide
    rw [← Char.toNat_inj, ← Char.toNat_inj (c := c), toNat_toLower]
    split <;> omega

theorem foldCase_other (c : Char) (l : Char) (hl : l = '+' ∨ l = ':') : foldCase c = l ↔ c = l := by
  unfold foldCase
  by_cases h : c = 'ſ'
  · subst h
    rcases hl with rfl | rfl <;> decide
  · rw [if_neg h, ← Char.toNat_inj, ← Char.toNat_inj (c := c), toNat_toLower]
    have hn : l.toNat = 43 ∨ l.toNat = 58 := by rcases hl with rfl | rfl <;> decide
    split <;> omega

theorem isMarker_iff (m : Str) : IsMarker m ↔ ∃ s q l, m = ['+', s, q, l, ':'] ∧
    foldEq 's' s = true ∧ foldEq 'q' q = true ∧ foldEq 'l' l = true := by
  unfold IsMarker
  have h0 : "+sql:".toList = ['+', 's', 'q', 'l', ':'] := rfl
  rw [h0]
  constructor
  · intro h
    have hlen : m.length = 5 := by simpa using congrArg List.length h
    match m, hlen, h with
    | [a, s, q, l, b], _, h =>
      simp only [List.map_cons, List.map_nil, List.cons.injEq, and_true] at h
      obtain ⟨ha, hs, hq, hl, hb⟩ := h
      rw [foldCase_other _ _ (.inl rfl)] at ha
      rw [foldCase_other _ _ (.inr rfl)] at hb
      rw [foldCase_eq _ _ (by simp)] at hs hq hl
      subst ha hb
      exact ⟨s, q, l, rfl, hs, hq, hl⟩
  · rintro ⟨s, q, l, rfl, hs, hq, hl⟩
    rw [← foldCase_eq _ _ (by simp)] at hs hq hl
    simp [hs, hq, hl, (foldCase_other '+' '+' (.inl rfl)).2 rfl, (foldCase_other ':' ':' (.inr rfl)).2 rfl]

theorem stripSql_iff (t r : Str) : stripSql t = some r ↔ ∃ m, t = m ++ r ∧ IsMarker m := by
  constructor
  · intro h
    unfold stripSql at h
    split at h
    · rename_i p s q l col r'
      split at h
      · rename_i hc
        obtain ⟨rfl, hs, hq, hl, rfl⟩ := hc
        simp only [Option.some.injEq] at h
        subst h
        exact ⟨['+', s, q, l, ':'], rfl, (isMarker_iff _).2 ⟨s, q, l, rfl, hs, hq, hl⟩⟩
      · cases h
    · cases h
  · rintro ⟨m, rfl, hm⟩
    obtain ⟨s, q, l, rfl, hs, hq, hl⟩ := (isMarker_iff m).1 hm
    simp [stripSql, hs, hq, hl]

/-- The first annotation of a comment: what the parser finds. -/
theorem findAnnotation_iff (t fl : Str) : findAnnotation t = some fl ↔
    ∃ pre m post, t = pre ++ m ++ fl ++ post ∧ IsMarker m ∧
      (∀ pre' m' r, t = pre' ++ m' ++ r → IsMarker m' → pre.length ≤ pre'.length) ∧
      '\n' ∉ fl ∧ (post = [] ∨ ∃ post', post = '\n' :: post') := by
  induction t with
  | nil =>
    simp only [findAnnotation, reduceCtorEq, false_iff]
    rintro ⟨pre, m, post, ht, hm, _⟩
    obtain ⟨s, q, l, rfl, _⟩ := (isMarker_iff m).1 hm
    have := congrArg List.length ht
    simp at this
  | cons c cs ih =>
    simp only [findAnnotation]
    cases hst : stripSql (c :: cs) with
    | some r =>
      obtain ⟨m, hm, hmk⟩ := (stripSql_iff _ _).1 hst
      simp only [Option.some.injEq]
      constructor
      · rintro rfl
        refine ⟨[], m, r.dropWhile (· ≠ '\n'), ?_, hmk, fun _ _ _ _ _ => Nat.zero_le _, ?_, ?_⟩
        · rw [hm]
          simp only [List.nil_append, List.append_assoc, List.takeWhile_append_dropWhile]
        · intro h
          simpa using takeWhile_all _ _ h
        · cases hd : r.dropWhile (fun c => decide (c ≠ '\n')) with
          | nil => exact .inl rfl
          | cons d ds =>
            right
            have : d = '\n' := by
              have := head_dropWhile r d (by rw [hd]; rfl)
              simpa using this
            exact ⟨ds, by rw [this]⟩
      · rintro ⟨pre, m', post, ht, hm', hmin, hfl, hpost⟩
        have h0 := hmin [] m r (by simpa using hm) hmk
        have hpre : pre = [] := List.length_eq_zero_iff.1 (by simpa using h0)
        subst hpre
        obtain ⟨s, q, l, rfl, _⟩ := (isMarker_iff m).1 hmk
        obtain ⟨s', q', l', rfl, _⟩ := (isMarker_iff m').1 hm'
        rw [hm] at ht
        simp only [List.cons_append, List.nil_append, List.cons.injEq, true_and] at ht
        obtain ⟨_, _, _, hr⟩ := ht
        have hall : ∀ x ∈ fl, (decide (x ≠ '\n')) = true := by
          intro x hx
          have : x ≠ '\n' := fun h => hfl (h ▸ hx)
          simp [this]
        rw [hr]
        rcases hpost with rfl | ⟨b', rfl⟩
        · rw [List.append_nil]; exact List.takeWhile_eq_self_iff.2 hall
        · rw [List.takeWhile_append_of_pos hall]; simp
    | none =>
      have hno : ∀ m r, c :: cs = m ++ r → ¬IsMarker m := by
        intro m r h hm
        have := (stripSql_iff (c :: cs) r).2 ⟨m, h, hm⟩
        rw [hst] at this
        cases this
      simp only
      rw [ih]
      constructor
      · rintro ⟨pre, m, post, ht, hm, hmin, hrest⟩
        refine ⟨c :: pre, m, post, by rw [ht]; simp, hm, ?_, hrest⟩
        intro pre' m' r h hm'
        cases pre' with
        | nil => exact absurd hm' (hno m' r (by simpa using h))
        | cons d pre' =>
          simp only [List.cons_append, List.cons.injEq] at h
          have := hmin pre' m' r h.2 hm'
          simpa using this
      · rintro ⟨pre, m, post, ht, hm, hmin, hrest⟩
        cases pre with
        | nil => exact absurd hm (hno m (fl ++ post) (by simpa using ht))
        | cons d pre =>
          simp only [List.cons_append, List.cons.injEq] at ht
          refine ⟨pre, m, post, ht.2, hm, ?_, hrest⟩
          intro pre' m' r h hm'
          have := hmin (c :: pre') m' r (by rw [h]; simp) hm'
          simpa using this

theorem annotated_iff (t flag : Str) :
    Annotated t flag ↔ ∃ fl, findAnnotation t = some fl ∧ flag ∈ split ',' fl := by
  constructor
  · rintro ⟨pre, m, fl, post, ht, hm, hmin, hfl, hpost, hp⟩
    exact ⟨fl, (findAnnotation_iff t fl).2 ⟨pre, m, post, ht, hm, hmin, hfl, hpost⟩, (part_iff fl flag).1 hp⟩
  · rintro ⟨fl, h, hp⟩
    obtain ⟨pre, m, post, ht, hm, hmin, hfl, hpost⟩ := (findAnnotation_iff t fl).1 h
    exact ⟨pre, m, fl, post, ht, hm, hmin, hfl, hpost, (part_iff fl flag).2 hp⟩

theorem flagLoop_eq (ro : Bool) (ws : List Str) : flagLoop ro ws =
    if "ignore".toList ∈ ws then none else some (ro || decide ("readonly".toList ∈ ws)) := by
  induction ws generalizing ro with
  | nil => simp [flagLoop]
  | cons w ws ih =>
    simp only [flagLoop]
    have hne : "readonly".toList ≠ "ignore".toList := by decide
    by_cases h1 : w = "readonly".toList
    · rw [if_pos h1, ih, h1]
      simp only [List.mem_cons, hne.symm, false_or, true_or, decide_true, Bool.or_true, Bool.true_or]
    · rw [if_neg h1]
      by_cases h2 : w = "ignore".toList
      · rw [if_pos h2, if_pos (by rw [h2]; exact List.mem_cons_self)]
      · rw [if_neg h2, ih]
        have h1' : ¬ "readonly".toList = w := fun h => h1 h.symm
        have h2' : ¬ "ignore".toList = w := fun h => h2 h.symm
        simp only [List.mem_cons, h1', h2', false_or]

end Verif.Parser

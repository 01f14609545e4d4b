import Verif.Spec.MigrateText
import Verif.Model.MigrateText

/-! # Reading the text of a migration -/

namespace Verif.Spec.Ddl

open Verif Verif.Migrate

variable {S : Server}

theorem scan_append (a : At) (x y : Bytes) :
    scan S a (x ++ y) = ((scan S a x).1 ++ (scan S (scan S a x).2 y).1, (scan S (scan S a x).2 y).2) := by
  induction x generalizing a with
  | nil => simp [scan]
  | cons b x ih => simp [scan, ih]

/-- States in which a space or a mark ends what is being read. -/
inductive Closed : At → List Sym → Prop
  | ready : Closed .ready []
  | word {w} : Closed (.word w) [.word w]
  | name {n} : Closed (.nameEnd n) [.name n]
  | text {s} : Closed (.textEnd s) [.text s]
  | dash : Closed .dash [.word [45]]

/-- A text with these symbols, after which a space or a mark may follow. -/
def Toks (S : Server) (t : Bytes) (ss : List Sym) : Prop := ∃ a ps, Closed a ps ∧ (scan S .ready t).2 = a ∧ ss = (scan S .ready t).1 ++ ps

theorem next_closed (hS : Sound S) {a : At} {ps : List Sym} (h : Closed a ps) {b : Byte} (hb : isSpace b = true ∨ isMark b = true) :
    next S a b = (ps ++ (start S b).1, .ready) ∧ (start S b).2 = .ready := by
  have hw : inWord b = false := by
    unfold inWord; rcases hb with h | h <;> simp [h]
  have hs : (start S b).2 = .ready := by
    unfold start
    by_cases h : isSpace b = true
    · simp [h]
    · have : isMark b = true := by simpa [h] using hb
      simp [h, this]
  have hq : b ≠ S.quote ∧ b ≠ 39 ∧ b ≠ 45 := by
    unfold isSpace isMark at hb
    simp only [Bool.or_eq_true, decide_eq_true_eq] at hb
    rcases hS.quote with e | e <;> rw [e] <;> rcases hb with ((((rfl | rfl) | rfl) | rfl) | ((rfl | rfl) | rfl) | rfl) <;> decide
  refine ⟨?_, hs⟩
  cases h <;> simp [next, hw, hq, after, Prod.ext_iff, hs]

theorem toks_space (hS : Sound S) {t u : Bytes} {ss us : List Sym} (h : Toks S t ss) (hu : Toks S u us) {b : Byte} (hb : isSpace b = true) :
    Toks S (t ++ b :: u) (ss ++ us) := by
  obtain ⟨a, ps, hc, e, rfl⟩ := h
  obtain ⟨a', ps', hc', e', rfl⟩ := hu
  have := (next_closed hS hc (.inl hb)).1
  have hst : (start S b).1 = [] := by simp [start, hb]
  refine ⟨a', ps', hc', ?_, ?_⟩ <;> rw [scan_append, e] <;> simp [scan, this, hst, e']

theorem toks_mark (hS : Sound S) {t u : Bytes} {ss us : List Sym} (h : Toks S t ss) (hu : Toks S u us) {b : Byte} (hb : isMark b = true) :
    Toks S (t ++ b :: u) (ss ++ .mark b :: us) := by
  obtain ⟨a, ps, hc, e, rfl⟩ := h
  obtain ⟨a', ps', hc', e', rfl⟩ := hu
  have := (next_closed hS hc (.inr hb)).1
  have hsp : isSpace b = false := by
    unfold isMark at hb
    simp only [Bool.or_eq_true, decide_eq_true_eq] at hb
    rcases hb with ((rfl | rfl) | rfl) | rfl <;> decide
  have hst : (start S b).1 = [.mark b] := by simp [start, hb, hsp]
  refine ⟨a', ps', hc', ?_, ?_⟩ <;> rw [scan_append, e] <;> simp [scan, this, hst, e']

theorem toks_nil : Toks S [] [] := ⟨.ready, [], .ready, rfl, rfl⟩

theorem symbols_toks {t : Bytes} {ss : List Sym} (h : Toks S t ss) : symbols S t = some ss := by
  obtain ⟨a, ps, hc, e, rfl⟩ := h
  unfold symbols
  dsimp only
  rw [e]
  cases hc <;> simp [finish]

/-- Without comments, the symbols of a text are closed. -/
theorem toks_symbols {t : Bytes} {ss : List Sym} (h : symbols S t = some ss) (hc : ∀ s ∈ ss, isComment s = false) : Toks S t ss := by
  unfold symbols at h
  simp only [Option.map_eq_some_iff] at h
  obtain ⟨ps, e, rfl⟩ := h
  refine ⟨_, ps, ?_, rfl, rfl⟩
  cases ha : (scan S .ready t).2 <;> rw [ha] at e <;> simp only [finish, Option.some.injEq, reduceCtorEq] at e <;> subst e <;> try constructor
  rename_i c
  exact absurd (hc (.comment c) (by simp)) (by simp [isComment])

/-! ## Names, words and comments -/

theorem scan_name (acc n : Bytes) (h : S.quote ∉ n) : scan S (.name acc) n = ([], .name (acc ++ n)) := by
  induction n generalizing acc with
  | nil => simp [scan]
  | cons b n ih =>
    simp only [List.mem_cons, not_or] at h
    simp [scan, next, Ne.symm h.1, ih _ h.2]

theorem toks_name (hS : Sound S) {q : Bytes → Bytes} {n : Bytes} (h : NameOk S q n) : Toks S (q n) [.name n] := by
  have hs : start S S.quote = ([], .name []) := by
    rcases hS.quote with e | e <;> rw [start, e] <;> simp [isSpace, isMark]
  have e : scan S .ready (q n) = ([], .nameEnd n) := by
    rw [h.1]
    simp only [scan, next, hs, scan_append, scan_name _ _ h.2]
    simp
  exact ⟨.nameEnd n, _, .name, by rw [e], by rw [e]; rfl⟩

theorem scan_word (acc w : Bytes) (h : w.all inWord = true) : scan S (.word acc) w = ([], .word (acc ++ w)) := by
  induction w generalizing acc with
  | nil => simp [scan]
  | cons b w ih =>
    simp only [List.all_cons, Bool.and_eq_true] at h
    simp [scan, next, h.1, ih _ h.2]

theorem toks_word (hS : Sound S) {w : Bytes} (h : w.all inWord = true) (hne : w ≠ []) : Toks S w [.word w] := by
  cases w with
  | nil => exact absurd rfl hne
  | cons b w =>
    simp only [List.all_cons, Bool.and_eq_true] at h
    have hb := h.1
    have hs : start S b = ([], .word [b]) := by
      unfold inWord at hb
      simp only [Bool.and_eq_true, Bool.not_eq_true', decide_eq_true_eq] at hb
      obtain ⟨⟨⟨⟨⟨h1, h2⟩, h3⟩, h4⟩, h5⟩, h6⟩ := hb
      have hq : b ≠ S.quote := by rcases hS.quote with e | e <;> rw [e] <;> assumption
      have hin := h.1
      simp [start, h1, h2, hq, h4, h6, hin]
    have e : scan S .ready (b :: w) = ([], .word (b :: w)) := by
      simp [scan, next, hs, scan_word [b] w h.2]
    exact ⟨.word (b :: w), _, .word, by rw [e], by rw [e]; rfl⟩

theorem toks_kw (hS : Sound S) (s : String) (h : (lit s).all inWord = true ∧ lit s ≠ []) : Toks S (lit s) [kw s] := toks_word hS h.1 h.2

theorem scan_comment (acc c : Bytes) (h : (10 : Byte) ∉ c) : scan S (.comment acc) c = ([], .comment (acc ++ c)) := by
  induction c generalizing acc with
  | nil => simp [scan]
  | cons b c ih =>
    simp only [List.mem_cons, not_or] at h
    simp [scan, next, Ne.symm h.1, ih _ h.2]

/-- A line of comment. -/
theorem scan_line (hS : Sound S) {c : Bytes} (h : (10 : Byte) ∉ c) (t : Bytes) :
    scan S .ready (45 :: 45 :: (c ++ 10 :: t)) = (.comment c :: (scan S .ready t).1, (scan S .ready t).2) := by
  have hs : start S 45 = ([], .dash) := by
    rcases hS.quote with e | e <;> simp [start, e, isSpace, isMark]
  simp [scan, next, hs, scan_append, scan_comment [] c h]

theorem toks_line (hS : Sound S) {c : Bytes} (h : (10 : Byte) ∉ c) {t : Bytes} {ss : List Sym} (ht : Toks S t ss) :
    Toks S (45 :: 45 :: (c ++ 10 :: t)) (.comment c :: ss) := by
  obtain ⟨a, ps, hc, e, rfl⟩ := ht
  exact ⟨a, ps, hc, by rw [scan_line hS h]; exact e, by rw [scan_line hS h]; rfl⟩

/-- Spaces at the beginning. -/
theorem toks_lead (hS : Sound S) {t : Bytes} {ss : List Sym} (h : Toks S t ss) {b : Byte} (hb : isSpace b = true) : Toks S (b :: t) ss := by
  simpa using toks_space hS toks_nil h hb

/-! ## Splitting -/

/-- Symbols before the first part. -/
def front (xs : List Sym) : List (List Sym) → List (List Sym)
  | [] => [xs]
  | p :: ps => (xs ++ p) :: ps

theorem split_ne_nil (m : Byte) (d : Nat) (ss : List Sym) : split m d ss ≠ [] := by
  cases ss with
  | nil => simp [split]
  | cons s ss =>
    unfold split
    split
    · simp
    · dsimp only
      split <;> simp

theorem front_nil {ps : List (List Sym)} (h : ps ≠ []) : front [] ps = ps := by cases ps <;> simp_all [front]

theorem front_front (xs ys : List Sym) (ps : List (List Sym)) : front xs (front ys ps) = front (xs ++ ys) ps := by
  cases ps <;> simp [front]

theorem split_cons {m : Byte} {d : Nat} {s : Sym} (ss : List Sym) (h : ¬ (d = 0 ∧ s = .mark m)) :
    split m d (s :: ss) = front [s] (split m (if s = .mark 40 then d + 1 else if s = .mark 41 then d - 1 else d) ss) := by
  rw [split, if_neg h]
  dsimp only
  cases hp : split m (if s = .mark 40 then d + 1 else if s = .mark 41 then d - 1 else d) ss <;> simp [front]

theorem split_whole {m : Byte} (hm : m = 44 ∨ m = 59) {deep : Bool} {xs : List Sym} (h : Whole deep xs) {d : Nat}
    (hd : d = 0 → deep = true → m = 59) (rest : List Sym) : split m d (xs ++ rest) = front xs (split m d rest) := by
  induction h generalizing d rest with
  | nil => exact (front_nil (split_ne_nil _ _ _)).symm
  | sym hs _ _ ih =>
    rw [List.cons_append, split_cons _ (fun h => hs _ h.2), if_neg (hs _), if_neg (hs _), ih hd, front_front]
    rfl
  | @paren deep xs ss _ _ ih1 ih2 =>
    have h40 : ¬ (d = 0 ∧ Sym.mark 40 = .mark m) := by rcases hm with rfl | rfl <;> simp
    have h41 : ∀ d', ¬ (d' = 0 ∧ Sym.mark 41 = .mark m) := by rcases hm with rfl | rfl <;> simp
    rw [List.cons_append, split_cons _ h40, if_pos rfl, List.append_assoc, ih1 (by simp), List.cons_append,
      split_cons _ (h41 _), if_neg (by simp), if_pos rfl, Nat.add_sub_cancel, ih2 hd, front_front, front_front, front_front]
    simp
  | comma _ ih =>
    have h44 : ¬ (d = 0 ∧ Sym.mark 44 = .mark m) := by
      rintro ⟨h0, e⟩
      rw [hd h0 rfl] at e
      simp at e
    rw [List.cons_append, split_cons _ h44, if_neg (by simp), if_neg (by simp), ih hd, front_front]
    rfl

theorem split_at {m : Byte} (hm : m = 44 ∨ m = 59) {deep : Bool} {xs : List Sym} (h : Whole deep xs) (hd : deep = true → m = 59)
    (rest : List Sym) : split m 0 (xs ++ .mark m :: rest) = xs :: split m 0 rest := by
  rw [split_whole hm h (fun _ => hd), split, if_pos ⟨rfl, rfl⟩]
  simp [front]

theorem split_last {m : Byte} (hm : m = 44 ∨ m = 59) {deep : Bool} {xs : List Sym} (h : Whole deep xs) (hd : deep = true → m = 59) :
    split m 0 xs = [xs] := by
  have := split_whole hm h (d := 0) (fun _ => hd) []
  simpa [split, front] using this

theorem whole_append {deep : Bool} {xs ys : List Sym} (h : Whole deep xs) (hy : Whole deep ys) : Whole deep (xs ++ ys) := by
  induction h with
  | nil => exact hy
  | sym h1 h2 _ ih => exact .sym h1 h2 (ih hy)
  | paren h1 _ _ ih => simpa using Whole.paren h1 (ih hy)
  | comma _ ih => exact .comma (ih hy)

theorem whole_deep {deep : Bool} {xs : List Sym} (h : Whole deep xs) : Whole true xs := by
  induction h with
  | nil => exact .nil
  | sym h1 h2 _ ih => exact .sym h1 h2 ih
  | paren h1 _ _ ih => exact .paren h1 ih
  | comma _ ih => exact .comma ih

theorem whole_comment {deep : Bool} {xs : List Sym} (h : Whole deep xs) : ∀ s ∈ xs, isComment s = false := by
  induction h with
  | nil => simp
  | sym _ h2 _ ih =>
    intro s hs
    rcases List.mem_cons.1 hs with rfl | hs
    · exact h2
    · exact ih s hs
  | paren _ _ ih1 ih2 =>
    intro s hs
    simp only [List.mem_cons, List.mem_append] at hs
    rcases hs with rfl | hs | rfl | hs
    · rfl
    · exact ih1 s hs
    · rfl
    · exact ih2 s hs
  | comma _ ih =>
    intro s hs
    rcases List.mem_cons.1 hs with rfl | hs
    · rfl
    · exact ih s hs

/-! ## Columns -/

/-- Nothing, or an attribute. -/
def Attrs (ys : List Sym) : Prop := ∀ s, ys.head? = some s → isAttr s = true

theorem takeWhile_attrs (ss : List Sym) {ys : List Sym} (h : Attrs ys) :
    ((ss ++ ys).takeWhile fun s => !isAttr s) = ss.takeWhile fun s => !isAttr s := by
  induction ss with
  | nil => cases ys with
    | nil => rfl
    | cons y ys => simp [h y rfl]
  | cons s ss ih => simp only [List.cons_append, List.takeWhile_cons, ih]

theorem dropWhile_attrs (ss : List Sym) {ys : List Sym} (h : Attrs ys) :
    ((ss ++ ys).dropWhile fun s => !isAttr s) = (ss.dropWhile fun s => !isAttr s) ++ ys := by
  induction ss with
  | nil => cases ys with
    | nil => rfl
    | cons y ys => simp [h y rfl]
  | cons s ss ih =>
    simp only [List.cons_append, List.dropWhile_cons, ih]
    split <;> rfl

theorem attrs_mono {n k : Nat} {c c' : Col} {xs : List Sym} (h : attrs S n c xs = some c') (hk : n ≤ k) : attrs S k c xs = some c' := by
  induction n generalizing k c xs with
  | zero =>
    cases xs with
    | nil => cases k <;> simpa [attrs] using h
    | cons => simp [attrs] at h
  | succ n ih =>
    obtain ⟨k, rfl⟩ : ∃ j, k = j + 1 := ⟨k - 1, by omega⟩
    cases xs with
    | nil => simpa [attrs] using h
    | cons s ss =>
      unfold attrs at h ⊢
      split at h
      · rename_i h1
        rw [if_pos h1]
        cases ss with
        | nil => cases h
        | cons s' ss =>
          dsimp only at h ⊢
          split at h
          · rename_i h2; rw [if_pos h2]; exact ih h (by omega)
          · cases h
      · rename_i h1
        rw [if_neg h1]
        split at h
        · rename_i h2
          rw [if_pos h2]
          dsimp only at h ⊢
          split at h
          · cases h
          · rename_i h3; rw [if_neg h3]; exact ih h (by omega)
        · cases h

theorem attrs_append {n k : Nat} {c c' c'' : Col} {xs ys : List Sym} (hy : Attrs ys) (h : attrs S n c xs = some c')
    (h' : attrs S k c' ys = some c'') : attrs S (n + k) c (xs ++ ys) = some c'' := by
  induction n generalizing c xs with
  | zero =>
    cases xs with
    | nil =>
      simp only [attrs, Option.some.injEq] at h
      subst h
      simpa using h'
    | cons => simp [attrs] at h
  | succ n ih =>
    cases xs with
    | nil =>
      simp only [attrs, Option.some.injEq] at h
      subst h
      exact attrs_mono h' (by omega)
    | cons s ss =>
      rw [show n + 1 + k = n + k + 1 by omega, List.cons_append]
      unfold attrs at h ⊢
      split at h
      · rename_i h1
        rw [if_pos h1]
        cases ss with
        | nil => cases h
        | cons s' ss =>
          dsimp only [List.cons_append] at h ⊢
          split at h
          · rename_i h2; rw [if_pos h2]; exact ih h
          · cases h
      · rename_i h1
        rw [if_neg h1]
        split at h
        · rename_i h2
          rw [if_pos h2]
          dsimp only at h ⊢
          split at h
          · cases h
          · rename_i h3
            rw [takeWhile_attrs _ hy, if_neg h3, dropWhile_attrs _ hy]
            exact ih h
        · cases h

theorem attrs_name (n : Nat) (c : Col) (xs : List Sym) (b : Bytes) :
    attrs S n { c with name := b } xs = (attrs S n c xs).map fun c => { c with name := b } := by
  induction n generalizing c xs with
  | zero => cases xs <;> simp [attrs]
  | succ n ih =>
    cases xs with
    | nil => simp [attrs]
    | cons s ss =>
      unfold attrs
      split
      · cases ss with
        | nil => rfl
        | cons s' ss =>
          dsimp only
          split
          · exact ih { c with notNull := true } ss
          · rfl
      · split
        · dsimp only
          split
          · rfl
          · exact ih { c with dflt := some (ss.takeWhile fun s => !isAttr s) } _
        · rfl

theorem attrs_type {n : Nat} {c c' : Col} {xs : List Sym} (h : attrs S n c xs = some c') : c'.type = c.type := by
  induction n generalizing c xs with
  | zero =>
    cases xs with
    | nil => simp only [attrs, Option.some.injEq] at h; rw [← h]
    | cons => simp [attrs] at h
  | succ n ih =>
    cases xs with
    | nil => simp only [attrs, Option.some.injEq] at h; rw [← h]
    | cons s ss =>
      unfold attrs at h
      split at h
      · cases ss with
        | nil => cases h
        | cons s' ss =>
          dsimp only at h
          split at h
          · exact ih (c := { c with notNull := true }) h
          · cases h
      · split at h
        · dsimp only at h
          split at h
          · cases h
          · exact ih (c := { c with dflt := some (ss.takeWhile fun s => !isAttr s) }) h
        · cases h

/-- The attributes that are written. -/
def ext (notNull : Bool) (v : Option (List Sym)) : List Sym :=
  (if notNull then [kw "NOT", kw "NULL"] else []) ++ (match v with | some v => kw "DEFAULT" :: v | none => [])

theorem isAttr_not : isAttr (kw "NOT") = true := by decide +kernel
theorem isAttr_default : isAttr (kw "DEFAULT") = true := by decide +kernel
theorem default_ne_not : kw "DEFAULT" ≠ kw "NOT" := by decide +kernel

theorem attrs_ext_attrs (notNull : Bool) (v : Option (List Sym)) : Attrs (ext notNull v) := by
  intro s hs
  cases notNull <;> cases v <;> simp only [ext, if_true, Bool.false_eq_true, if_false, List.append_nil, List.nil_append, List.cons_append, List.head?_nil,
    List.head?_cons, Option.some.injEq, reduceCtorEq] at hs <;> subst hs <;> first | exact isAttr_not | exact isAttr_default

theorem takeWhile_all {v : List Sym} (h : ∀ s ∈ v, isAttr s = false) : (v.takeWhile fun s => !isAttr s) = v ∧ (v.dropWhile fun s => !isAttr s) = [] := by
  induction v with
  | nil => simp
  | cons s v ih =>
    have hs := h s (by simp)
    have := ih fun s' hs' => h s' (by simp [hs'])
    simp [hs, this.1, this.2]

theorem attrs_default {k : Nat} {c : Col} {v : List Sym} (hv : v ≠ []) (h : ∀ s ∈ v, isAttr s = false) (hl : S.lax = true ∨ c.dflt = none) :
    attrs S (k + 1) c (kw "DEFAULT" :: v) = some { c with dflt := some v } := by
  unfold attrs
  rw [if_neg default_ne_not, if_pos rfl]
  dsimp only
  rw [(takeWhile_all h).1, (takeWhile_all h).2, if_neg (by
    rintro (e | ⟨e1, e2⟩)
    · exact hv e
    · rcases hl with e | e <;> simp_all)]
  cases k <;> simp [attrs]

theorem attrs_not {k : Nat} {c : Col} (ss : List Sym) :
    attrs S (k + 1) c (kw "NOT" :: kw "NULL" :: ss) = attrs S k { c with notNull := true } ss := by
  rw [attrs, if_pos rfl, if_pos rfl]

theorem attrs_nil (k : Nat) (c : Col) : attrs S k c [] = some c := by cases k <;> rfl

theorem attrs_ext {notNull : Bool} {v : Option (List Sym)} {c : Col} (hv : ∀ x, v = some x → x ≠ [] ∧ ∀ s ∈ x, isAttr s = false)
    (hl : v.isSome = true → S.lax = true ∨ c.dflt = none) :
    attrs S (ext notNull v).length c (ext notNull v) = some { c with notNull := c.notNull || notNull, dflt := v.or c.dflt } := by
  cases notNull with
  | false =>
    cases v with
    | none => simp [ext, attrs]
    | some v =>
      simp only [ext, Bool.false_eq_true, if_false, List.nil_append, List.length_cons]
      rw [attrs_default (hv v rfl).1 (hv v rfl).2 (hl rfl)]
      simp
  | true =>
    cases v with
    | none =>
      simp only [ext, if_true, List.append_nil, List.length_cons]
      rw [attrs_not, attrs_nil]
      simp
    | some v =>
      simp only [ext, if_true, List.cons_append, List.nil_append, List.length_cons]
      rw [attrs_not, attrs_default (c := { c with notNull := true }) (hv v rfl).1 (hv v rfl).2 (hl rfl)]
      simp

/-- A column with what is written after its type. -/
theorem column_ext {n : Bytes} {ss ty : List Sym} {nn notNull : Bool} {d : Option (List Sym)} (h : column S [] ss = some ⟨[], ty, nn, d⟩)
    {v : Option (List Sym)} (hv : ∀ x, v = some x → x ≠ [] ∧ ∀ s ∈ x, isAttr s = false)
    (hl : v.isSome = true → S.lax = true ∨ d = none) :
    column S n (ss ++ ext notNull v) = some ⟨n, ty, nn || notNull, v.or d⟩ := by
  unfold column at h ⊢
  dsimp only at h ⊢
  rw [takeWhile_attrs _ (attrs_ext_attrs _ _), dropWhile_attrs _ (attrs_ext_attrs _ _)]
  split at h
  · cases h
  · rename_i hne
    rw [if_neg hne]
    have e := attrs_name (S := S) ss.length ⟨[], ss.takeWhile fun s => !isAttr s, false, none⟩ (ss.dropWhile fun s => !isAttr s) n
    rw [h] at e
    have := attrs_append (attrs_ext_attrs notNull v) e (attrs_ext (c := ⟨n, ty, nn, d⟩) hv hl)
    rw [List.length_append]
    simpa using this

end Verif.Spec.Ddl

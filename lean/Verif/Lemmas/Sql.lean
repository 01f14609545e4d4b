import Verif.Spec.Sql
import Verif.Spec.Helpers

/-!
# Lemmas about reading statements
-/

namespace Verif.Sql

open Verif Verif.Spec Verif.Spec.Sql Verif.Spec.Gen

variable {V : Type}

/-! ## Tokens -/

/-- The tokens of a text, and the state after it. -/
def run (q : Char) : St → List (BSym V) → Option (List (Tok V) × St)
  | s, [] => some ([], s)
  | s, b :: r =>
    match step q s b with
    | some (t, s') => (run q s' r).map fun x => (t ++ x.1, x.2)
    | none => none

theorem run_append (q : Char) (s : St) (a b : List (BSym V)) :
    run q s (a ++ b) = (run q s a).bind fun x => (run q x.2 b).map fun y => (x.1 ++ y.1, y.2) := by
  induction a generalizing s with
  | nil => simp [run]
  | cons c a ih =>
    simp only [List.cons_append, run]
    cases step q s c with
    | none => rfl
    | some x =>
      simp only [ih]
      cases run q x.2 a with
      | none => rfl
      | some y => cases h : run q y.2 b <;> simp [h]

theorem lex_run (q : Char) (s : St) (a : List (BSym V)) :
    lex q s a = (run q s a).bind fun x => (flush x.2).map (x.1 ++ ·) := by
  induction a generalizing s with
  | nil => simp [run, lex]
  | cons c a ih =>
    simp only [lex, run]
    cases step q s c with
    | none => rfl
    | some x =>
      simp only [ih]
      cases run q x.2 a with
      | none => rfl
      | some y => cases h : flush (V := V) y.2 <;> simp [h]

/-- A text that ends between tokens. -/
def Idle (q : Char) (a : List (BSym V)) (t : List (Tok V)) : Prop := run q .idle a = some (t, .idle)

/-- A text that ends with a token, which the next character may still lengthen. -/
def Lexes (q : Char) (a : List (BSym V)) (t : List (Tok V)) : Prop :=
  ∃ t0 s l, run q .idle a = some (t0, s) ∧ flush s = some l ∧ t = t0 ++ l

theorem Lexes.lex {q : Char} {a : List (BSym V)} {t : List (Tok V)} (h : Lexes q a t) : lex q .idle a = some t := by
  obtain ⟨t0, s, l, h1, h2, rfl⟩ := h
  simp [lex_run, h1, h2]

theorem Idle.lexes {q : Char} {a : List (BSym V)} {t : List (Tok V)} (h : Idle q a t) : Lexes q a t :=
  ⟨t, .idle, [], h, rfl, by simp⟩

theorem Idle.append {q : Char} {a b : List (BSym V)} {t u : List (Tok V)} (h : Idle q a t) (hb : Lexes q b u) :
    Lexes q (a ++ b) (t ++ u) := by
  obtain ⟨t0, s, l, h1, h2, rfl⟩ := hb
  refine ⟨t ++ t0, s, l, ?_, h2, by simp⟩
  rw [run_append, h]
  simp [h1]

theorem Idle.comp {q : Char} {a b : List (BSym V)} {t u : List (Tok V)} (h : Idle q a t) (hb : Idle q b u) :
    Idle q (a ++ b) (t ++ u) := by
  unfold Idle at *
  rw [run_append, h]
  simp [hb]

/-- Characters that end a token. -/
def Delim (q c : Char) : Prop := c ≠ q ∧ isWord c = false

theorem step_delim {q c : Char} (hc : Delim q c) {s : St} {l : List (Tok V)} (h : flush s = some l) :
    step q s (.ch c) = some (next q l c) := by
  cases s with
  | idle =>
    have : l = [] := by simpa [flush] using h.symm
    subst this; rfl
  | word w =>
    have : l = [.word w] := by simpa [flush] using h.symm
    subst this; simp [step, hc.2]
  | quoted w => simp [flush] at h
  | closed w => simp [step, hc.1, h]

theorem Lexes.delim {q : Char} {a : List (BSym V)} {t : List (Tok V)} (h : Lexes q a t) {c : Char} (hc : Delim q c)
    {b : List (BSym V)} {u : List (Tok V)} (hb : Lexes q (.ch c :: b) u) : Lexes q (a ++ .ch c :: b) (t ++ u) := by
  obtain ⟨t0, s, l, h1, h2, rfl⟩ := h
  obtain ⟨t1, s', l', h3, h4, rfl⟩ := hb
  have h5 : step q .idle (.ch c : BSym V) = some (next q [] c) := step_delim hc rfl
  simp only [run, h5] at h3
  cases hr : run q (next (V := V) q [] c).2 b with
  | none => simp [hr] at h3
  | some y =>
    rw [hr] at h3
    simp only [Option.map_some, Option.some.injEq, Prod.mk.injEq] at h3
    obtain ⟨rfl, rfl⟩ := h3
    refine ⟨t0 ++ (l ++ (next q [] c).1 ++ y.1), y.2, l', ?_, h4, by simp⟩
    rw [run_append, h1]
    have h6 : (next (V := V) q l c).2 = (next (V := V) q [] c).2 := rfl
    simp only [Option.bind_some, run, step_delim hc h2, h6, hr, Option.map_some]
    simp [next]

theorem Lexes.delim_idle {q : Char} {a : List (BSym V)} {t : List (Tok V)} (h : Lexes q a t) {c : Char} (hc : Delim q c)
    {b : List (BSym V)} {u : List (Tok V)} (hb : Idle q (.ch c :: b) u) : Idle q (a ++ .ch c :: b) (t ++ u) := by
  obtain ⟨t0, s, l, h1, h2, rfl⟩ := h
  have h5 : step q .idle (.ch c : BSym V) = some (next q [] c) := step_delim hc rfl
  unfold Idle at *
  simp only [run, h5] at hb
  cases hr : run q (next (V := V) q [] c).2 b with
  | none => simp [hr] at hb
  | some y =>
    rw [hr] at hb
    simp only [Option.map_some, Option.some.injEq, Prod.mk.injEq] at hb
    obtain ⟨rfl, hy⟩ := hb
    rw [run_append, h1]
    have h6 : (next (V := V) q l c).2 = (next (V := V) q [] c).2 := rfl
    simp only [Option.bind_some, run, step_delim hc h2, h6, hr, Option.map_some, hy]
    simp [next]

theorem delim_space {q : Char} (h : IsQuote q) : Delim q ' ' := by
  rcases h with rfl | rfl <;> exact ⟨by decide, by decide⟩
theorem delim_comma {q : Char} (h : IsQuote q) : Delim q ',' := by
  rcases h with rfl | rfl <;> exact ⟨by decide, by decide⟩
theorem delim_open {q : Char} (h : IsQuote q) : Delim q '(' := by
  rcases h with rfl | rfl <;> exact ⟨by decide, by decide⟩
theorem delim_close {q : Char} (h : IsQuote q) : Delim q ')' := by
  rcases h with rfl | rfl <;> exact ⟨by decide, by decide⟩
theorem delim_end {q : Char} (h : IsQuote q) : Delim q ';' := by
  rcases h with rfl | rfl <;> exact ⟨by decide, by decide⟩

theorem idle_val (q : Char) (v : V) : Idle q [.val v] [.val v] := by simp [Idle, run, step]

/-- Tokens of several texts, with commas between them. -/
def sep : List (List (Tok V)) → List (Tok V)
  | [] => []
  | [x] => x
  | x :: y :: r => x ++ .sym ',' :: sep (y :: r)

theorem comma_cons {α : Type} (f : α → List (BSym V)) (a b : α) (l : List α) :
    comma ((a :: b :: l).map f) = f a ++ .ch ',' :: comma ((b :: l).map f) := by
  simp only [comma, List.map_cons, List.intercalate_cons_cons, List.append_assoc]
  rfl

theorem lexes_comma {q : Char} (hq : IsQuote q) {α : Type} (f : α → List (BSym V)) (tk : α → List (Tok V)) (l : List α)
    (h : ∀ a ∈ l, Lexes q (f a) (tk a)) (hl : l ≠ []) : Lexes q (comma (l.map f)) (sep (l.map tk)) := by
  induction l with
  | nil => exact absurd rfl hl
  | cons a l ih =>
    cases l with
    | nil => simpa [comma, sep] using h a (by simp)
    | cons b l =>
      rw [comma_cons]
      have i := ih (fun x hx => h x (by simp [hx])) (by simp)
      have hc : Idle q ([.ch ','] : List (BSym V)) [.sym ','] := by
        rcases hq with rfl | rfl <;> rfl
      exact (h a (by simp)).delim (delim_comma hq) (hc.append i)

/-! ## Names -/

/-- The text `s` is read as the name `n`. -/
def NameTxt (D : Dialect) (s : String) (n : Name) : Prop :=
  ∃ tok : ∀ V : Type, Tok V, ∀ V : Type, Lexes D.quote (bs s : List (BSym V)) [tok V] ∧
    ∀ r, name D (tok V :: r) = some (n, r)

theorem run_quoted (q : Char) (s w : Name) (h : q ∉ s) :
    run q (.quoted w) (s.map .ch : List (BSym V)) = some ([], .quoted (w ++ s)) := by
  induction s generalizing w with
  | nil => simp [run]
  | cons c s ih =>
    have hc : c ≠ q := fun e => h (by simp [e])
    have := ih (w ++ [c]) (fun hm => h (by simp [hm]))
    simp [run, step, hc, this]

/-- A name in quotes. -/
theorem nameTxt_quoted (D : Dialect) (s : String) (n : Name) (hs : s.toList = D.quote :: (n ++ [D.quote]))
    (h : D.quote ∉ n) (h0 : n ≠ []) : NameTxt D s (D.fold true n) := by
  refine ⟨fun V => .ident n, fun V => ⟨⟨[], .closed n, [.ident n], ?_, by simp [flush, h0], rfl⟩, fun r => rfl⟩⟩
  have e : (bs s : List (BSym V)) = .ch D.quote :: (n.map .ch ++ [.ch D.quote]) := by simp [bs, hs]
  rw [e]
  simp only [run, step, start, if_true]
  rw [run_append, run_quoted D.quote n [] h]
  simp [run, step]

theorem run_word (q : Char) (s w : Name) (h : ∀ c ∈ s, isWord c = true ∧ c ≠ q) :
    run q (.word w) (s.map .ch : List (BSym V)) = some ([], .word (w ++ s)) := by
  induction s generalizing w with
  | nil => simp [run]
  | cons c s ih =>
    have hc := h c (by simp)
    have := ih (w ++ [c]) (fun x hx => h x (by simp [hx]))
    simp [run, step, hc.1, hc.2, this]

theorem nameTxt_plain (D : Dialect) (s : String) (h : Plain D s.toList) : NameTxt D s (D.fold false s.toList) := by
  obtain ⟨h0, h1, h2, h3⟩ := h
  refine ⟨fun V => .word s.toList, fun V => ⟨⟨[], .word s.toList, [.word s.toList], ?_, rfl, rfl⟩, fun r => ?_⟩⟩
  · unfold bs
    generalize s.toList = n at *
    cases n with
    | nil => exact absurd rfl h0
    | cons c n =>
      obtain ⟨a, b, d⟩ := h1 c (by simp)
      have := run_word (V := V) D.quote n [c] (fun x hx => ⟨(h1 x (by simp [hx])).1, (h1 x (by simp [hx])).2.1⟩)
      simp [run, step, start, a, b, d, this]
  · simp [name, h2, h3]

/-! ## Parsing -/

theorem many_sep {α β : Type} (p : List (Tok V) → Option (β × List (Tok V))) (tk : α → List (Tok V)) (val : α → β)
    (l : List α) (hp : ∀ a ∈ l, ∀ r, p (tk a ++ r) = some (val a, r)) (hl : l ≠ []) (r : List (Tok V))
    (hr : sym ',' r = none) (n : Nat) (hn : l.length ≤ n) :
    many p n (sep (l.map tk) ++ r) = some (l.map val, r) := by
  induction l generalizing n with
  | nil => exact absurd rfl hl
  | cons a l ih =>
    obtain ⟨m, rfl⟩ : ∃ m, n = m + 1 := ⟨n - 1, by simp at hn; omega⟩
    have ha := hp a (by simp)
    cases l with
    | nil => simp [sep, many, ha, hr]
    | cons b l =>
      have i := ih (fun x hx => hp x (by simp [hx])) (by simp) m (by simpa using hn)
      simp only [List.map_cons] at i
      simp [sep, many, ha, sym, i]

theorem sep_length {α : Type} (tk : α → List (Tok V)) (l : List α) (h : ∀ a ∈ l, tk a ≠ []) :
    l.length ≤ (sep (l.map tk)).length := by
  induction l with
  | nil => simp
  | cons a l ih =>
    have : 0 < (tk a).length := List.length_pos_iff.2 (h a (by simp))
    have ih := ih (fun x hx => h x (by simp [hx]))
    cases l with
    | nil => simp [sep]; omega
    | cons b l => simp only [List.map_cons, sep, List.length_append, List.length_cons] at ih ⊢; omega

theorem many1_sep {α β : Type} (p : List (Tok V) → Option (β × List (Tok V))) (tk : α → List (Tok V)) (val : α → β)
    (l : List α) (hp : ∀ a ∈ l, ∀ r, p (tk a ++ r) = some (val a, r)) (h0 : ∀ a ∈ l, tk a ≠ []) (hl : l ≠ [])
    (r : List (Tok V)) (hr : sym ',' r = none) : many1 p (sep (l.map tk) ++ r) = some (l.map val, r) := by
  unfold many1
  apply many_sep p tk val l hp hl r hr
  have := sep_length tk l h0
  rw [List.length_append]; omega

/-! ## Statements -/

open Classical in
/-- The token of a name. -/
noncomputable def tokOf (V : Type) (D : Dialect) (s : String) (n : Name) : Tok V :=
  if h : NameTxt D s n then h.choose V else .word []

theorem tokOf_lexes {D : Dialect} {s : String} {n : Name} (h : NameTxt D s n) :
    Lexes D.quote (bs s : List (BSym V)) [tokOf V D s n] := by
  unfold tokOf; rw [dif_pos h]; exact (h.choose_spec V).1

theorem tokOf_name {D : Dialect} {s : String} {n : Name} (h : NameTxt D s n) (r : List (Tok V)) :
    name D (tokOf V D s n :: r) = some (n, r) := by
  unfold tokOf; rw [dif_pos h]; exact (h.choose_spec V).2 r

/-- Fixed text that begins and ends between tokens. -/
structure Lit (V : Type) (q : Char) (s : String) (t : List (Tok V)) : Prop where
  idle : Idle q (bs s) t
  delim : ∃ c r, (bs s : List (BSym V)) = .ch c :: r ∧ Delim q c

theorem Lexes.lit {q : Char} {a : List (BSym V)} {t : List (Tok V)} (h : Lexes q a t) {s : String} {u : List (Tok V)}
    (hs : Lit V q s u) {b : List (BSym V)} {w : List (Tok V)} (hb : Lexes q b w) :
    Lexes q (a ++ (bs s ++ b)) (t ++ (u ++ w)) := by
  obtain ⟨c, r, e, hc⟩ := hs.delim
  have := hs.idle.append hb
  rw [e, List.cons_append] at this ⊢
  exact h.delim hc this

theorem Lexes.lit_end {q : Char} {a : List (BSym V)} {t : List (Tok V)} (h : Lexes q a t) {s : String} {u : List (Tok V)}
    (hs : Lit V q s u) : Lexes q (a ++ bs s) (t ++ u) := by
  have := h.lit hs (b := []) (w := []) ⟨[], .idle, [], rfl, rfl, rfl⟩
  simpa using this

section
variable {q : Char} (hq : IsQuote q)
include hq

theorem lit_open : Lit V q " (" [.sym '('] :=
  ⟨by rcases hq with rfl | rfl <;> rfl, ' ', _, rfl, delim_space hq⟩
theorem lit_values : Lit V q ") VALUES (" [.sym ')', .word "VALUES".toList, .sym '('] :=
  ⟨by rcases hq with rfl | rfl <;> rfl, ')', _, rfl, delim_close hq⟩
theorem lit_end : Lit V q ";" [.sym ';'] :=
  ⟨by rcases hq with rfl | rfl <;> rfl, ';', _, rfl, delim_end hq⟩
theorem lit_returning : Lit V q " RETURNING " [.word "RETURNING".toList] :=
  ⟨by rcases hq with rfl | rfl <;> rfl, ' ', _, rfl, delim_space hq⟩
theorem lit_from : Lit V q " FROM " [.word "FROM".toList] :=
  ⟨by rcases hq with rfl | rfl <;> rfl, ' ', _, rfl, delim_space hq⟩
theorem lit_where : Lit V q " WHERE " [.word "WHERE".toList] :=
  ⟨by rcases hq with rfl | rfl <;> rfl, ' ', _, rfl, delim_space hq⟩
theorem lit_limit : Lit V q " LIMIT 1;" [.word "LIMIT".toList, .word "1".toList, .sym ';'] :=
  ⟨by rcases hq with rfl | rfl <;> rfl, ' ', _, rfl, delim_space hq⟩
theorem lit_set : Lit V q " SET " [.word "SET".toList] :=
  ⟨by rcases hq with rfl | rfl <;> rfl, ' ', _, rfl, delim_space hq⟩
theorem lit_eq : Lit V q " = " [.sym '='] :=
  ⟨by rcases hq with rfl | rfl <;> rfl, ' ', _, rfl, delim_space hq⟩
theorem lit_eq_open : Lit V q ") = (" [.sym ')', .sym '=', .sym '('] :=
  ⟨by rcases hq with rfl | rfl <;> rfl, ')', _, rfl, delim_close hq⟩
theorem lit_close : Lit V q ")" [.sym ')'] :=
  ⟨by rcases hq with rfl | rfl <;> rfl, ')', _, rfl, delim_close hq⟩
theorem idle_insert : Idle q (bs "INSERT INTO " : List (BSym V)) [.word "INSERT".toList, .word "INTO".toList] := by
  rcases hq with rfl | rfl <;> rfl
theorem idle_select : Idle q (bs "SELECT " : List (BSym V)) [.word "SELECT".toList] := by
  rcases hq with rfl | rfl <;> rfl
theorem idle_update : Idle q (bs "UPDATE " : List (BSym V)) [.word "UPDATE".toList] := by
  rcases hq with rfl | rfl <;> rfl
theorem idle_delete : Idle q (bs "DELETE FROM " : List (BSym V)) [.word "DELETE".toList, .word "FROM".toList] := by
  rcases hq with rfl | rfl <;> rfl
theorem idle_open : Idle q (bs "(" : List (BSym V)) [.sym '('] := by
  rcases hq with rfl | rfl <;> rfl

end

/-- Columns with the texts and meanings of their names. -/
structure Cols (D : Dialect) {α : Type} (txt : α → String) (nm : α → Name) (l : List α) : Prop where
  names : ∀ c ∈ l, NameTxt D (txt c) (nm c)
  ne : l ≠ []

section
variable {D : Dialect} (hq : IsQuote D.quote) {α : Type} {txt : α → String} {nm : α → Name} {l : List α}
include hq

theorem Cols.lexes (h : Cols D txt nm l) :
    Lexes D.quote (comma (l.map fun c => bs (txt c)) : List (BSym V)) (sep (l.map fun c => [tokOf V D (txt c) (nm c)])) :=
  lexes_comma hq _ _ l (fun c hc => tokOf_lexes (h.names c hc)) h.ne

omit hq in
theorem Cols.parse (h : Cols D txt nm l) (r : List (Tok V)) (hr : sym ',' r = none) :
    many1 (name D) (sep (l.map fun c => [tokOf V D (txt c) (nm c)]) ++ r) = some (l.map nm, r) :=
  many1_sep _ _ _ l (fun c hc r => tokOf_name (h.names c hc) r) (by simp) h.ne r hr

theorem vals_lexes (val : α → V) (hl : l ≠ []) :
    Lexes D.quote (comma (l.map fun c => [.val (val c)])) (sep (l.map fun c => [.val (val c)])) :=
  lexes_comma hq _ _ l (fun c _ => (idle_val _ (val c)).lexes) hl

omit hq in
theorem vals_parse (val : α → V) (hl : l ≠ []) (r : List (Tok V)) (hr : sym ',' r = none) :
    many1 value (sep (l.map fun c => [.val (val c)]) ++ r) = some (l.map val, r) :=
  many1_sep _ _ _ l (fun c _ r => rfl) (by simp) hl r hr

theorem sets_lexes (h : Cols D txt nm l) (val : α → V) :
    Lexes D.quote (comma (l.map fun c => bs (txt c) ++ bs " = " ++ [.val (val c)]))
      (sep (l.map fun c => [tokOf V D (txt c) (nm c), .sym '=', .val (val c)])) :=
  lexes_comma hq _ _ l (fun c hc => by
    rw [List.append_assoc]
    exact (tokOf_lexes (h.names c hc)).lit (lit_eq hq) (idle_val _ (val c)).lexes) h.ne

omit hq in
theorem equal_parse {c : α} (h : NameTxt D (txt c) (nm c)) (v : V) (r : List (Tok V)) :
    equal D (tokOf V D (txt c) (nm c) :: .sym '=' :: .val v :: r) = some ((nm c, v), r) := by
  simp [equal, tokOf_name h, sym, value]

omit hq in
theorem sets_parse (h : Cols D txt nm l) (val : α → V) (r : List (Tok V)) (hr : sym ',' r = none) :
    many1 (equal D) (sep (l.map fun c => [tokOf V D (txt c) (nm c), .sym '=', .val (val c)]) ++ r) =
      some (l.map fun c => (nm c, val c), r) :=
  many1_sep _ _ _ l (fun c hc r => equal_parse (h.names c hc) (val c) r) (by simp) h.ne r hr

omit hq in
theorem tuple_parse (h : Cols D txt nm l) (val : α → V) (r : List (Tok V)) :
    Spec.Sql.cond D ([.sym '('] ++ (sep (l.map fun c => [tokOf V D (txt c) (nm c)]) ++ ([.sym ')', .sym '=', .sym '('] ++
      (sep (l.map fun c => [.val (val c)]) ++ [.sym ')']))) ++ r) = some (l.map fun c => (nm c, val c), r) := by
  have h1 := h.parse (V := V)
  have h2 := vals_parse (V := V) val h.ne
  have z : (l.map nm).zip (l.map val) = l.map fun c => (nm c, val c) := by simp [List.zip_map']
  simp [Spec.Sql.cond, sym, h1, h2, z]

/-- How conditions on columns are written. -/
def condB (txt : α → String) (val : α → V) : List α → List (BSym V)
  | [c] => bs (txt c) ++ bs " = " ++ [.val (val c)]
  | cs => bs "(" ++ comma (cs.map fun c => bs (txt c)) ++ bs ") = (" ++ comma (cs.map fun c => [.val (val c)]) ++ bs ")"

theorem cond_reads (h : Cols D txt nm l) (val : α → V) :
    ∃ t, Lexes D.quote (condB txt val l) t ∧ ∀ r, cond D (t ++ r) = some (l.map fun c => (nm c, val c), r) := by
  match l, h with
  | [], h => exact absurd rfl h.ne
  | [c], h =>
    have hc := h.names c (by simp)
    refine ⟨[tokOf V D (txt c) (nm c), .sym '=', .val (val c)], ?_, fun r => ?_⟩
    · have := sets_lexes hq h val
      simpa [comma, sep, condB] using this
    · have h1 : sym '(' (tokOf V D (txt c) (nm c) :: .sym '=' :: .val (val c) :: r) = none := by
        have := tokOf_name hc (.sym '=' :: .val (val c) :: r : List (Tok V))
        cases e : tokOf V D (txt c) (nm c) with
        | sym d => rw [e] at this; simp [name] at this
        | _ => rfl
      have h2 := equal_parse hc (val c) r
      simp only [List.cons_append, List.nil_append] at *
      simp [Spec.Sql.cond, h1, h2]
  | a :: b :: l, h =>
    refine ⟨[.sym '('] ++ (sep ((a :: b :: l).map fun c => [tokOf V D (txt c) (nm c)]) ++ ([.sym ')', .sym '=', .sym '('] ++
      (sep ((a :: b :: l).map fun c => [.val (val c)]) ++ [.sym ')']))), ?_, fun r => ?_⟩
    · unfold condB
      simp only [List.append_assoc]
      exact (idle_open hq).append ((h.lexes hq).lit (lit_eq_open hq)
        ((vals_lexes hq val h.ne).lit_end (lit_close hq)))
    · exact tuple_parse h val r

variable {tb : String} {tn : Name} (ht : NameTxt D tb tn)
include ht

theorem read_insert (h : Cols D txt nm l) (val : α → V) :
    Spec.Sql.read D (bs "INSERT INTO " ++ bs tb ++ bs " (" ++ comma (l.map fun c => bs (txt c)) ++ bs ") VALUES (" ++
      comma (l.map fun c => [.val (val c)]) ++ bs ")" ++ bs ";") = some (.insert tn (l.map nm) (l.map val) []) := by
  have hl := ((idle_insert (V := V) hq).append ((tokOf_lexes ht).lit (lit_open hq) ((h.lexes hq).lit (lit_values hq)
    ((vals_lexes hq val h.ne).lit (lit_close hq) (lit_end hq).idle.lexes)))).lex
  simp only [List.append_assoc]
  have h1 := h.parse (V := V)
  have h2 := vals_parse (V := V) val h.ne
  simp only [Spec.Sql.read, hl, Option.bind_some, stmt]
  simp [insert?, kw, upper, sym, tokOf_name ht, h1, h2, done]

theorem read_insert_returning (h : Cols D txt nm l) (val : α → V) {r : List α} (hr : Cols D txt nm r) :
    Spec.Sql.read D (bs "INSERT INTO " ++ bs tb ++ bs " (" ++ comma (l.map fun c => bs (txt c)) ++ bs ") VALUES (" ++
      comma (l.map fun c => [.val (val c)]) ++ bs ")" ++ (bs " RETURNING " ++ comma (r.map fun c => bs (txt c))) ++ bs ";") =
      some (.insert tn (l.map nm) (l.map val) (r.map nm)) := by
  have hl := ((idle_insert (V := V) hq).append ((tokOf_lexes ht).lit (lit_open hq) ((h.lexes hq).lit (lit_values hq)
    ((vals_lexes hq val h.ne).lit (lit_close hq) ((lit_returning hq).idle.append
      ((hr.lexes hq).lit_end (lit_end hq))))))).lex
  simp only [List.append_assoc]
  have h1 := h.parse (V := V)
  have h2 := vals_parse (V := V) val h.ne
  have h3 := hr.parse (V := V)
  simp only [Spec.Sql.read, hl, Option.bind_some, stmt]
  simp [insert?, kw, upper, sym, tokOf_name ht, h1, h2, h3, done]

theorem read_select (h : Cols D txt nm l) {k : List α} (hk : Cols D txt nm k) (val : α → V) :
    Spec.Sql.read D (bs "SELECT " ++ comma (l.map fun c => bs (txt c)) ++ bs " FROM " ++ bs tb ++ bs " WHERE " ++
      condB txt val k ++ bs " LIMIT 1;") = some (.select (l.map nm) tn (k.map fun c => (nm c, val c))) := by
  obtain ⟨t, hc, hp⟩ := cond_reads hq hk val
  have hl := ((idle_select (V := V) hq).append ((h.lexes hq).lit (lit_from hq) ((tokOf_lexes ht).lit (lit_where hq)
    (hc.lit_end (lit_limit hq))))).lex
  simp only [List.append_assoc]
  have h1 := fun w r => h.parse (V := V) (.word w :: r) rfl
  simp only [Spec.Sql.read, hl, Option.bind_some, stmt]
  simp [insert?, select?, kw, upper, sym, tokOf_name ht, h1, hp, done]

theorem read_update (h : Cols D txt nm l) {k : List α} (hk : Cols D txt nm k) (val : α → V) :
    Spec.Sql.read D (bs "UPDATE " ++ bs tb ++ bs " SET " ++ comma (l.map fun c => bs (txt c) ++ bs " = " ++ [.val (val c)]) ++
      bs " WHERE " ++ condB txt val k ++ bs ";") =
      some (.update tn (l.map fun c => (nm c, val c)) (k.map fun c => (nm c, val c))) := by
  obtain ⟨t, hc, hp⟩ := cond_reads hq hk val
  have hl := ((idle_update (V := V) hq).append ((tokOf_lexes ht).lit (lit_set hq) ((sets_lexes hq h val).lit (lit_where hq)
    (hc.lit_end (lit_end hq))))).lex
  simp only [List.append_assoc] at hl ⊢
  have h1 := fun w r => sets_parse (V := V) h val (.word w :: r) rfl
  simp only [Spec.Sql.read, hl, Option.bind_some, stmt]
  simp [insert?, select?, update?, kw, upper, sym, tokOf_name ht, h1, hp, done]

theorem read_delete {k : List α} (hk : Cols D txt nm k) (val : α → V) :
    Spec.Sql.read D (bs "DELETE FROM " ++ bs tb ++ bs " WHERE " ++ condB txt val k ++ bs ";") =
      some (.delete tn (k.map fun c => (nm c, val c))) := by
  obtain ⟨t, hc, hp⟩ := cond_reads hq hk val
  have hl := ((idle_delete (V := V) hq).append ((tokOf_lexes ht).lit (lit_where hq)
    (hc.lit_end (lit_end hq)))).lex
  simp only [List.append_assoc]
  simp only [Spec.Sql.read, hl, Option.bind_some, stmt]
  simp [insert?, select?, update?, delete?, kw, upper, sym, tokOf_name ht, hp, done]

end

end Verif.Sql

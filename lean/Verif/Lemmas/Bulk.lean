import Verif.Spec.Bulk
import Verif.Lemmas.Store

/-!
# Lemmas about reading inserts of several rows and upserts
-/

namespace Verif.Sql

open Verif Verif.Spec Verif.Spec.Sql Verif.Spec.Gen Verif.Spec.Helpers

variable {V : Type}

section
variable {q : Char} (hq : IsQuote q)
include hq

theorem lit_values' : Lit V q ") VALUES " [.sym ')', .word "VALUES".toList] :=
  ⟨by rcases hq with rfl | rfl <;> rfl, ')', _, rfl, delim_close hq⟩
theorem lit_conflict : Lit V q " ON CONFLICT(" [.word "ON".toList, .word "CONFLICT".toList, .sym '('] :=
  ⟨by rcases hq with rfl | rfl <;> rfl, ' ', _, rfl, delim_space hq⟩
theorem lit_do_update : Lit V q " DO UPDATE SET " [.word "DO".toList, .word "UPDATE".toList, .word "SET".toList] :=
  ⟨by rcases hq with rfl | rfl <;> rfl, ' ', _, rfl, delim_space hq⟩
theorem lit_excluded : Lit V q " = EXCLUDED." [.sym '=', .word "EXCLUDED".toList, .sym '.'] :=
  ⟨by rcases hq with rfl | rfl <;> rfl, ' ', _, rfl, delim_space hq⟩
theorem lit_duplicate : Lit V q " ON DUPLICATE KEY UPDATE "
    [.word "ON".toList, .word "DUPLICATE".toList, .word "KEY".toList, .word "UPDATE".toList] :=
  ⟨by rcases hq with rfl | rfl <;> rfl, ' ', _, rfl, delim_space hq⟩
theorem lit_eq_values : Lit V q " =VALUES(" [.sym '=', .word "VALUES".toList, .sym '('] :=
  ⟨by rcases hq with rfl | rfl <;> rfl, ' ', _, rfl, delim_space hq⟩
theorem lit_eq_values' : Lit V q "=VALUES(" [.sym '=', .word "VALUES".toList, .sym '('] :=
  ⟨by rcases hq with rfl | rfl <;> rfl, '=', _, rfl, by rcases hq with rfl | rfl <;> exact ⟨by decide, by decide⟩⟩
theorem lexes_nothing : Lexes q (bs " DO NOTHING" : List (BSym V)) [.word "DO".toList, .word "NOTHING".toList] := by
  rcases hq with rfl | rfl <;> exact ⟨[.word "DO".toList], .word "NOTHING".toList, _, rfl, rfl, rfl⟩
theorem idle_ignore : Idle q (bs "INSERT IGNORE INTO " : List (BSym V))
    [.word "INSERT".toList, .word "IGNORE".toList, .word "INTO".toList] := by
  rcases hq with rfl | rfl <;> rfl

end

/-- Text that can follow a token. -/
def Tail (q : Char) (b : List (BSym V)) (t : List (Tok V)) : Prop := Lexes q b t ∧ ∃ c r, b = .ch c :: r ∧ Delim q c

theorem Lexes.tail {q : Char} {a b : List (BSym V)} {t u : List (Tok V)} (h : Lexes q a t) (hb : Tail q b u) :
    Lexes q (a ++ b) (t ++ u) := by
  obtain ⟨h1, c, r, rfl, hc⟩ := hb
  exact h.delim hc h1

theorem Lit.tail {q : Char} {s : String} {t : List (Tok V)} (h : Lit V q s t) : Tail q (bs s) t :=
  ⟨h.idle.lexes, h.delim⟩

theorem Lit.append {q : Char} {s : String} {t : List (Tok V)} (h : Lit V q s t) {b : List (BSym V)} {u : List (Tok V)}
    (hb : Lexes q b u) : Tail q (bs s ++ b) (t ++ u) := by
  refine ⟨h.idle.append hb, ?_⟩
  obtain ⟨c, r, e, hc⟩ := h.delim
  exact ⟨c, r ++ b, by rw [e]; rfl, hc⟩

/-- The tokens of a row. -/
def rowTok (vs : List V) : List (Tok V) := [.sym '('] ++ (sep (vs.map fun v => [.val v]) ++ [.sym ')'])

theorem row_lexes {q : Char} (hq : IsQuote q) {vs : List V} (h : vs ≠ []) : Lexes q (rowB vs) (rowTok vs) := by
  unfold rowB rowTok
  rw [List.append_assoc]
  exact (idle_open hq).append
    ((vals_lexes (D := ⟨q, fun _ n => n, fun _ => false⟩) hq (fun v => v) h).lit_end (lit_close hq))

theorem valueRow_row {vs : List V} (h : vs ≠ []) (r : List (Tok V)) : valueRow (rowTok vs ++ r) = some (vs, r) := by
  have h2 := vals_parse (V := V) (fun v => v) h
  unfold rowTok valueRow
  simp [sym, h2]

section
variable {D : Dialect} (hq : IsQuote D.quote) {α : Type} {txt : α → String} {nm : α → Name} {l : List α}
  {tb : String} {tn : Name}

/-- The verb of an insert. -/
def verb (ign : Bool) : String := if ign then "INSERT IGNORE INTO " else "INSERT INTO "

theorem namesB_map (l : List α) : (namesB (l.map txt) : List (BSym V)) = comma (l.map fun c => bs (txt c)) := by
  simp [namesB, Function.comp_def]

include hq in
/-- What is read up to the rows, and what remains. -/
theorem read_bulk (ru : Rules) (ign : Bool) (hign : ign = true → ru = .onDuplicate) (ht : NameTxt D tb tn)
    (h : Cols D txt nm l) {rows : List (List V)} (hr : rows ≠ []) (hv : ∀ vs ∈ rows, vs ≠ []) {tl : List (BSym V)}
    {tt : List (Tok V)} (htl : Tail D.quote tl tt) (hcm : sym ',' tt = none) :
    readBulk ru D (insertRowsB (verb ign) tb (l.map txt) rows ++ tl) =
      (conflict? ru D ign tt).bind fun x => (returning? ru D x.2).bind fun y =>
        (finish y.2).map fun _ => ⟨tn, l.map nm, rows, x.1, y.1⟩ := by
  have hrl := lexes_comma hq rowB rowTok rows (fun vs hvs => row_lexes hq (hv vs hvs)) hr
  have hrest := (tokOf_lexes (V := V) ht).lit (lit_open hq) ((h.lexes hq).lit (lit_values' hq) (hrl.tail htl))
  have h1 := h.parse (V := V)
  have h2 : many1 valueRow (sep (rows.map rowTok) ++ tt) = some (rows, tt) := by
    have := many1_sep valueRow rowTok (fun vs => vs) rows (fun vs hvs r => valueRow_row (hv vs hvs) r)
      (fun vs _ => by simp [rowTok]) hr tt hcm
    simpa using this
  unfold readBulk insertRowsB
  rw [namesB_map]
  cases ign with
  | false =>
    have hl := ((idle_insert (V := V) hq).append hrest).lex
    simp only [verb, Bool.false_eq_true, if_false, List.append_assoc]
    rw [hl]
    have e : ∀ r : List (Tok V), ignore? ru (.word ['I', 'N', 'T', 'O'] :: r) = (false, .word ['I', 'N', 'T', 'O'] :: r) := by
      intro r; cases ru <;> rfl
    simp [bulk?, Spec.Sql.kw, upper, e, sym, tokOf_name ht, h1, h2]
    cases conflict? ru D false tt with
    | none => rfl
    | some x =>
      simp only [Option.bind_some]
      cases returning? ru D x.2 with
      | none => rfl
      | some y => cases h : finish y.2 <;> simp [h]
  | true =>
    have := hign rfl
    subst this
    have hl := ((idle_ignore (V := V) hq).append hrest).lex
    simp only [verb, if_true, List.append_assoc]
    rw [hl]
    simp [bulk?, Spec.Sql.kw, upper, ignore?, sym, tokOf_name ht, h1, h2]
    cases conflict? .onDuplicate D true tt with
    | none => rfl
    | some x =>
      simp only [Option.bind_some]
      cases returning? .onDuplicate D x.2 with
      | none => rfl
      | some y => cases h : finish y.2 <;> simp [h]

include hq in
theorem read_plain (ru : Rules) (ign : Bool) (hign : ign = true → ru = .onDuplicate) (ht : NameTxt D tb tn)
    (h : Cols D txt nm l) {rows : List (List V)} (hr : rows ≠ []) (hv : ∀ vs ∈ rows, vs ≠ []) :
    readBulk ru D (insertRowsB (verb ign) tb (l.map txt) rows ++ bs ";") =
      some ⟨tn, l.map nm, rows, if ign then .skip none else .error, []⟩ := by
  rw [read_bulk hq ru ign hign ht h hr hv (lit_end hq).tail rfl]
  cases ru <;> cases ign <;> rfl

include hq in
theorem returning_tail {r : List α} (hr : Cols D txt nm r) :
    ∃ t : List (Tok V), Tail D.quote (returningB (r.map txt)) (.word "RETURNING".toList :: t) ∧
      returning? .onConflict D (.word "RETURNING".toList :: t) = some (r.map nm, [.sym ';']) := by
  refine ⟨sep (r.map fun c => [tokOf V D (txt c) (nm c)]) ++ [.sym ';'], ?_, ?_⟩
  · have := (lit_returning (V := V) hq).append ((hr.lexes hq).lit_end (lit_end hq))
    unfold returningB
    rw [namesB_map, List.append_assoc]
    exact this
  · have := hr.parse (V := V) [.sym ';'] rfl
    simp [returning?, Spec.Sql.kw, upper, this]

include hq in
theorem read_plain_returning (ht : NameTxt D tb tn) (h : Cols D txt nm l) {rows : List (List V)} (hr : rows ≠ [])
    (hv : ∀ vs ∈ rows, vs ≠ []) {ret : List α} (hret : Cols D txt nm ret) :
    readBulk .onConflict D (insertRowsB (verb false) tb (l.map txt) rows ++ returningB (ret.map txt)) =
      some ⟨tn, l.map nm, rows, .error, ret.map nm⟩ := by
  obtain ⟨t, h1, h2⟩ := returning_tail (V := V) hq hret
  rw [read_bulk hq .onConflict false (by simp) ht h hr hv h1 rfl]
  have e : conflict? .onConflict D false (.word "RETURNING".toList :: t) = some (.error, .word "RETURNING".toList :: t) := rfl
  rw [e]
  simp only [Option.bind_some, h2]
  rfl

include hq in
theorem excluded_lexes (h : Cols D txt nm l) : Lexes D.quote (excludedB (l.map txt) : List (BSym V))
    (sep (l.map fun c => [tokOf V D (txt c) (nm c), .sym '=', .word "EXCLUDED".toList, .sym '.', tokOf V D (txt c) (nm c)])) := by
  have e : (excludedB (l.map txt) : List (BSym V)) = comma (l.map fun c => bs (txt c) ++ (bs " = EXCLUDED." ++ bs (txt c))) := by
    simp [excludedB, Function.comp_def]
  rw [e]
  exact lexes_comma hq _ _ l (fun c hc =>
    (tokOf_lexes (h.names c hc)).lit (lit_excluded hq) (tokOf_lexes (h.names c hc))) h.ne

theorem excluded_parse (h : Cols D txt nm l) (r : List (Tok V)) (hr : sym ',' r = none) :
    many1 (excluded D) (sep (l.map fun c => [tokOf V D (txt c) (nm c), .sym '=', .word "EXCLUDED".toList, .sym '.',
      tokOf V D (txt c) (nm c)]) ++ r) = some (l.map nm, r) :=
  many1_sep _ _ _ l (fun c hc r => by
    simp [excluded, tokOf_name (h.names c hc), sym, Spec.Sql.kw, upper]) (by simp) h.ne r hr

include hq in
/-- From `ON CONFLICT` on. -/
theorem read_conflict {βs : Type} {ktxt : βs → String} {knm : βs → Name} {k : List βs} (ht : NameTxt D tb tn)
    (h : Cols D txt nm l) {rows : List (List V)} (hr : rows ≠ []) (hv : ∀ vs ∈ rows, vs ≠ []) (hk : Cols D ktxt knm k)
    {upd : List α} (hu : Cols D txt nm upd) {ret : List α} (hret : Cols D txt nm ret) (nothing : Bool) :
    readBulk .onConflict D (insertRowsB (verb false) tb (l.map txt) rows ++ (bs " ON CONFLICT(" ++ namesB (k.map ktxt) ++ bs ")" ++
        (if nothing then bs " DO NOTHING" else bs " DO UPDATE SET " ++ excludedB (upd.map txt)) ++ returningB (ret.map txt))) =
      some ⟨tn, l.map nm, rows, if nothing then .skip (some (k.map knm)) else .update (some (k.map knm)) (upd.map nm),
        ret.map nm⟩ := by
  obtain ⟨t, h1, h2⟩ := returning_tail (V := V) hq hret
  rw [namesB_map]
  have hp := hk.parse (V := V)
  cases nothing with
  | true =>
    have htl := (lit_conflict (V := V) hq).append ((hk.lexes hq).lit (lit_close hq) ((lexes_nothing hq).tail h1))
    simp only [if_true, List.append_assoc]
    rw [read_bulk hq .onConflict false (by simp) ht h hr hv htl rfl]
    have e : conflict? .onConflict D false ([.word "ON".toList, .word "CONFLICT".toList, .sym '('] ++
        (sep (k.map fun c => [tokOf V D (ktxt c) (knm c)]) ++ ([.sym ')'] ++ ([.word "DO".toList, .word "NOTHING".toList] ++
          .word "RETURNING".toList :: t)))) = some (.skip (some (k.map knm)), .word "RETURNING".toList :: t) := by
      simp [conflict?, Spec.Sql.kw, upper, sym, hp]
    rw [e]
    simp only [Option.bind_some, h2]
    rfl
  | false =>
    have hup := fun r => excluded_parse (V := V) hu (.word "RETURNING".toList :: r) rfl
    have htl := (lit_conflict (V := V) hq).append ((hk.lexes hq).lit (lit_close hq)
      ((lit_do_update hq).idle.append ((excluded_lexes hq hu).tail h1)))
    simp only [Bool.false_eq_true, if_false, List.append_assoc]
    rw [read_bulk hq .onConflict false (by simp) ht h hr hv htl rfl]
    have e : conflict? .onConflict D false ([.word "ON".toList, .word "CONFLICT".toList, .sym '('] ++
        (sep (k.map fun c => [tokOf V D (ktxt c) (knm c)]) ++ ([.sym ')'] ++
          ([.word "DO".toList, .word "UPDATE".toList, .word "SET".toList] ++
          (sep (upd.map fun c => [tokOf V D (txt c) (nm c), .sym '=', .word "EXCLUDED".toList, .sym '.',
            tokOf V D (txt c) (nm c)]) ++ .word "RETURNING".toList :: t))))) =
        some (.update (some (k.map knm)) (upd.map nm), .word "RETURNING".toList :: t) := by
      simp [conflict?, Spec.Sql.kw, upper, sym, hp] at hup ⊢
      simp [hup]
    rw [e]
    simp only [Option.bind_some, h2]
    rfl

include hq in
theorem valuesOf_lexes (h : Cols D txt nm l) {eq : String} (he : Lit V D.quote eq [.sym '=', .word "VALUES".toList, .sym '(']) :
    Lexes D.quote (comma ((l.map txt).map fun c => bs c ++ bs eq ++ bs c ++ bs ")") : List (BSym V))
    (sep (l.map fun c => [tokOf V D (txt c) (nm c), .sym '=', .word "VALUES".toList, .sym '(', tokOf V D (txt c) (nm c),
      .sym ')'])) := by
  have e : (comma ((l.map txt).map fun c => bs c ++ bs eq ++ bs c ++ bs ")") : List (BSym V)) =
      comma (l.map fun c => bs (txt c) ++ (bs eq ++ (bs (txt c) ++ bs ")"))) := by
    simp [Function.comp_def]
  rw [e]
  exact lexes_comma hq _ _ l (fun c hc =>
    (tokOf_lexes (h.names c hc)).lit he ((tokOf_lexes (h.names c hc)).lit_end (lit_close hq))) h.ne

theorem valuesOf_parse (h : Cols D txt nm l) (r : List (Tok V)) (hr : sym ',' r = none) :
    many1 (valuesOf D) (sep (l.map fun c => [tokOf V D (txt c) (nm c), .sym '=', .word "VALUES".toList, .sym '(',
      tokOf V D (txt c) (nm c), .sym ')']) ++ r) = some (l.map nm, r) :=
  many1_sep _ _ _ l (fun c hc r => by
    simp [valuesOf, tokOf_name (h.names c hc), sym, Spec.Sql.kw, upper]) (by simp) h.ne r hr

include hq in
/-- From `ON DUPLICATE KEY` on. -/
theorem read_duplicate (ht : NameTxt D tb tn) (h : Cols D txt nm l) {rows : List (List V)} (hr : rows ≠ [])
    (hv : ∀ vs ∈ rows, vs ≠ []) {upd : List α} (hu : Cols D txt nm upd) {eq : String}
    (he : Lit V D.quote eq [.sym '=', .word "VALUES".toList, .sym '(']) (semi : Bool) :
    readBulk .onDuplicate D (insertRowsB (verb false) tb (l.map txt) rows ++ (onDuplicateB eq (upd.map txt) ++
        if semi then bs ";" else [])) =
      some ⟨tn, l.map nm, rows, .update none (upd.map nm), []⟩ := by
  have hup := fun r => valuesOf_parse (V := V) hu r
  have hx := valuesOf_lexes (V := V) hq hu he
  have hx' : Lexes D.quote (comma ((upd.map txt).map fun c => bs c ++ bs eq ++ bs c ++ bs ")") ++ (if semi then bs ";" else []))
      (sep (upd.map fun c => [tokOf V D (txt c) (nm c), .sym '=', .word "VALUES".toList, .sym '(', tokOf V D (txt c) (nm c),
        .sym ')']) ++ if semi then [.sym ';'] else []) := by
    cases semi with
    | false => simpa using hx
    | true => exact hx.lit_end (lit_end hq)
  have htl := (lit_duplicate (V := V) hq).append hx'
  unfold onDuplicateB
  rw [List.append_assoc, read_bulk hq .onDuplicate false (by simp) ht h hr hv htl rfl]
  have hs : sym ',' (if semi then [.sym ';'] else [] : List (Tok V)) = none := by cases semi <;> rfl
  have e : conflict? .onDuplicate D false ([.word "ON".toList, .word "DUPLICATE".toList, .word "KEY".toList,
      .word "UPDATE".toList] ++ (sep (upd.map fun c => [tokOf V D (txt c) (nm c), .sym '=', .word "VALUES".toList, .sym '(',
        tokOf V D (txt c) (nm c), .sym ')']) ++ if semi then [.sym ';'] else [])) =
      some (.update none (upd.map nm), if semi then [.sym ';'] else []) := by
    have := hup _ hs
    simp [conflict?, Spec.Sql.kw, upper] at this ⊢
    simp [this]
  rw [e]
  cases semi <;> rfl

/-! ## Statements that are refused -/

theorem sym_name {s : String} {n : Name} (h : NameTxt D s n) (c : Char) (r : List (Tok V)) :
    sym c (tokOf V D s n :: r) = none := by
  have := tokOf_name (V := V) h r
  cases e : tokOf V D s n with
  | sym x => rw [e] at this; simp [name] at this
  | _ => rfl

include hq in
/-- An update list of any length. -/
theorem duplicate_tail {upd : List α} (hu : ∀ c ∈ upd, NameTxt D (txt c) (nm c)) {eq : String}
    (he : Lit V D.quote eq [.sym '=', .word "VALUES".toList, .sym '(']) (semi : Bool) :
    ∃ tt : List (Tok V), Tail D.quote (onDuplicateB eq (upd.map txt) ++ if semi then bs ";" else [])
      ([.word "ON".toList, .word "DUPLICATE".toList, .word "KEY".toList, .word "UPDATE".toList] ++ tt) ∧
      (upd = [] → many1 (valuesOf D) tt = none) := by
  by_cases h0 : upd = []
  · subst h0
    cases semi with
    | true =>
      refine ⟨[.sym ';'], ?_, fun _ => rfl⟩
      have := (lit_duplicate (V := V) hq).append (lit_end hq).idle.lexes
      simpa [onDuplicateB, comma, List.intercalate] using this
    | false =>
      refine ⟨[], ?_, fun _ => rfl⟩
      have := (lit_duplicate (V := V) hq).tail
      simpa [onDuplicateB, comma, List.intercalate] using this
  · have hx := valuesOf_lexes (V := V) hq ⟨hu, h0⟩ he
    refine ⟨sep (upd.map fun c => [tokOf V D (txt c) (nm c), .sym '=', .word "VALUES".toList, .sym '(', tokOf V D (txt c) (nm c),
        .sym ')']) ++ if semi then [.sym ';'] else [], ?_, fun h => absurd h h0⟩
    unfold onDuplicateB
    rw [List.append_assoc]
    apply (lit_duplicate (V := V) hq).append
    cases semi with
    | false => simpa using hx
    | true => exact hx.lit_end (lit_end hq)

include hq in
/-- PostgreSQL and SQLite know no `ON DUPLICATE KEY`; MySQL wants a list after it. -/
theorem refused_duplicate (ru : Rules) (ht : NameTxt D tb tn) (h : Cols D txt nm l) {rows : List (List V)} (hr : rows ≠ [])
    (hv : ∀ vs ∈ rows, vs ≠ []) {upd : List α} (hu : ∀ c ∈ upd, NameTxt D (txt c) (nm c)) {eq : String}
    (he : Lit V D.quote eq [.sym '=', .word "VALUES".toList, .sym '(']) (semi : Bool) (hru : ru = .onConflict ∨ upd = []) :
    readBulk ru D (insertRowsB (verb false) tb (l.map txt) rows ++ (onDuplicateB eq (upd.map txt) ++
        if semi then bs ";" else [])) = none := by
  obtain ⟨tt, htl, hm⟩ := duplicate_tail (V := V) hq hu he semi
  rw [read_bulk hq ru false (by simp) ht h hr hv htl rfl]
  have e : conflict? ru D false ([.word "ON".toList, .word "DUPLICATE".toList, .word "KEY".toList,
      .word "UPDATE".toList] ++ tt) = none := by
    cases ru with
    | onConflict => rfl
    | onDuplicate =>
      have := hm (hru.resolve_left (by simp))
      simp [conflict?, Spec.Sql.kw, upper, this]
  rw [e]
  rfl

include hq in
/-- PostgreSQL and SQLite know no `INSERT IGNORE`. -/
theorem refused_ignore (ht : NameTxt D tb tn) (h : Cols D txt nm l) {rows : List (List V)} (hr : rows ≠ [])
    (hv : ∀ vs ∈ rows, vs ≠ []) : readBulk .onConflict D (insertRowsB (verb true) tb (l.map txt) rows ++ bs ";") = none := by
  have hrl := lexes_comma hq rowB rowTok rows (fun vs hvs => row_lexes hq (hv vs hvs)) hr
  have hrest := (tokOf_lexes (V := V) ht).lit (lit_open hq) ((h.lexes hq).lit (lit_values' hq) (hrl.tail (lit_end hq).tail))
  have hl := ((idle_ignore (V := V) hq).append hrest).lex
  unfold readBulk insertRowsB
  rw [namesB_map]
  simp only [verb, if_true, List.append_assoc]
  rw [hl]
  simp [bulk?, Spec.Sql.kw, upper, ignore?]

include hq in
/-- PostgreSQL wants something after `DO UPDATE SET`. -/
theorem refused_conflict {βs : Type} {ktxt : βs → String} {knm : βs → Name} {k : List βs} (ht : NameTxt D tb tn)
    (h : Cols D txt nm l) {rows : List (List V)} (hr : rows ≠ []) (hv : ∀ vs ∈ rows, vs ≠ []) (hk : Cols D ktxt knm k)
    {ret : List α} (hret : Cols D txt nm ret) :
    readBulk .onConflict D (insertRowsB (verb false) tb (l.map txt) rows ++ (bs " ON CONFLICT(" ++ namesB (k.map ktxt) ++ bs ")" ++
        (bs " DO UPDATE SET " ++ excludedB []) ++ returningB (ret.map txt))) = none := by
  have h1 := (lit_returning (V := V) hq).append ((hret.lexes hq).lit_end (lit_end hq))
  have hp := hk.parse (V := V)
  have e0 : (excludedB [] : List (BSym V)) = [] := rfl
  unfold returningB
  rw [namesB_map, namesB_map, e0, List.append_nil]
  have htl := (lit_conflict (V := V) hq).append ((hk.lexes hq).lit (lit_close hq) ((lit_do_update hq).idle.append h1.1))
  simp only [List.append_assoc]
  rw [read_bulk hq .onConflict false (by simp) ht h hr hv htl rfl]
  obtain ⟨a, m, rfl⟩ := List.exists_cons_of_ne_nil hret.ne
  have hs : ∃ r : List (Tok V), sep ((a :: m).map fun c => [tokOf V D (txt c) (nm c)]) = tokOf V D (txt a) (nm a) :: r := by
    cases m <;> exact ⟨_, rfl⟩
  obtain ⟨r, hs⟩ := hs
  have hx : ∀ x, many1 (excluded D) (.word "RETURNING".toList :: (tokOf V D (txt a) (nm a) :: x)) = none := by
    intro x
    have := sym_name (V := V) (hret.names a (by simp)) '=' x
    have h0 : excluded D (.word "RETURNING".toList :: (tokOf V D (txt a) (nm a) :: x)) = none := by
      unfold excluded
      cases e : name D (.word "RETURNING".toList :: (tokOf V D (txt a) (nm a) :: x)) with
      | none => rfl
      | some y =>
        simp only [name] at e
        split at e
        · simp at e
        · cases e
          simp [this]
    simp only [many1, List.length_cons, many, h0]
  have e : conflict? .onConflict D false ([.word "ON".toList, .word "CONFLICT".toList, .sym '('] ++
      (sep (k.map fun c => [tokOf V D (ktxt c) (knm c)]) ++ ([.sym ')'] ++
        ([.word "DO".toList, .word "UPDATE".toList, .word "SET".toList] ++
        ([.word "RETURNING".toList] ++ (sep ((a :: m).map fun c => [tokOf V D (txt c) (nm c)]) ++ [.sym ';'])))))) = none := by
    rw [hs]
    have := hx (r ++ [.sym ';'])
    simp [conflict?, Spec.Sql.kw, upper, sym, hp] at this ⊢
    simp [this]
  rw [e]
  rfl

include hq in
/-- Columns without quotes, one of which is a reserved word. -/
theorem refused_words (ru : Rules) {tb' : String} (ht : NameTxt D tb' tn) {rows : List (List V)} (hr : rows ≠ [])
    (hv : ∀ vs ∈ rows, vs ≠ []) (hl : l ≠ []) (hw : ∀ c ∈ l, Spec.Store.Wordy D (txt c)) (hb : (l.mapM fun c => Store.bare D (txt c)) = none)
    (ret : Bool) :
    readBulk ru D (insertRowsB (verb false) tb' (l.map txt) rows ++ if ret then returningB (l.map txt) else bs ";") = none := by
  have hwl : Lexes D.quote (comma (l.map fun c => bs (txt c))) (sep (l.map fun c => [.word (txt c).toList])) :=
    lexes_comma (V := V) hq _ (fun c => [Tok.word (txt c).toList]) l (fun c hc => Store.lexes_wordy (hw c hc)) hl
  have hrl := lexes_comma hq rowB rowTok rows (fun vs hvs => row_lexes hq (hv vs hvs)) hr
  obtain ⟨tt, htl⟩ : ∃ tt, Tail D.quote (if ret then returningB (l.map txt) else bs ";" : List (BSym V)) tt := by
    cases ret with
    | true =>
      simp only [if_true, returningB, namesB_map, List.append_assoc]
      exact ⟨_, (lit_returning hq).append (hwl.lit_end (lit_end hq))⟩
    | false => exact ⟨_, (lit_end hq).tail⟩
  have hrest := (tokOf_lexes (V := V) ht).lit (lit_open hq) (hwl.lit (lit_values' hq) (hrl.tail htl))
  have hlx := ((idle_insert (V := V) hq).append hrest).lex
  have hm := fun r hr => Store.many1_words (V := V) D txt l hl r hr
  unfold readBulk insertRowsB
  rw [namesB_map]
  simp only [verb, Bool.false_eq_true, if_false, List.append_assoc]
  rw [hlx]
  have e : ∀ r : List (Tok V), ignore? ru (.word ['I', 'N', 'T', 'O'] :: r) = (false, .word ['I', 'N', 'T', 'O'] :: r) := by
    intro r; cases ru <;> rfl
  have hm' := hm (.sym ')' :: .word "VALUES".toList :: (sep (rows.map rowTok) ++ tt)) rfl
  rw [hb] at hm'
  simp at hm'
  simp [bulk?, Spec.Sql.kw, upper, e, sym, tokOf_name ht, hm']

end

end Verif.Sql

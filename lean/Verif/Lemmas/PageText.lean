import Verif.Model.Page
import Verif.Lemmas.CondRun
import Verif.Lemmas.CondHollow
import Verif.Lemmas.Pager

/-!
# Lemmas about how the statements of pagination are read
-/

namespace Verif.Store

open Verif Verif.Gen Verif.Spec Verif.Spec.Gen Verif.Spec.Sql Verif.Spec.Store Verif.Sql Verif.Helpers Verif.Spec.Helpers Verif.Spec.Pager

set_option linter.unusedSectionVars false

variable {F X V : Type} [DecidableEq F] [DecidableEq X] [DecidableEq V]

variable {E : Env F X V} {t : Table F} {Ok : F → X → Prop}

/-- The model as the helpers see it. -/
abbrev pmdl (E : Env F X V) (t : Table F) : Mdl (F → V) V := ofTable E.g t

/-- Upwards or downwards. -/
def upOf (d : Pager.Dir) : Bool :=
  match d with
  | .next => true
  | .prev => false

/-- The token of a column of the key. -/
noncomputable def tokk (E : Env F X V) (t : Table F) (c : GCol F) : Tok V := tokOf V E.D (keyTxt E.g t c) (colName E.D c)

def cmpTok (d : Pager.Dir) : List (Tok V) := [.sym (if upOf d then '>' else '<'), .sym '=']

/-- The tokens of the comparison with the cursor. -/
noncomputable def cursorTok (E : Env F X V) (t : Table F) (d : Pager.Dir) (v : F → V) : List (GCol F) → List (Tok V)
  | [] => []
  | [c] => [.sym '('] ++ ([tokk E t c] ++ (cmpTok d ++ [.val (v c.field)])) ++ [.sym ')']
  | l => [.sym '(', .sym '('] ++ (sep (l.map fun c => [tokk E t c]) ++ ([.sym ')'] ++ cmpTok d ++ [.sym '('] ++
      sep (l.map fun c => [.val (v c.field)])) ++ [.sym ')', .sym ')'])

/-- The tokens of the order. -/
noncomputable def keyOrderTok (E : Env F X V) (t : Table F) (d : Pager.Dir) : List (GCol F) → List (Tok V)
  | [] => []
  | [c] => [tokk E t c] ++ if upOf d then [] else [.word "DESC".toList]
  | l => [.sym '('] ++ sep (l.map fun c => [tokk E t c]) ++ [.sym ')', .word (if upOf d then "ASC" else "DESC").toList]

/-- The condition that is meant by the comparison with the cursor. -/
def cursorCond (E : Env F X V) (d : Pager.Dir) (v : F → V) : List (GCol F) → PCond V
  | [c] => .plain (.pred (.cmp (if upOf d then ['>', '='] else ['<', '=']) false (colName E.D c) (v c.field)))
  | l => .rows (upOf d) (l.map (colName E.D)) (l.map fun c => v c.field)

theorem cursorB_eq {g : Cfg} (hw : WF t) (hk : keyCols t ≠ []) (d : Pager.Dir) (v : F → V) :
    cursorB (ofTable g t : Mdl (F → V) V) d v = (match keyCols t with
      | [] => []
      | [c] => bs "(" ++ (bs (keyTxt g t c) ++ (bs (if upOf d then " >= " else " <= ") ++ [.val (v c.field)])) ++ bs ")"
      | l => bs "((" ++ (comma (l.map fun c => bs (keyTxt g t c)) ++ (bs (if upOf d then ") >= (" else ") <= (") ++
          comma (l.map fun c => [.val (v c.field)])) ++ bs "))")) ∧
    keyOrderB (ofTable g t : Mdl (F → V) V) d = (match keyCols t with
      | [] => []
      | [c] => bs (keyTxt g t c) ++ bs (if upOf d then "" else " DESC")
      | l => bs "(" ++ comma (l.map fun c => bs (keyTxt g t c)) ++ bs (if upOf d then ") ASC" else ") DESC")) := by
  unfold keyCols at *
  cases ha : t.auto with
  | some i =>
    have hi := hw.auto i ha
    have e : pick t (keyPos t) = [t.columns[i]] := by simp [pick, keyPos, ha, List.getElem?_eq_getElem hi]
    have hcol : t.autoCol = some t.columns[i] := by simp [Table.autoCol, ha, List.getElem?_eq_getElem hi]
    have e2 : keyTxt g t = fun c => g.ident c.name := by funext c; simp [keyTxt, e]
    rw [e2, e]
    cases d <;> simp [cursorB, keyOrderB, ofTable, hcol, Cfg.genPK, upOf]
  | none =>
    have hcol : t.autoCol = none := by simp [Table.autoCol, ha]
    have hkc : pick t (keyPos t) = t.keyCols := by simp [keyPos, ha, pick, Table.keyCols]
    have e2 : keyTxt g t = fun c => if t.keyCols.length = 1 then g.ident c.name else c.name := by
      funext c; simp [keyTxt, hkc]
    rw [e2, hkc]
    rw [hkc] at hk
    match e : t.keyCols, hk with
    | [c], _ => cases d <;> simp [cursorB, keyOrderB, ofTable, hcol, Cfg.genPK, upOf, e]
    | a :: b :: l, _ =>
      cases d <;>
        simp [cursorB, keyOrderB, ofTable, hcol, Cfg.genPK, genCompositeKey, e, upOf, namesB, rowB, comma, bs,
          Function.comp_def]

section
variable (h : Setup E t Ok)
include h

theorem keyCols_ne' : keyCols t ≠ [] := keyCols_ne h

theorem tokk_lexes {c : GCol F} (hc : c ∈ keyCols t) : Lexes E.D.quote (bs (keyTxt E.g t c) : List (BSym V)) [tokk E t c] :=
  tokOf_lexes (keyTxt_reads h.named h.bare c hc)

theorem tokk_name {c : GCol F} (hc : c ∈ keyCols t) (r : List (Tok V)) :
    name E.D (tokk E t c :: r) = some (colName E.D c, r) :=
  tokOf_name (keyTxt_reads h.named h.bare c hc) r

theorem key_cols {l : List (GCol F)} (hl : ∀ c ∈ l, c ∈ keyCols t) (hne : l ≠ []) : Cols E.D (keyTxt E.g t) (colName E.D) l :=
  ⟨fun c hc => keyTxt_reads h.named h.bare c (hl c hc), hne⟩

theorem lit_cmp (d : Pager.Dir) : Lit V E.D.quote (if upOf d then " >= " else " <= ") (cmpTok d) := by
  cases d <;> exact lit_word h.named.quote rfl rfl rfl

theorem lit_cmp' (d : Pager.Dir) :
    Lit V E.D.quote (if upOf d then ") >= (" else ") <= (") ([.sym ')'] ++ cmpTok d ++ [.sym '(']) := by
  have hq := h.named.quote
  cases d <;> exact ⟨by rcases hq with e | e <;> rw [e] <;> rfl, ')', _, rfl, delim_close hq⟩

theorem lit_lp : Lit V E.D.quote "(" [.sym '('] := by
  have hq := h.named.quote
  exact ⟨by rcases hq with e | e <;> rw [e] <;> rfl, '(', _, rfl, delim_open hq⟩

theorem lit_lp2 : Lit V E.D.quote "((" [.sym '(', .sym '('] := by
  have hq := h.named.quote
  exact ⟨by rcases hq with e | e <;> rw [e] <;> rfl, '(', _, rfl, delim_open hq⟩

theorem lit_rp2 : Lit V E.D.quote "))" [.sym ')', .sym ')'] := by
  have hq := h.named.quote
  exact ⟨by rcases hq with e | e <;> rw [e] <;> rfl, ')', _, rfl, delim_close hq⟩

/-- The comparison with the cursor, after anything. -/
theorem cursor_seg (d : Pager.Dir) (v : F → V) :
    Seg E.D.quote (cursorB (pmdl E t) d v) (cursorTok E t d v (keyCols t)) := by
  rw [(cursorB_eq h.wf (keyCols_ne' h) d v).1]
  have hq := h.named.quote
  have hmem : ∀ c ∈ keyCols t, c ∈ keyCols t := fun _ hc => hc
  match e : keyCols t, keyCols_ne' h with
  | [c], _ =>
    exact (Seg.lit (lit_lp h) ((tokk_lexes h (by simp [e])).lit (lit_cmp h d) (idle_val _ (v c.field)).lexes)).comp
      (Seg.lit_end (lit_close hq))
  | a :: b :: l, _ =>
    have hc := key_cols h (l := a :: b :: l) (by rw [e]; exact fun _ hc => hc) (by simp)
    refine (Seg.comp (u := [.sym '(', .sym '('] ++ _) (w := [.sym ')', .sym ')'])
      (Seg.lit (lit_lp2 h) ((hc.lexes hq).lit (lit_cmp' h d) (vals_lexes hq (l := a :: b :: l) (fun c => v c.field) (by simp))))
      (Seg.lit_end (lit_rp2 h)))

theorem lexes_desc {a : List (BSym V)} {u : List (Tok V)} (ha : Lexes E.D.quote a u) :
    Lexes E.D.quote (a ++ bs " DESC") (u ++ [.word "DESC".toList]) := by
  have h3 : Lit V E.D.quote " " [] := ⟨by rcases h.named.quote with e | e <;> rw [e] <;> rfl, ' ', [], rfl, delim_space h.named.quote⟩
  have h5 : Lexes E.D.quote (bs "DESC" : List (BSym V)) [.word "DESC".toList] := by
    refine ⟨[], .word "DESC".toList, [.word "DESC".toList], ?_, rfl, rfl⟩
    rcases h.named.quote with e | e <;> rw [e] <;> rfl
  exact ha.lit h3 h5

theorem lexes_dir (d : Pager.Dir) {a : List (BSym V)} {u : List (Tok V)} (ha : Lexes E.D.quote a u) :
    Lexes E.D.quote (a ++ bs (if upOf d then ") ASC" else ") DESC"))
      (u ++ [.sym ')', .word (if upOf d then "ASC" else "DESC").toList]) := by
  have hq := h.named.quote
  have h3 : Lit V E.D.quote ") " [.sym ')'] := ⟨by rcases hq with e | e <;> rw [e] <;> rfl, ')', _, rfl, delim_close hq⟩
  have h5 : ∀ w ∈ ["ASC", "DESC"], Lexes E.D.quote (bs w : List (BSym V)) [.word w.toList] := by
    intro w hw
    refine ⟨[], .word w.toList, [.word w.toList], ?_, rfl, rfl⟩
    simp only [List.mem_cons, List.not_mem_nil, or_false] at hw
    rcases hw with rfl | rfl <;> rcases hq with e | e <;> rw [e] <;> rfl
  cases d with
  | next => exact ha.lit h3 (h5 "ASC" (by simp))
  | prev => exact ha.lit h3 (h5 "DESC" (by simp))

theorem keyOrder_lexes (d : Pager.Dir) : Lexes E.D.quote (keyOrderB (pmdl E t) d) (keyOrderTok E t d (keyCols t)) := by
  rw [(cursorB_eq h.wf (keyCols_ne' h) d (fun _ => E.null)).2]
  have hq := h.named.quote
  match e : keyCols t, keyCols_ne' h with
  | [c], _ =>
    have h1 := tokk_lexes (V := V) h (c := c) (by simp [e])
    cases d with
    | next => simpa [upOf, keyOrderTok, bs] using h1
    | prev => simpa [upOf, keyOrderTok] using lexes_desc h h1
  | a :: b :: l, _ =>
    have hc := key_cols h (l := a :: b :: l) (by rw [e]; exact fun _ hc => hc) (by simp)
    have h1 : Lexes E.D.quote (bs "(" ++ comma ((a :: b :: l).map fun c => bs (keyTxt E.g t c)) : List (BSym V)) _ :=
      (idle_open hq).append (hc.lexes hq)
    have := lexes_dir h d h1
    simpa [keyOrderTok, tokk] using this

/-- All that follows the condition. -/
noncomputable def tailTok (E : Env F X V) (t : Table F) (d : Pager.Dir) (n : Nat) : List (Tok V) :=
  [.word "ORDER".toList, .word "BY".toList] ++ keyOrderTok E t d (keyCols t) ++ [.word "LIMIT".toList] ++
    [.word (toString n).toList] ++ [.sym ';']

theorem tail_seg (d : Pager.Dir) (n : Nat) : Seg E.D.quote (tailB (pmdl E t) d [] n) (tailTok E t d n) := by
  have hq := h.named.quote
  have hl : Lit V E.D.quote " ORDER BY " [.word "ORDER".toList, .word "BY".toList] := lit_word hq rfl rfl rfl
  have hlim : Lit V E.D.quote " LIMIT " [.word "LIMIT".toList] := lit_word hq rfl rfl rfl
  have h1 := (Seg.lit hl (keyOrder_lexes h d)).comp
    ((Seg.lit hlim (lexes_wordy (V := V) (digits_word _ hq n))).comp (Seg.lit_end (lit_end hq)))
  simpa [tailB, orderB, limitB, tailTok] using h1

/-! ## What the tokens say -/

omit h in
theorem fuel_nine {ts : List (Tok V)} (hl : 2 ≤ ts.length) : ∃ k, 3 * ts.length + 3 = k + 9 := ⟨3 * ts.length - 6, by omega⟩

theorem expr_single {c : GCol F} (hc : c ∈ keyCols t) (d : Pager.Dir) (x : V) {R : List (Tok V)} (hR : Stops R) :
    expr E.D ([.sym '('] ++ ([tokk E t c] ++ (cmpTok d ++ [.val x])) ++ [.sym ')'] ++ R) =
      some (.pred (.cmp (if upOf d then ['>', '='] else ['<', '=']) false (colName E.D c) x), R) := by
  unfold expr
  obtain ⟨k, hk⟩ := fuel_nine (ts := [.sym '('] ++ ([tokk E t c] ++ (cmpTok d ++ [.val x])) ++ [.sym ')'] ++ R) (by simp [cmpTok])
  rw [hk]
  have h0 := tokk_name h hc (cmpTok d ++ [.val x] ++ [.sym ')'] ++ R)
  have h1 : sym '(' (tokk E t c :: (cmpTok d ++ [.val x] ++ [.sym ')'] ++ R)) = none := not_sym h0 _
  have h2 : predTail (colName E.D c) (cmpTok d ++ [.val x] ++ [.sym ')'] ++ R) =
      some (.cmp (if upOf d then ['>', '='] else ['<', '=']) false (colName E.D c) x, .sym ')' :: R) := by
    cases d <;> rfl
  have h3 : Spec.Sql.kw "AND" (.sym ')' :: R) = none := rfl
  have h4 : Spec.Sql.kw "OR" (.sym ')' :: R) = none := rfl
  have h5 : ∀ r : List (Tok V), sym '(' (.sym '(' :: r) = some r := fun _ => rfl
  have h6 : ∀ r : List (Tok V), sym ')' (.sym ')' :: r) = some r := fun _ => rfl
  simp only [List.append_assoc, List.cons_append, List.nil_append] at h0 h1 h2 ⊢
  simp only [orExpr, andExpr, primary, h5, h1, pred, h0, Option.bind_some, h2, Option.map_some, h3, h4, h6, hR.1, hR.2]

theorem expr_comp {a : GCol F} (ha : a ∈ keyCols t) (r : List (Tok V)) :
    expr E.D (.sym '(' :: .sym '(' :: tokk E t a :: .sym ',' :: r) = none := by
  unfold expr
  obtain ⟨k, hk⟩ := fuel_nine (ts := .sym '(' :: .sym '(' :: tokk E t a :: .sym ',' :: r) (by simp)
  rw [hk]
  have h0 := tokk_name h ha (.sym ',' :: r)
  have h1 : sym '(' (tokk E t a :: .sym ',' :: r) = none := not_sym h0 _
  have h2 : predTail (colName E.D a) (.sym ',' :: r) = none := rfl
  have h5 : ∀ r : List (Tok V), sym '(' (.sym '(' :: r) = some r := fun _ => rfl
  simp only [orExpr, andExpr, primary, h5, h1, pred, h0, Option.bind_some, h2, Option.map_none]

/-- The comparison with the cursor is a condition. -/
theorem cursor_parse (d : Pager.Dir) (v : F → V) {R : List (Tok V)} (hR : Stops R) :
    pageWhere E.D (.word "WHERE".toList :: (cursorTok E t d v (keyCols t) ++ R)) =
      some (some (cursorCond E d v (keyCols t)), R) := by
  have hw : ∀ r : List (Tok V), Spec.Sql.kw "WHERE" (.word "WHERE".toList :: r) = some r := fun _ => rfl
  match e : keyCols t, keyCols_ne' h with
  | [c], _ =>
    have := expr_single h (c := c) (by simp [e]) d (v c.field) hR
    simp only [pageWhere, hw, cursorTok, this, cursorCond]
  | a :: b :: l, _ =>
    have hc := key_cols h (l := a :: b :: l) (by rw [e]; exact fun _ hc => hc) (by simp)
    have hx := expr_comp h (a := a) (by simp [e]) (sep ((b :: l).map fun c => [tokk E t c]) ++
      (.sym ')' :: (cmpTok d ++ .sym '(' :: (sep ((a :: b :: l).map fun c => [.val (v c.field)]) ++ .sym ')' :: .sym ')' :: R))))
    have h1 := hc.parse (.sym ')' :: (cmpTok d ++ .sym '(' ::
      (sep ((a :: b :: l).map fun c => [.val (v c.field)]) ++ .sym ')' :: .sym ')' :: R))) rfl
    have h2 := vals_parse (V := V) (l := a :: b :: l) (fun c => v c.field) (by simp) (.sym ')' :: .sym ')' :: R) rfl
    have h3 : compare? (cmpTok d ++ .sym '(' ::
      (sep ((a :: b :: l).map fun c => [.val (v c.field)]) ++ .sym ')' :: .sym ')' :: R)) =
        some (if upOf d then ['>', '='] else ['<', '='], .sym '(' ::
          (sep ((a :: b :: l).map fun c => [.val (v c.field)]) ++ .sym ')' :: .sym ')' :: R)) := by cases d <;> rfl
    have h5 : ∀ r : List (Tok V), sym '(' (.sym '(' :: r) = some r := fun _ => rfl
    have h6 : ∀ r : List (Tok V), sym ')' (.sym ')' :: r) = some r := fun _ => rfl
    have e1 : cursorTok E t d v (a :: b :: l) ++ R = .sym '(' :: .sym '(' ::
        (sep ((a :: b :: l).map fun c => [tokk E t c]) ++ (.sym ')' :: (cmpTok d ++ .sym '(' ::
          (sep ((a :: b :: l).map fun c => [.val (v c.field)]) ++ .sym ')' :: .sym ')' :: R)))) := by
      simp [cursorTok]
    have e2 : (sep ((a :: b :: l).map fun c => [tokk E t c])) = tokk E t a :: .sym ',' :: sep ((b :: l).map fun c => [tokk E t c]) := by
      simp [sep]
    have hx' : expr E.D (cursorTok E t d v (a :: b :: l) ++ R) = none := by rw [e1, e2]; exact hx
    have h7 : rowCond E.D (cursorTok E t d v (a :: b :: l) ++ R) =
        some (.rows (upOf d) ((a :: b :: l).map (colName E.D)) ((a :: b :: l).map fun c => v c.field), R) := by
      rw [e1]
      unfold tokk
      simp only [rowCond, h5, h1, h6, h3, h2, Option.bind_eq_bind, Option.bind_some, List.length_map, ne_eq, not_true_eq_false,
        if_false]
      cases d <;> rfl
    simp only [pageWhere, hw, hx', h7, Option.map_some, cursorCond]

/-- The order that is meant, unless it is refused. -/
def orderOf (E : Env F X V) (br : Brand) (t : Table F) (d : Pager.Dir) : Option (List (Name × Bool)) :=
  if 1 < (keyCols t).length ∧ br ≠ .postgres then none else some ((keyCols t).map fun c => (colName E.D c, upOf d))

theorem order_parse (br : Brand) (d : Pager.Dir) (n : Nat) :
    pageOrder br E.D (tailTok E t d n) = (orderOf E br t d).map fun o =>
      (o, [.word "LIMIT".toList, .word (toString n).toList, .sym ';']) := by
  have hw : ∀ r : List (Tok V), Spec.Sql.kw "ORDER" (.word "ORDER".toList :: r) = some r := fun _ => rfl
  have hb : ∀ r : List (Tok V), Spec.Sql.kw "BY" (.word "BY".toList :: r) = some r := fun _ => rfl
  have hlast : ∀ r : List (Tok V), sym ',' (.word "LIMIT".toList :: r) = none := fun _ => rfl
  have key : ∀ x : Option (List (Name × Bool)), pageOrderItem br E.D (keyOrderTok E t d (keyCols t) ++
      [.word "LIMIT".toList, .word (toString n).toList, .sym ';']) = x.map (fun o =>
        (o, [.word "LIMIT".toList, .word (toString n).toList, .sym ';'])) →
      pageOrder br E.D (tailTok E t d n) = x.map fun o => (o, [.word "LIMIT".toList, .word (toString n).toList, .sym ';']) := by
    intro x hx
    have e1 : tailTok E t d n = .word "ORDER".toList :: .word "BY".toList :: (keyOrderTok E t d (keyCols t) ++
      [.word "LIMIT".toList, .word (toString n).toList, .sym ';']) := by simp [tailTok]
    rw [e1, pageOrder, hw]
    simp only [hb, Option.bind_some, many1]
    obtain ⟨k, hk⟩ : ∃ k, (keyOrderTok E t d (keyCols t) ++ ([.word "LIMIT".toList, .word (toString n).toList, .sym ';'] : List (Tok V))).length = k + 1 :=
      ⟨(keyOrderTok E t d (keyCols t)).length + 2, by simp⟩
    rw [hk, many, hx]
    cases x with
    | none => rfl
    | some o => simp only [Option.map_some, hlast, List.flatten_cons, List.flatten_nil, List.append_nil]
  apply key
  match e : keyCols t, keyCols_ne' h with
  | [c], _ =>
    have h0 := fun r => tokk_name (V := V) h (c := c) (by simp [e]) r
    have h1 : ∀ r : List (Tok V), sym '(' (tokk E t c :: r) = none := fun r => not_sym (h0 r) _
    have ho : orderOf E br t d = some [(colName E.D c, upOf d)] := by simp [orderOf, e]
    rw [ho]
    cases d <;>
      simp [keyOrderTok, upOf, pageOrderItem, h0, h1, direction, Spec.Sql.kw, upper]
  | a :: b :: l, _ =>
    have hc := key_cols h (l := a :: b :: l) (by rw [e]; exact fun _ hc => hc) (by simp)
    have h1 := fun r => hc.parse (V := V) (.sym ')' :: r) rfl
    have h5 : ∀ r : List (Tok V), sym '(' (.sym '(' :: r) = some r := fun _ => rfl
    have h6 : ∀ r : List (Tok V), sym ')' (.sym ')' :: r) = some r := fun _ => rfl
    have e1 : keyOrderTok E t d (a :: b :: l) ++ [.word "LIMIT".toList, .word (toString n).toList, .sym ';'] =
      .sym '(' :: (sep ((a :: b :: l).map fun c => [tokOf V E.D (keyTxt E.g t c) (colName E.D c)]) ++ .sym ')' ::
        .word (if upOf d then "ASC" else "DESC").toList :: [.word "LIMIT".toList, .word (toString n).toList, .sym ';']) := by
      simp [keyOrderTok, tokk]
    rw [e1]
    simp only [pageOrderItem, h5, h1, h6, Option.bind_eq_bind, Option.bind_some, List.length_map, orderOf, e]
    have hdir : direction (.word (if upOf d then "ASC" else "DESC").toList ::
        [.word "LIMIT".toList, .word (toString n).toList, .sym ';'] : List (Tok V)) =
        (upOf d, [.word "LIMIT".toList, .word (toString n).toList, .sym ';']) := by cases d <;> rfl
    rw [hdir]
    split <;> simp

theorem tail_stops (d : Pager.Dir) (n : Nat) : Stops (tailTok E t d n) := ⟨rfl, rfl⟩

omit h in
theorem limit_parse' (n : Nat) : count? "LIMIT" ([.word "LIMIT".toList, .word (toString n).toList, .sym ';'] : List (Tok V)) =
    some (some n, [.sym ';']) := by
  have : Spec.Sql.kw "LIMIT" ([.word "LIMIT".toList, .word (toString n).toList, .sym ';'] : List (Tok V)) =
    some [.word (toString n).toList, .sym ';'] := rfl
  simp only [count?, this, number_digits, Option.map_some]


variable (hn : Spelled E.g E.D t)
include hn

/-- The text of a page query, as it is read. -/
theorem page_lexes {x : List (BSym V)} {u : List (Tok V)} (hx : Lexes E.D.quote x u) (d : Pager.Dir) (n : Nat) :
    lex E.D.quote .idle (headB (pmdl E t) ++ x ++ tailB (pmdl E t) d [] n) = some (.word "SELECT".toList ::
      (sep (t.columns.map fun c => [tokOf V E.D (E.g.ident c.name) (colName E.D c)]) ++ .word "FROM".toList ::
        tokOf V E.D (E.g.genTableName t) (tableName E.D t) :: .word "WHERE".toList :: (u ++ tailTok E t d n))) := by
  have hqt := h.named.quote
  have hc := cols_in h hn (fun _ hc => hc) (columns_ne' h)
  have hseg := (Seg.lit (lit_from hqt) (tokOf_lexes (V := V) (table_tok h))).comp
    ((Seg.lit (lit_where hqt) hx).comp (tail_seg h d n))
  have hlex := (hseg _ _ ((idle_select (V := V) hqt).append (hc.lexes hqt))).lex
  have hs : (pmdl E t).sqlColumns = t.columns.map fun c => E.g.ident c.name := by
    have := info_sql h
    simp only [info] at this
    unfold pmdl ofTable
    simp only
    cases hg : E.g.genSqlColumns t with
    | some l => simp [hg] at this
    | none => rfl
  have e1 : headB (pmdl E t) ++ x ++ tailB (pmdl E t) d [] n =
      bs "SELECT " ++ comma (t.columns.map fun c => bs (E.g.ident c.name)) ++
      (bs " FROM " ++ bs (E.g.genTableName t) ++ (bs " WHERE " ++ x ++ tailB (pmdl E t) d [] n)) := by
    unfold headB
    rw [hs]
    simp [namesB, comma, Function.comp_def, ofTable]
  rw [e1, hlex]
  simp

/-- A page query with a condition that is read. -/
theorem page_read (br : Brand) {x : List (BSym V)} {u : List (Tok V)} (hx : Lexes E.D.quote x u) (d : Pager.Dir) (n : Nat)
    {res : Option (Option (PCond V))}
    (hp : pageWhere E.D (.word "WHERE".toList :: (u ++ tailTok E t d n)) = res.map fun a => (a, tailTok E t d n)) :
    readPage br E.D (headB (pmdl E t) ++ x ++ tailB (pmdl E t) d [] n) =
      res.bind fun w => (orderOf E br t d).map fun o => ⟨t.columns.map (colName E.D), tableName E.D t, w, o, some n⟩ := by
  rw [readPage, page_lexes h hn hx d n, Option.bind_some, page?, kw_hit (by decide)]
  have hc := cols_in h hn (fun _ hc => hc) (columns_ne' h)
  simp only [Option.bind_eq_bind, Option.bind_some]
  rw [hc.parse _ rfl]
  simp only [Option.bind_some]
  rw [kw_hit (by decide)]
  have hd : done ([.sym ';'] : List (Tok V)) = some () := rfl
  simp only [Option.bind_some, tokOf_name (table_tok h), hp]
  cases res with
  | none => rfl
  | some w =>
    simp only [Option.map_some, Option.bind_some, order_parse h]
    cases orderOf E br t d with
    | none => rfl
    | some o => simp only [Option.map_some, Option.bind_some, limit_parse', hd]

/-- A page query with something after its condition is refused. -/
theorem page_junk (br : Brand) {x : List (BSym V)} {u : List (Tok V)} (hx : Lexes E.D.quote x u) (d : Pager.Dir) (n : Nat)
    {w : Option (PCond V)} {r : List (Tok V)}
    (hp : pageWhere E.D (.word "WHERE".toList :: (u ++ tailTok E t d n)) = some (w, .sym '(' :: r)) :
    readPage br E.D (headB (pmdl E t) ++ x ++ tailB (pmdl E t) d [] n) = none := by
  rw [readPage, page_lexes h hn hx d n, Option.bind_some, page?, kw_hit (by decide)]
  have hc := cols_in h hn (fun _ hc => hc) (columns_ne' h)
  simp only [Option.bind_eq_bind, Option.bind_some]
  rw [hc.parse _ rfl]
  simp only [Option.bind_some]
  rw [kw_hit (by decide)]
  simp only [Option.bind_some, tokOf_name (table_tok h), hp]
  rfl

/-- With a cursor only. -/
theorem read_cursor (br : Brand) (d : Pager.Dir) (v : F → V) (n : Nat) :
    readPage br E.D (headB (pmdl E t) ++ cursorB (pmdl E t) d v ++ tailB (pmdl E t) d [] n) =
      (orderOf E br t d).map fun o =>
        ⟨t.columns.map (colName E.D), tableName E.D t, some (cursorCond E d v (keyCols t)), o, some n⟩ := by
  have hl : Lexes E.D.quote (cursorB (pmdl E t) d v) (cursorTok E t d v (keyCols t)) := by
    simpa using cursor_seg h d v _ _ (lexes_nil E.D.quote)
  exact page_read h hn br hl d n (res := some _) (cursor_parse h d v (tail_stops h d n))

/-- With a filter only. -/
theorem read_filter (br : Brand) (d : Pager.Dir) {c : Cond F X} (hc : c.Proper Ok t) (n : Nat) :
    readPage br E.D (headB (pmdl E t) ++ meaning (clause E c) ++ tailB (pmdl E t) d [] n) =
      (orderOf E br t d).map fun o =>
        ⟨t.columns.map (colName E.D), tableName E.D t, some (.plain (ast E c)), o, some n⟩ := by
  refine page_read h hn br (lexes_cond h hn c hc) d n (res := some _) ?_
  have h1 := expr_cond h hn c hc (tailTok E t d n) (tail_stops h d n)
  have hw : ∀ r : List (Tok V), Spec.Sql.kw "WHERE" (.word "WHERE".toList :: r) = some r := fun _ => rfl
  simp only [pageWhere, hw, h1, Option.map_some]

/-- With both. -/
theorem read_both (br : Brand) (d : Pager.Dir) {c : Cond F X} (hc : c.Proper Ok t) (v : F → V) (n : Nat) :
    readPage br E.D (headB (pmdl E t) ++ (meaning (clause E c) ++ cursorB (pmdl E t) d v) ++ tailB (pmdl E t) d [] n) = none := by
  obtain ⟨r, hr⟩ : ∃ r, cursorTok E t d v (keyCols t) = .sym '(' :: r := by
    match e : keyCols t, keyCols_ne' h with
    | [c], _ => exact ⟨_, rfl⟩
    | a :: b :: l, _ => exact ⟨_, rfl⟩
  have hl := cursor_seg h d v _ _ (lexes_cond h hn c hc)
  have h1 := expr_cond h hn c hc (cursorTok E t d v (keyCols t) ++ tailTok E t d n) (by rw [hr]; exact ⟨rfl, rfl⟩)
  have hw : ∀ r : List (Tok V), Spec.Sql.kw "WHERE" (.word "WHERE".toList :: r) = some r := fun _ => rfl
  refine page_junk h hn br hl d n (w := some (.plain (ast E c))) (r := r ++ tailTok E t d n) ?_
  simp only [pageWhere, hw, List.append_assoc, h1]
  rw [hr]
  rfl

/-- With neither. -/
theorem read_neither (hr : E.D.reserved "ORDER".toList = true) (br : Brand) (d : Pager.Dir) (n : Nat) :
    readPage br E.D (headB (pmdl E t) ++ [] ++ tailB (pmdl E t) d [] n) = none := by
  have hw : ∀ r : List (Tok V), Spec.Sql.kw "WHERE" (.word "WHERE".toList :: r) = some r := fun _ => rfl
  have hb : Blocked E.D (tailTok E t d n) := blocked_word hr _
  have h1 : expr E.D (tailTok E t d n) = none := by
    rw [expr, orExpr, andExpr, hb.primary]
  have h2 : rowCond E.D (tailTok E t d n) = none := rfl
  have := page_read h hn br (lexes_nil E.D.quote) d n (res := none) (by
    simp only [pageWhere, hw, List.nil_append, h1, h2, Option.map_none])
  simpa using this

end

end Verif.Store

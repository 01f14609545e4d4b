import Verif.Lemmas.Sql
import Verif.Model.Store
import Verif.Props.Gen
import Verif.Props.Helpers

/-!
# Lemmas about the generated statements as a database reads them
-/

namespace Verif.Store

open Verif Verif.Gen Verif.Spec Verif.Spec.Gen Verif.Spec.Sql Verif.Spec.Store Verif.Sql Verif.Helpers Verif.Spec.Helpers

variable {F X V : Type}

theorem nameTxt_of_quoted {g : Cfg} {D : Dialect} {n : String} (h : Quoted g D n) :
    NameTxt D (g.quoteId n) (D.fold true n.toList) :=
  nameTxt_quoted D _ _ h.1 h.2.1 (by simpa using h.2.2)

/-- The text of the table's name. -/
def tableTxt (g : Cfg) (t : Table F) : String := t.ownTable.getD (g.quoteId t.name)

theorem tableB_eq (g : Cfg) (t : Table F) : (tableB g t : List (BSym V)) = bs (tableTxt g t) := by
  unfold tableB tableTxt; cases t.ownTable <;> rfl

theorem tableTxt_reads {g : Cfg} {D : Dialect} {t : Table F} (h : Named g D t) :
    NameTxt D (tableTxt g t) (tableName D t) := by
  have := h.table
  unfold tableTxt tableName
  cases e : t.ownTable with
  | none => rw [e] at this; exact nameTxt_of_quoted this
  | some n => rw [e] at this; exact nameTxt_plain D n this

theorem mem_pick {t : Table F} {is : List Nat} {c : GCol F} :
    c ∈ pick t is ↔ ∃ i ∈ is, t.columns[i]? = some c := by simp [pick]

theorem mem_of_pick {t : Table F} {is : List Nat} {c : GCol F} (h : c ∈ pick t is) : c ∈ t.columns := by
  obtain ⟨i, -, h⟩ := mem_pick.1 h
  exact List.mem_of_getElem? h

theorem cols_of {g : Cfg} {D : Dialect} {t : Table F} (h : Named g D t) {l : List (GCol F)} (hl : l ≠ [])
    (hs : ∀ c ∈ l, c ∈ t.columns) : Cols D (fun c : GCol F => g.quoteId c.name) (colName D) l :=
  ⟨fun c hc => nameTxt_of_quoted (h.cols c (hs c hc)), hl⟩

theorem templatesOk {st : Style} {t : Table F} (h : NoTemplates t) : TemplatesOk st t := by
  intro c hc
  obtain ⟨h1, h2⟩ := h c hc
  simp [h1, h2]

theorem map_readB {g : Cfg} {t : Table F} (h : NoTemplates t) {l : List (GCol F)} (hs : ∀ c ∈ l, c ∈ t.columns) :
    l.map (readB (V := V) g) = l.map fun c => bs (g.quoteId c.name) := by
  apply List.map_congr_left
  intro c hc
  simp [readB, (h c (hs c hc)).2, wrap, identB]

theorem map_valB {t : Table F} (h : NoTemplates t) {l : List (GCol F)} (hs : ∀ c ∈ l, c ∈ t.columns) (rec : F → V) :
    l.map (valB rec) = l.map fun c => [.val (rec c.field)] := by
  apply List.map_congr_left
  intro c hc
  simp [valB, (h c (hs c hc)).1, wrap]

theorem equalB_eq {g : Cfg} {t : Table F} (h : NoTemplates t) {l : List (GCol F)} (hs : ∀ c ∈ l, c ∈ t.columns)
    (rec : F → V) : equalB g (valB rec) l = condB (fun c => g.quoteId c.name) (fun c => rec c.field) l := by
  match l, hs with
  | [], _ => rfl
  | [c], hs => simp [equalB, condB, identB, valB, (h c (hs c (by simp))).1, wrap]
  | a :: b :: l, hs =>
    have e := map_valB h hs rec
    simp only [equalB, condB]
    rw [e]
    rfl

theorem read_insertB {g : Cfg} {D : Dialect} {t : Table F} (hn : Named g D t) (ht : NoTemplates t)
    (hi : pick t (insertPos t) ≠ []) (rec : F → V) :
    Sql.read D (insertB g t rec) = some (.insert (tableName D t) ((pick t (insertPos t)).map (colName D))
      ((pick t (insertPos t)).map fun c => rec c.field) (if g.postgres then t.columns.map (colName D) else [])) := by
  have hc := cols_of hn hi (fun c => mem_of_pick)
  have hne : t.columns ≠ [] := by
    intro e; apply hi; simp [pick, e]
  have ha := cols_of hn hne (fun c h => h)
  have e : (pick t (insertPos t)).map (identB (V := V) g) = (pick t (insertPos t)).map fun c => bs (g.quoteId c.name) := rfl
  unfold insertB
  simp only [e, map_valB ht (fun c => mem_of_pick), map_readB ht (fun c h => h), tableB_eq]
  cases hp : g.postgres with
  | false =>
    have := read_insert hn.quote (tableTxt_reads hn) hc (fun c => rec c.field)
    simpa using this
  | true =>
    have := read_insert_returning hn.quote (tableTxt_reads hn) hc (fun c => rec c.field) ha
    simpa using this

theorem read_findB {g : Cfg} {D : Dialect} {t : Table F} (hn : Named g D t) (ht : NoTemplates t)
    (hk : pick t (keyPos t) ≠ []) (rec : F → V) :
    Sql.read D (findB g t (valB rec)) = some (.select (t.columns.map (colName D)) (tableName D t)
      ((pick t (keyPos t)).map fun c => (colName D c, rec c.field))) := by
  have hc := cols_of hn hk (fun c => mem_of_pick)
  have hne : t.columns ≠ [] := by
    intro e; apply hk; simp [pick, e]
  have ha := cols_of hn hne (fun c h => h)
  unfold findB
  simp only [map_readB ht (fun c h => h), tableB_eq, equalB_eq ht (fun c => mem_of_pick)]
  exact read_select hn.quote (tableTxt_reads hn) ha hc (fun c => rec c.field)

theorem read_updateB {g : Cfg} {D : Dialect} {t : Table F} (hn : Named g D t) (ht : NoTemplates t)
    (hu : pick t (updatePos t) ≠ []) (hk : pick t (keyPos t) ≠ []) (rec : F → V) :
    Sql.read D (updateB g t rec (valB rec)) = some (.update (tableName D t)
      ((pick t (updatePos t)).map fun c => (colName D c, rec c.field))
      ((pick t (keyPos t)).map fun c => (colName D c, rec c.field))) := by
  have hc := cols_of hn hk (fun c => mem_of_pick)
  have ha := cols_of hn hu (fun c => mem_of_pick)
  have e : ((pick t (updatePos t)).map fun c => identB g c ++ bs " = " ++ valB rec c) =
      (pick t (updatePos t)).map fun c => bs (g.quoteId c.name) ++ bs " = " ++ [BSym.val (rec c.field)] := by
    apply List.map_congr_left
    intro c hc
    simp [identB, valB, (ht c (mem_of_pick hc)).1, wrap]
  unfold updateB
  simp only [e, tableB_eq, equalB_eq ht (fun c => mem_of_pick)]
  exact read_update hn.quote (tableTxt_reads hn) ha hc (fun c => rec c.field)

/-- The text of a key column in the statements of the helpers. -/
def keyTxt (g : Cfg) (t : Table F) (c : GCol F) : String := if (pick t (keyPos t)).length = 1 then g.ident c.name else c.name

theorem keyB_eq {g : Cfg} {t : Table F} (hw : WF t) (hk : pick t (keyPos t) ≠ []) (rec : F → V) :
    HasKey (ofTable g t : Mdl (F → V) V) ∧ keyB (ofTable g t : Mdl (F → V) V) rec =
      condB (keyTxt g t) (fun c => rec c.field) (pick t (keyPos t)) := by
  cases ha : t.auto with
  | some i =>
    have hi := hw.auto i ha
    have e : pick t (keyPos t) = [t.columns[i]] := by simp [pick, keyPos, ha, List.getElem?_eq_getElem hi]
    have hcol : t.autoCol = some t.columns[i] := by simp [Table.autoCol, ha, List.getElem?_eq_getElem hi]
    have e2 : keyTxt g t = fun c => g.ident c.name := by funext c; simp [keyTxt, e]
    rw [e2, e]
    simp [HasKey, keyB, ofTable, hcol, Cfg.genPK, condB]
  | none =>
    have hcol : t.autoCol = none := by simp [Table.autoCol, ha]
    have hkc : pick t (keyPos t) = t.keyCols := by simp [keyPos, ha, pick, Table.keyCols]
    have e2 : keyTxt g t = fun c => if t.keyCols.length = 1 then g.ident c.name else c.name := by
      funext c; simp [keyTxt, hkc]
    rw [e2, hkc]
    rw [hkc] at hk
    match e : t.keyCols, hk with
    | [c], _ => simp [HasKey, keyB, ofTable, hcol, Cfg.genPK, condB, e]
    | a :: b :: l, _ =>
      simp [HasKey, keyB, ofTable, hcol, Cfg.genPK, genCompositeKey, condB, e, tupleB, namesB, Function.comp_def]

theorem keyTxt_reads {g : Cfg} {D : Dialect} {t : Table F} (hn : Named g D t) (hb : BareNames g D t) (c : GCol F)
    (hc : c ∈ pick t (keyPos t)) : NameTxt D (keyTxt g t c) (colName D c) := by
  have hq : NameTxt D _ (colName D c) := nameTxt_of_quoted (hn.cols c (mem_of_pick hc))
  unfold keyTxt Cfg.ident
  rcases hb.keys c hc with ⟨h1, h2⟩ | h
  · simpa [h1, h2] using hq
  · have hp : NameTxt D c.name (colName D c) := by
      unfold colName; rw [← h.2]; exact nameTxt_plain D _ h.1
    by_cases h2 : (pick t (keyPos t)).length = 1 <;> by_cases h1 : g.quoteNames = true <;> simp [h1, h2]
    · exact hq
    all_goals exact hp

theorem genTableName_reads {g : Cfg} {D : Dialect} {t : Table F} (hn : Named g D t) (hb : BareNames g D t) :
    NameTxt D (g.genTableName t) (tableName D t) := by
  have := hn.table
  unfold Cfg.genTableName tableName
  cases e : t.ownTable with
  | some n => rw [e] at this; exact nameTxt_plain D n this
  | none =>
    rw [e] at this
    have hq := nameTxt_of_quoted this
    simp only [Cfg.ident]
    rcases hb.table e with h | h
    · simpa [h] using hq
    · have hp : NameTxt D t.name (D.fold true t.name.toList) := by rw [← h.2]; exact nameTxt_plain D _ h.1
      split
      · exact hq
      · exact hp

theorem read_deleteB {g : Cfg} {D : Dialect} {t : Table F} (hw : WF t) (hn : Named g D t) (hb : BareNames g D t)
    (hk : pick t (keyPos t) ≠ []) (rec : F → V) :
    Sql.read D (bs "DELETE FROM " ++ bs (g.genTableName t) ++ bs " WHERE " ++ keyB (ofTable g t : Mdl (F → V) V) rec ++
      bs ";") = some (.delete (tableName D t) ((pick t (keyPos t)).map fun c => (colName D c, rec c.field))) := by
  rw [(keyB_eq hw hk rec).2]
  exact read_delete hn.quote (genTableName_reads hn hb) ⟨keyTxt_reads hn hb, hk⟩ (fun c => rec c.field)

/-! ## Names without quotes -/

theorem lexes_wordy {D : Dialect} {s : String} (h : Wordy D s) : Lexes D.quote (bs s : List (BSym V)) [.word s.toList] := by
  obtain ⟨h0, h1⟩ := h
  refine ⟨[], .word s.toList, [.word s.toList], ?_, rfl, rfl⟩
  have h0 : s.toList ≠ [] := by simpa using h0
  unfold bs
  generalize s.toList = n at *
  cases n with
  | nil => exact absurd rfl h0
  | cons c n =>
    obtain ⟨a, b, d⟩ := h1 c (by simp)
    have := run_word (V := V) D.quote n [c] (fun x hx => ⟨(h1 x (by simp [hx])).1, (h1 x (by simp [hx])).2.1⟩)
    simp [run, Spec.Sql.step, start, a, b, d, this]

/-- What a word denotes. -/
def bare (D : Dialect) (s : String) : Option Name :=
  if D.reserved (upper s.toList) ∨ (s.toList.head?.map Char.isDigit).getD false then none else some (D.fold false s.toList)

theorem name_word (D : Dialect) (s : String) (r : List (Tok V)) :
    name D (.word s.toList :: r) = (bare D s).map fun n => (n, r) := by
  simp only [name, bare]
  split <;> rfl

theorem many_words (D : Dialect) {α : Type} (txt : α → String) (k : List α) (hk : k ≠ []) (r : List (Tok V))
    (hr : sym ',' r = none) (n : Nat) (hn : k.length ≤ n) :
    many (name D) n (sep (k.map fun c => [.word (txt c).toList]) ++ r) =
      (k.mapM fun c => bare D (txt c)).map fun ns => (ns, r) := by
  induction k generalizing n with
  | nil => exact absurd rfl hk
  | cons a k ih =>
    obtain ⟨m, rfl⟩ : ∃ m, n = m + 1 := ⟨n - 1, by simp at hn; omega⟩
    cases k with
    | nil =>
      simp only [List.map_cons, List.map_nil, sep, List.cons_append, List.nil_append, many, name_word]
      cases e : bare D (txt a) <;> simp [hr, e]
    | cons b k =>
      have i := ih (by simp) m (by simpa using hn)
      simp only [List.map_cons] at i
      simp only [List.map_cons, sep, List.cons_append, List.nil_append, many, name_word, List.mapM_cons (f := fun c => bare D (txt c)) (a := a)]
      cases bare D (txt a) with
      | none => simp
      | some x =>
        simp only [Option.map_some, sym, if_true, i, Option.bind_eq_bind, Option.bind_some]
        cases List.mapM (fun c => bare D (txt c)) (b :: k) <;> simp

theorem many1_words (D : Dialect) {α : Type} (txt : α → String) (k : List α) (hk : k ≠ []) (r : List (Tok V))
    (hr : sym ',' r = none) : many1 (name D) (sep (k.map fun c => [.word (txt c).toList]) ++ r) =
      (k.mapM fun c => bare D (txt c)).map fun ns => (ns, r) := by
  unfold many1
  apply many_words D txt k hk r hr
  have := sep_length (V := V) (fun c => [.word (txt c).toList]) k (by simp)
  rw [List.length_append]; omega

theorem mapM_length {α β : Type} (f : α → Option β) (k : List α) (ns : List β) (h : k.mapM f = some ns) :
    ns.length = k.length := by
  induction k generalizing ns with
  | nil => simp at h; simp [h]
  | cons a k ih =>
    simp only [List.mapM_cons, Option.bind_eq_bind, Option.bind_eq_some_iff, Option.pure_def, Option.some.injEq] at h
    obtain ⟨x, -, y, hy, rfl⟩ := h
    simp [ih y hy]

theorem cond_words {D : Dialect} (hq : IsQuote D.quote) {α : Type} {txt : α → String} {k : List α}
    (h : ∀ c ∈ k, Wordy D (txt c)) (hk : k ≠ []) (val : α → V) :
    ∃ t, Lexes D.quote (condB txt val k) t ∧ ∀ r, Spec.Sql.cond D (t ++ r) =
      (k.mapM fun c => bare D (txt c)).map fun ns => (ns.zip (k.map val), r) := by
  match k, hk, h with
  | [c], _, h =>
    refine ⟨[.word (txt c).toList, .sym '=', .val (val c)], ?_, fun r => ?_⟩
    · have e : condB txt val [c] = bs (txt c) ++ (bs " = " ++ [.val (val c)]) := by simp [condB]
      rw [e]
      exact (lexes_wordy (h c (by simp))).lit (lit_eq hq) (idle_val _ (val c)).lexes
    · simp only [List.cons_append, List.nil_append, Spec.Sql.cond, sym, Spec.Sql.equal, name_word]
      cases e : bare D (txt c) <;> simp [e, value]
  | a :: b :: l, hk, h =>
    refine ⟨[.sym '('] ++ (sep ((a :: b :: l).map fun c => [.word (txt c).toList]) ++ ([.sym ')', .sym '=', .sym '('] ++
      (sep ((a :: b :: l).map fun c => [.val (val c)]) ++ [.sym ')']))), ?_, fun r => ?_⟩
    · unfold condB
      simp only [List.append_assoc]
      exact (idle_open hq).append ((lexes_comma hq _ _ (a :: b :: l) (fun c hc => lexes_wordy (h c hc)) hk).lit
        (lit_eq_open hq) ((vals_lexes hq val hk).lit_end (lit_close hq)))
    · generalize a :: b :: l = k at *
      have h1 := many1_words (V := V) D txt k hk
      have h2 := vals_parse (V := V) val hk
      cases e : k.mapM fun c => bare D (txt c) with
      | none => rw [e] at h1; simp [Spec.Sql.cond, sym, h1]
      | some ns =>
        rw [e] at h1
        have hl : ns.length = k.length := by
          exact mapM_length _ k ns e
        simp [Spec.Sql.cond, sym, h1, h2, hl]

theorem read_delete_words {D : Dialect} (hq : IsQuote D.quote) {α : Type} {txt : α → String} {k : List α} {tb : String}
    (ht : Wordy D tb) (h : ∀ c ∈ k, Wordy D (txt c)) (hk : k ≠ []) (val : α → V) :
    Sql.read D (bs "DELETE FROM " ++ bs tb ++ bs " WHERE " ++ condB txt val k ++ bs ";") =
      (bare D tb).bind fun tn => (k.mapM fun c => bare D (txt c)).map fun ns => .delete tn (ns.zip (k.map val)) := by
  obtain ⟨t, hc, hp⟩ := cond_words hq h hk val
  have hl := ((idle_delete (V := V) hq).append ((lexes_wordy ht).lit (lit_where hq)
    (hc.lit_end (lit_end hq)))).lex
  simp only [List.append_assoc]
  simp only [Spec.Sql.read, hl, Option.bind_some, stmt]
  cases e1 : bare D tb with
  | none => simp [insert?, select?, update?, delete?, Sql.kw, upper, name_word, e1]
  | some tn =>
    cases e2 : k.mapM fun c => bare D (txt c) with
    | none => rw [e2] at hp; simp [insert?, select?, update?, delete?, Sql.kw, upper, name_word, e1, hp]
    | some ns => rw [e2] at hp; simp [insert?, select?, update?, delete?, Sql.kw, upper, name_word, e1, hp, done, sym]

end Verif.Store

import Verif.Lemmas.Text
import Verif.Lemmas.Grouping

/-!
# Properties C12, C13, C14, C16, C17, C18, C59, C60: conditions and statements
-/

namespace Verif.Props

open Verif.Spec

variable {V : Type}

/-! ### C12 -/

/-- C12. A condition appended to a consistent statement leaves it consistent, and what the database
sees grows by exactly the text of the condition with the user's values in their places. -/
theorem C12_condition_binds (st : Style) (c : Clause V) (s : Stmt V) (b : List (BSym V))
    (hc : st = .numbered ∨ inNonempty c = true)
    (hb : bind st s.text s.args = some b)
    (hn : st = .numbered → s.pos = s.args.length ∧ nums s.text = List.range' 1 s.args.length) :
    ∃ s', c.run st s = .ok s' ∧ bind st s'.text s'.args = some (b ++ meaning c) ∧
      (st = .numbered → s'.pos = s'.args.length ∧ nums s'.text = List.range' 1 s'.args.length) := by
  obtain ⟨s', h⟩ := run_ok st c s hc
  have := run_aligned st c s s' b ⟨hb, hn⟩ h
  exact ⟨s', h, this.1, this.2⟩

/-- C12 without a hypothesis on the condition: a condition is either not appended at all, the program panics, which happens exactly for an empty value
list with anonymous placeholders (C18), or it is appended as in `C12_condition_binds`. -/
theorem C12_condition_total (st : Style) (c : Clause V) (s : Stmt V) (b : List (BSym V)) (hb : bind st s.text s.args = some b)
    (hn : st = .numbered → s.pos = s.args.length ∧ nums s.text = List.range' 1 s.args.length) :
    (c.run st s = .panic ∧ st = .anon ∧ inNonempty c = false) ∨
    (∃ s', c.run st s = .ok s' ∧ bind st s'.text s'.args = some (b ++ meaning c) ∧
      (st = .numbered → s'.pos = s'.args.length ∧ nums s'.text = List.range' 1 s'.args.length)) := by
  cases st with
  | numbered => exact .inr (C12_condition_binds _ c s b (.inl rfl) hb hn)
  | anon =>
    cases hc : inNonempty c with
    | true => exact .inr (C12_condition_binds _ c s b (.inr hc) hb hn)
    | false => exact .inl ⟨run_panic c s hc, rfl, rfl⟩

/-- C12. On a new statement, at the level of characters: the placeholders found by scanning the text
sent to the database, filled with the arguments sent along, give the condition with its values. -/
theorem C12_condition_text (st : Style) (c : Clause V) (hc : st = .numbered ∨ inNonempty c = true)
    (hn : ∀ n ∈ names c, CleanStr st n) :
    ∃ s', c.run st {} = .ok s' ∧
      bind st (scan st (renderTxt s'.text)) s'.args = some (meaning c) := by
  obtain ⟨s', h⟩ := run_ok st c {} hc
  have h1 := run_aligned st c {} s' [] (aligned_nil st) h
  have h2 := run_safe st c {} s' trivial (by intro u s e; simp at e) hn h
  exact ⟨s', h, by rw [scan_render st _ h2]; exact h1.1⟩

private def colA : Col Nat := ⟨"a", id⟩
private def colB : Col Nat := ⟨"`b`", fun n => n + 1⟩
private def exC : Clause Nat :=
  .or [.and [.cmp .eq colA 5, .isIn false colB [1, 2]], .between true colA 7 8]

example : inNonempty exC = true := by decide
example : (match exC.run .numbered {} with | .ok s => String.ofList (renderTxt s.text) | _ => "") =
    "((a = $1 AND `b` IN ($2,$3)) OR a NOT BETWEEN $4 AND $5)" := by decide +kernel
example : (match exC.run .anon {} with | .ok s => s.args | _ => []) = [5, 2, 3, 7, 8] := by decide
example : ∀ n ∈ names exC, CleanStr .numbered n := by
  simp [exC, names, namesL, colA, colB, CleanStr, special]

/-! ### C13 -/

/-- C13. A condition without empty groups or empty value lists, over ordinary column names, is
parsed by SQL's precedence rules as an expression with the truth value of the tree the user built,
whatever the truth values of the elementary conditions. -/
theorem C13_grouping (st : Style) (c : Clause V) (hw : WellFormed c)
    (hc : st = .numbered ∨ inNonempty c = true) :
    ∃ s' b ast, c.run st {} = .ok s' ∧ bind st s'.text s'.args = some b ∧
      parseCond (lex b) = some ast ∧ ∀ I, ast.eval I = sem I c := by
  obtain ⟨s', h⟩ := run_ok st c {} hc
  have h1 := run_aligned st c {} s' [] (aligned_nil st) h
  refine ⟨s', meaning c, astOf c, h, h1.1, ?_, fun I => eval_astOf I c hw⟩
  have := lex_meaning c hw [] trivial
  rw [List.append_nil, show lexFrom [] ([] : List (BSym V)) = [] by simp [lexFrom, flush],
    List.append_nil] at this
  rw [lex, this]
  exact parse_toks c hw

/-- C13, boundary. An empty `And` or `Or` used as a whole condition is not a condition. -/
theorem C13_empty_condition_invalid :
    parseCond (lex (meaning (.and [] : Clause V))) = none ∧
    parseCond (lex (meaning (.or [] : Clause V))) = none := by
  constructor <;>
    simp [meaning, meanings, paren, lex, lexFrom, flush, parseCond, pOr, pAnd, pPrim, pPred]

/-- C13, boundary. A group with an empty group among its members is never accepted by the database,
wherever the empty member stands. -/
theorem C13_empty_member_invalid (pre post : List (Clause V)) (hp : AllWF pre) (e : Clause V)
    (he : e = .and [] ∨ e = .or []) :
    parseCond (lex (meaning (.and (pre ++ e :: post)))) = none ∧
    parseCond (lex (meaning (.or (pre ++ e :: post)))) = none := by
  have hm : meaning e = [] := by rcases he with rfl | rfl <;> simp [meaning, meanings, paren]
  constructor
  · rw [meaning, meanings_eq, List.map_append, List.map_cons, hm,
      group_empty_member " AND " "AND" rfl lex_and pre hp]
    have hs := stuck_rest " AND " "AND" (by decide) lex_and (post.map meaning)
    generalize lexFrom [] (restText " AND " (post.map meaning) ++ bs ")") = ts at hs
    unfold parseCond
    generalize hn : 3 * (WTok.lp :: ((pre.flatMap fun c => toks c ++ [.word (kw "AND")]) ++ ts)).length + 3 = n
    obtain ⟨m, rfl⟩ : ∃ m, n = m + 4 := ⟨n - 4, by simp at hn; omega⟩
    rw [pOr, pAnd, pPrim, pOr, pAnd_stuck pre hp ts hs m (by simp at hn ⊢; omega)]
  · rw [meaning, meanings_eq, List.map_append, List.map_cons, hm,
      group_empty_member " OR " "OR" rfl lex_or pre hp]
    have hs := stuck_rest " OR " "OR" (by decide) lex_or (post.map meaning)
    generalize lexFrom [] (restText " OR " (post.map meaning) ++ bs ")") = ts at hs
    unfold parseCond
    generalize hn : 3 * (WTok.lp :: ((pre.flatMap fun c => toks c ++ [.word (kw "OR")]) ++ ts)).length + 3 = n
    obtain ⟨m, rfl⟩ : ∃ m, n = m + 3 := ⟨n - 3, by simp at hn; omega⟩
    rw [pOr, pAnd, pPrim, pOr_stuck pre hp ts hs m (by simp at hn ⊢; omega)]

example : WellFormed exC := by
  simp [exC, WellFormed, AllWF, SimpleName, colA, colB, reserved, kw]

/-! ### C14 -/

mutual
/-- A condition with its values (but not their number) forgotten. -/
def shape : Clause V → Clause Unit
  | .and cs => .and (shapes cs)
  | .or cs => .or (shapes cs)
  | .cmp op c _ => .cmp op ⟨c.name, id⟩ ()
  | .isIn neg c vs => .isIn neg ⟨c.name, id⟩ (vs.map fun _ => ())
  | .null neg c => .null neg ⟨c.name, id⟩
  | .between neg c _ _ => .between neg ⟨c.name, id⟩ () ()
def shapes : List (Clause V) → List (Clause Unit)
  | [] => []
  | c :: cs => shape c :: shapes cs
end

/-- A statement with its values forgotten. -/
def forget (s : Stmt V) : Stmt Unit := ⟨s.text, s.pos, s.args.map fun _ => ()⟩

private theorem vars_forget (st : Style) (s : Stmt V) (vs : List V) :
    (forget s).vars st (vs.map fun _ => ()) = (s.vars st vs).map fun p => (forget p.1, p.2) := by
  cases st with
  | numbered => simp [Stmt.vars, Res.map, forget]
  | anon =>
    cases vs with
    | nil => simp [Stmt.vars, Stmt.repeatVar, Res.map]
    | cons v vs => simp [Stmt.vars, Stmt.repeatVar, Res.map, forget, tx]

private theorem forget_write (s : Stmt V) (t : Txt) : (forget s).write t = forget (s.write t) := rfl

mutual
private theorem run_forget (st : Style) : (c : Clause V) → (s : Stmt V) →
    (shape c).run st (forget s) = (c.run st s).map forget
  | .and cs, s => by rw [shape, Clause.run, Clause.run]; exact group_forget st _ cs s
  | .or cs, s => by rw [shape, Clause.run, Clause.run]; exact group_forget st _ cs s
  | .cmp op c v, s => by simp [shape, Clause.run, Stmt.var, Stmt.write, forget, Res.map]
  | .isIn neg c vs, s => by
    have h := vars_forget st s (vs.map c.conv)
    simp only [List.map_map, Function.comp_def] at h
    simp only [shape, Clause.run, List.map_map, Function.comp_def]
    simp only [id_eq]
    rw [h]
    cases s.vars st (vs.map c.conv) <;> simp [Res.map, forget_write]
  | .null neg c, s => by simp [shape, Clause.run, Stmt.write, forget, Res.map]
  | .between neg c a b, s => by simp [shape, Clause.run, Stmt.var, Stmt.write, forget, Res.map]
private theorem group_forget (st : Style) (sep : String) : (cs : List (Clause V)) → (s : Stmt V) →
    runGroup st sep (shapes cs) (forget s) = (runGroup st sep cs s).map forget
  | [], s => by simp [shapes, runGroup, Res.map]
  | c :: cs, s => by
    rw [shapes, runGroup, runGroup, forget_write, run_forget st c]
    cases c.run st (s.write (tx "(")) with
    | err => rfl
    | panic => rfl
    | ok s1 =>
      simp only [Res.map, Res.ok_bind]
      rw [rest_forget st sep cs s1]
      cases runRest st sep cs s1 <;> simp [Res.map, forget_write]
private theorem rest_forget (st : Style) (sep : String) : (cs : List (Clause V)) → (s : Stmt V) →
    runRest st sep (shapes cs) (forget s) = (runRest st sep cs s).map forget
  | [], s => by simp [shapes, runRest, Res.map]
  | c :: cs, s => by
    rw [shapes, runRest, runRest, forget_write, run_forget st c]
    cases c.run st (s.write (tx sep)) with
    | err => rfl
    | panic => rfl
    | ok s1 =>
      simp only [Res.map, Res.ok_bind]
      exact rest_forget st sep cs s1
end

/-- C14. Two conditions that differ only in their values (of possibly different types) give the same
text: no value ever becomes part of the statement text.  Their outcomes agree as well. -/
theorem C14_text_independent_of_values {W : Type} (st : Style) (c : Clause V) (d : Clause W)
    (h : shape c = shape d) :
    (c.run st {}).map (fun s => renderTxt s.text) = (d.run st {}).map (fun s => renderTxt s.text) := by
  have e1 := run_forget st c {}
  have e2 := run_forget st d {}
  have e0 : forget ({} : Stmt V) = forget ({} : Stmt W) := rfl
  rw [h, e0, e2] at e1
  cases hc : c.run st {} <;> cases hd : d.run st {} <;> simp_all [Res.map, forget]

example : shape exC = shape (.or [.and [.cmp .eq ⟨"a", id⟩ "x'; --", .isIn false ⟨"`b`", id⟩ ["?", "$9"]],
    .between true ⟨"a", id⟩ "" "z"]) := by simp [exC, shape, shapes, colA, colB]

/-! ### C16 -/

/-- C16. Printing a condition with its values never fails and shows the condition with every value
printed in its own place. -/
theorem C16_format_condition (st : Style) (strf : V → List Char) (c : Clause V)
    (hc : st = .numbered ∨ inNonempty c = true) (hn : ∀ n ∈ names c, CleanStr st n) :
    ∃ s', c.run st {} = .ok s' ∧ s'.format st strf = .ok (showB strf (meaning c)) := by
  obtain ⟨s', h⟩ := run_ok st c {} hc
  have h1 := run_aligned st c {} s' [] (aligned_nil st) h
  have h2 := run_safe st c {} s' trivial (by intro u s e; simp at e) hn h
  exact ⟨s', h, format_aligned st strf s' _ h2 h1⟩

/-- C16, boundary. If a column name contains the placeholder character, the values are printed in
the wrong places: here the single value replaces part of the column name, whatever the value. -/
theorem C16_format_needs_clean_names (strf : V → List Char) (v : V) :
    ∃ s', (Clause.cmp .eq ⟨"a?b", id⟩ v).run .anon {} = .ok s' ∧ s'.format .anon strf = .panic := by
  refine ⟨_, rfl, ?_⟩
  have e : renderTxt (Stmt.write (Stmt.var .anon ({} : Stmt V) v).1
      (tx "a?b" ++ tx " = " ++ [.anon])).text = "a?b = ?".toList := by
    simp [Stmt.write, Stmt.var, tx, renderTxt, Sym.chars]
  show formatLoop .anon strf 1 [v] (renderTxt (Stmt.write (Stmt.var .anon ({} : Stmt V) v).1
      (tx "a?b" ++ tx " = " ++ [.anon])).text) = .panic
  rw [e]
  have c1 : cut (Style.var .anon 1).chars "a?b = ?".toList = some ("a".toList, "b = ?".toList) := by decide
  have c2 : cut (Style.var .anon 2).chars "b = ?".toList = some ("b = ".toList, "".toList) := by decide
  rw [formatLoop, c1]
  simp only
  rw [formatLoop, c2]
  simp

/-! ### C17 -/

theorem query_core (st : Style) (m : ModelInfo) (q : Select V) (s : Stmt V)
    (h : queryStmt st m q = .ok s) :
    ∃ t b, queryTable m q.fromTable = some t ∧ SelectText m q t b ∧ AlignedS st s b := by
  simp only [queryStmt, Res.bind_eq_ok] at h
  obtain ⟨s1, h1, s2, h2, h⟩ := h
  simp only [Res.ok.injEq] at h
  subst h
  have a0 := selectList_aligned (AlignedS.writeS (V := V) (st := st) (s := {}) (b := []) (aligned_nil st) "SELECT ")
    m q.select
  obtain ⟨t, ht, a1⟩ := fromClause_aligned a0 m _ h1
  have a2 := groupBy_aligned (whereClause_aligned a1 _ h2) q.groupBy
  obtain ⟨o, ho, a3⟩ := orderBy_aligned a2 q.orderBy
  have a4 := (offset_aligned (limit_aligned a3 q.limit) q.offset).writeS ";"
  exact ⟨t, _, ht, ⟨o, ho, rfl⟩, by simpa using a4⟩

theorem queryOne_core (st : Style) (m : ModelInfo) (q : Select V) (s : Stmt V)
    (h : queryOneStmt st m q = .ok s) :
    ∃ t b, queryTable m q.fromTable = some t ∧ SelectOneText m q t b ∧ AlignedS st s b := by
  simp only [queryOneStmt, Res.bind_eq_ok] at h
  obtain ⟨s1, h1, s2, h2, h⟩ := h
  simp only [Res.ok.injEq] at h
  subst h
  have a0 := selectList_aligned (AlignedS.writeS (V := V) (st := st) (s := {}) (b := []) (aligned_nil st) "SELECT ")
    m q.select
  obtain ⟨t, ht, a1⟩ := fromClause_aligned a0 m _ h1
  have a2 := groupBy_aligned (whereClause_aligned a1 _ h2) q.groupBy
  obtain ⟨o, ho, a3⟩ := orderBy_aligned a2 q.orderBy
  exact ⟨t, _, ht, ⟨o, ho, rfl⟩, by simpa using a3.writeS " LIMIT 1;"⟩

/-- Whether the conditions of a statement can be written at all (no empty value list where that
panics). -/
def Writable (st : Style) (w : Option (Clause V)) : Prop :=
  st = .numbered ∨ ∀ c, w = some c → inNonempty c = true

theorem where_ok (st : Style) (w : Option (Clause V)) (hw : Writable st w) (s : Stmt V) :
    ∃ s', s.whereClause st w = .ok s' := by
  cases w with
  | none => exact ⟨s, rfl⟩
  | some c => exact run_ok st c _ (hw.imp id (fun h => h c rfl))

/-- C17. A query on a table known from the description or from the model is sent as the intended
SELECT with its values, every clause in its place; the placeholders are found by scanning the
characters.  Without a table the helper reports an error. -/
theorem C17_query (st : Style) (m : ModelInfo) (q : Select V) (hw : Writable st q.where_)
    (hm : CleanModel st m) (hq : CleanSelect st q) :
    (∀ t, queryTable m q.fromTable = some t → ∃ s b, queryStmt st m q = .ok s ∧
      bind st (scan st (renderTxt s.text)) s.args = some b ∧ SelectText m q t b) ∧
    (queryTable m q.fromTable = none → queryStmt st m q = .err) := by
  constructor
  · intro t ht
    have hf : ∀ s : Stmt V, ∃ s', s.fromClause m q.fromTable = .ok s' := by
      intro s
      unfold Stmt.fromClause queryTable at *
      by_cases hf : q.fromTable = ""
      · rw [if_pos hf] at ht
        rw [if_neg (by simpa using hf), ht]; exact ⟨_, rfl⟩
      · rw [if_pos hf]; exact ⟨_, rfl⟩
    have hok : ∃ s, queryStmt st m q = .ok s := by
      obtain ⟨s1, h1⟩ := hf ((Stmt.writeS ({} : Stmt V) "SELECT ").selectList m q.select)
      obtain ⟨s2, h2⟩ := where_ok st q.where_ hw s1
      exact ⟨((((s2.groupByClause q.groupBy).orderByClause q.orderBy).limitClause q.limit).offsetClause
        q.offset).writeS ";", by simp only [queryStmt, h1, h2, Res.ok_bind]⟩
    obtain ⟨s, hs⟩ := hok
    obtain ⟨t', b, ht', hb, ha⟩ := query_core st m q s hs
    rw [ht] at ht'
    cases ht'
    exact ⟨s, b, hs, by rw [scan_render st _ (queryStmt_safe st m q s hm hq hs)]; exact ha.1, hb⟩
  · intro ht
    unfold queryTable at ht
    split at ht
    · next hf =>
      simp only [queryStmt, Stmt.fromClause]
      rw [if_neg (by simpa using hf), ht]; rfl
    · cases ht

/-- C17. The same for the single row query. -/
theorem C17_query_one (st : Style) (m : ModelInfo) (q : Select V) (hw : Writable st q.where_)
    (hm : CleanModel st m) (hq : CleanSelect st q) :
    (∀ t, queryTable m q.fromTable = some t → ∃ s b, queryOneStmt st m q = .ok s ∧
      bind st (scan st (renderTxt s.text)) s.args = some b ∧ SelectOneText m q t b) ∧
    (queryTable m q.fromTable = none → queryOneStmt st m q = .err) := by
  constructor
  · intro t ht
    have hf : ∀ s : Stmt V, ∃ s', s.fromClause m q.fromTable = .ok s' := by
      intro s
      unfold Stmt.fromClause queryTable at *
      by_cases hf : q.fromTable = ""
      · rw [if_pos hf] at ht
        rw [if_neg (by simpa using hf), ht]; exact ⟨_, rfl⟩
      · rw [if_pos hf]; exact ⟨_, rfl⟩
    have hok : ∃ s, queryOneStmt st m q = .ok s := by
      obtain ⟨s1, h1⟩ := hf ((Stmt.writeS ({} : Stmt V) "SELECT ").selectList m q.select)
      obtain ⟨s2, h2⟩ := where_ok st q.where_ hw s1
      exact ⟨((s2.groupByClause q.groupBy).orderByClause q.orderBy).writeS " LIMIT 1;",
        by simp only [queryOneStmt, h1, h2, Res.ok_bind]⟩
    obtain ⟨s, hs⟩ := hok
    obtain ⟨t', b, ht', hb, ha⟩ := queryOne_core st m q s hs
    rw [ht] at ht'
    cases ht'
    exact ⟨s, b, hs, by rw [scan_render st _ (queryOneStmt_safe st m q s hm hq hs)]; exact ha.1, hb⟩
  · intro ht
    unfold queryTable at ht
    split at ht
    · next hf =>
      simp only [queryOneStmt, Stmt.fromClause]
      rw [if_neg (by simpa using hf), ht]; rfl
    · cases ht

theorem update_core (st : Style) (m : ModelInfo) (u : Update V) (hw : Writable st u.where_) :
    ∃ s b, execUpdate st m u = .ok s ∧
      AlignedS st s b ∧ UpdateText st m u b := by
  generalize h0 : (match m.table with
    | some t => Stmt.writeS ({} : Stmt V) ("UPDATE " ++ dbTable m t)
    | none => Stmt.writeS {} ("UPDATE " ++ dbName m ++ u.table)) = s0
  have a0 : AlignedS st s0 (bs "UPDATE " ++ qualified m (m.table.getD u.table)) := by
    subst h0
    cases ht : m.table with
    | none =>
      have := AlignedS.writeS (V := V) (st := st) (s := {}) (b := []) (aligned_nil st) ("UPDATE " ++ dbName m ++ u.table)
      rw [Option.getD_none, ← bs_dbName]
      simpa using this
    | some t =>
      have := AlignedS.writeS (V := V) (st := st) (s := {}) (b := []) (aligned_nil st) ("UPDATE " ++ dbTable m t)
      rw [Option.getD_some, ← bs_dbTable]
      simpa using this
  have a1 := set_aligned a0 u.set
  obtain ⟨s2, h2⟩ := where_ok st u.where_ hw (s0.setClause st u.set)
  have a2 := whereClause_aligned a1 _ h2
  obtain ⟨o, ho, a3⟩ := orderBy_aligned a2 u.orderBy
  have a4 := (execLimit_aligned a3 u.limit).writeS ";"
  have hok : execUpdate st m u = .ok ((execLimit st u.limit (s2.orderByClause u.orderBy)).writeS ";") := by
    have : execUpdate st m u = (Stmt.whereClause st u.where_ (Stmt.setClause st u.set s0) >>= fun s =>
        Res.ok ((execLimit st u.limit (Stmt.orderByClause u.orderBy s)).writeS ";")) := by
      rw [← h0]; rfl
    rw [this, h2]; rfl
  exact ⟨_, _, hok, by simpa using a4, ⟨o, ho, rfl⟩⟩

/-- C17. UPDATE statements. -/
theorem C17_update (st : Style) (m : ModelInfo) (u : Update V) (hw : Writable st u.where_)
    (hm : CleanModel st m) (hu : CleanUpdate st u) :
    ∃ s b, execUpdate st m u = .ok s ∧
      bind st (scan st (renderTxt s.text)) s.args = some b ∧ UpdateText st m u b := by
  obtain ⟨s, b, hok, ha, hb⟩ := update_core st m u hw
  refine ⟨s, b, hok, ?_, hb⟩
  rw [scan_render st _ (execUpdate_safe st m u _ hm hu hok)]
  exact ha.1

/-- C16 for UPDATE statements. -/
theorem C16_format_update (st : Style) (strf : V → List Char) (m : ModelInfo) (u : Update V)
    (hw : Writable st u.where_) (hm : CleanModel st m) (hu : CleanUpdate st u) :
    ∃ s b, execUpdate st m u = .ok s ∧ UpdateText st m u b ∧ s.format st strf = .ok (showB strf b) := by
  obtain ⟨s, b, hok, ha, hb⟩ := update_core st m u hw
  exact ⟨s, b, hok, hb, format_aligned st strf s b (execUpdate_safe st m u _ hm hu hok) ha⟩

theorem delete_core (st : Style) (m : ModelInfo) (u : Delete V) (hw : Writable st u.where_) :
    ∃ s b, execDelete st m u = .ok s ∧
      AlignedS st s b ∧ DeleteText st m u b := by
  generalize h0 : (match m.table with
    | some t => Stmt.writeS ({} : Stmt V) ("DELETE FROM " ++ dbTable m t)
    | none => Stmt.writeS {} ("DELETE FROM " ++ dbName m ++ u.fromTable)) = s0
  have a0 : AlignedS st s0 (bs "DELETE FROM " ++ qualified m (m.table.getD u.fromTable)) := by
    subst h0
    cases ht : m.table with
    | none =>
      have := AlignedS.writeS (V := V) (st := st) (s := {}) (b := []) (aligned_nil st)
        ("DELETE FROM " ++ dbName m ++ u.fromTable)
      rw [Option.getD_none, ← bs_dbName]
      simpa using this
    | some t =>
      have := AlignedS.writeS (V := V) (st := st) (s := {}) (b := []) (aligned_nil st) ("DELETE FROM " ++ dbTable m t)
      rw [Option.getD_some, ← bs_dbTable]
      simpa using this
  obtain ⟨s2, h2⟩ := where_ok st u.where_ hw s0
  have a2 := whereClause_aligned a0 _ h2
  obtain ⟨o, ho, a3⟩ := orderBy_aligned a2 u.orderBy
  have a4 := (execLimit_aligned a3 u.limit).writeS ";"
  have hok : execDelete st m u = .ok ((execLimit st u.limit (s2.orderByClause u.orderBy)).writeS ";") := by
    have : execDelete st m u = (Stmt.whereClause st u.where_ s0 >>= fun s =>
        Res.ok ((execLimit st u.limit (Stmt.orderByClause u.orderBy s)).writeS ";")) := by
      rw [← h0]; rfl
    rw [this, h2]; rfl
  exact ⟨_, _, hok, by simpa using a4, ⟨o, ho, rfl⟩⟩

/-- C17. DELETE statements. -/
theorem C17_delete (st : Style) (m : ModelInfo) (u : Delete V) (hw : Writable st u.where_)
    (hm : CleanModel st m) (hu : CleanDelete st u) :
    ∃ s b, execDelete st m u = .ok s ∧
      bind st (scan st (renderTxt s.text)) s.args = some b ∧ DeleteText st m u b := by
  obtain ⟨s, b, hok, ha, hb⟩ := delete_core st m u hw
  refine ⟨s, b, hok, ?_, hb⟩
  rw [scan_render st _ (execDelete_safe st m u _ hm hu hok)]
  exact ha.1

/-- C16 for DELETE statements. -/
theorem C16_format_delete (st : Style) (strf : V → List Char) (m : ModelInfo) (u : Delete V)
    (hw : Writable st u.where_) (hm : CleanModel st m) (hu : CleanDelete st u) :
    ∃ s b, execDelete st m u = .ok s ∧ DeleteText st m u b ∧ s.format st strf = .ok (showB strf b) := by
  obtain ⟨s, b, hok, ha, hb⟩ := delete_core st m u hw
  exact ⟨s, b, hok, hb, format_aligned st strf s b (execDelete_safe st m u _ hm hu hok) ha⟩

/-- C16 for whole queries: printing a query shows it with its values in place. -/
theorem C16_format_query (st : Style) (strf : V → List Char) (m : ModelInfo) (q : Select V) (s : Stmt V)
    (hm : CleanModel st m) (hq : CleanSelect st q) (h : queryStmt st m q = .ok s) :
    ∃ t b, queryTable m q.fromTable = some t ∧ SelectText m q t b ∧
      s.format st strf = .ok (showB strf b) := by
  obtain ⟨t, b, ht, hb, ha⟩ := query_core st m q s h
  exact ⟨t, b, ht, hb, format_aligned st strf s b (queryStmt_safe st m q s hm hq h) ha⟩

private def exQ : Select Nat :=
  { where_ := some exC, orderBy := [⟨"a", true⟩, ⟨"c", true⟩, ⟨"d", false⟩], groupBy := ["a", "c"],
    limit := 10, offset := 20 }
private def exM : ModelInfo := { table := some "t", database := some "db", columns := some ["a", "b"] }

example : (match queryStmt .numbered exM exQ with | .ok s => String.ofList (renderTxt s.text) | _ => "") =
    "SELECT a,b FROM db.t WHERE ((a = $1 AND `b` IN ($2,$3)) OR a NOT BETWEEN $4 AND $5) GROUP BY a,c ORDER BY a,c ASC,d DESC LIMIT 10 OFFSET 20;" := by
  decide +kernel

example : Writable .anon exQ.where_ := .inr (by intro c hc; cases hc; decide)
example : CleanModel .numbered exM ∧ CleanSelect .numbered exQ := by
  simp [CleanModel, exM, CleanSelect, exQ, exC, names, namesL, colA, colB, CleanStr, special]

private def exU : Update Nat :=
  { table := "t", set := [⟨colA, 3⟩, ⟨colB, 4⟩], where_ := some (.cmp .ne colA 9),
    orderBy := [⟨"a", false⟩], limit := 2 }
private def exD : Delete Nat := { fromTable := "t", where_ := some exC, orderBy := [], limit := 0 }
example : (match execUpdate .anon exM exU with | .ok s => String.ofList (renderTxt s.text) | _ => "") =
    "UPDATE db.t SET a = ?,`b` = ? WHERE a <> ? ORDER BY a DESC LIMIT 2;" := by decide +kernel
example : Writable .anon exU.where_ ∧ CleanModel .anon exM ∧ CleanUpdate .anon exU := by
  refine ⟨.inr (by intro c hc; cases hc; decide), ?_⟩
  simp [CleanModel, exM, CleanUpdate, exU, names, colA, colB, CleanStr, special]
example : Writable .anon exD.where_ ∧ CleanModel .anon exM ∧ CleanDelete .anon exD := by
  refine ⟨.inr (by intro c hc; cases hc; decide), ?_⟩
  simp [CleanModel, exM, CleanDelete, exD, exC, names, namesL, colA, colB, CleanStr, special]

/-! ### C18 -/

/-- C18. `In` and `NotIn` with at least one value bind each value exactly once, in order, whatever
was in the statement before. -/
theorem C18_in_values (st : Style) (neg : Bool) (c : Col V) (vs : List V) (hne : vs ≠ [])
    (s : Stmt V) (b : List (BSym V)) (hb : bind st s.text s.args = some b)
    (hn : st = .numbered → s.pos = s.args.length ∧ nums s.text = List.range' 1 s.args.length) :
    ∃ s', (Clause.isIn neg c vs).run st s = .ok s' ∧ s'.args = s.args ++ vs.map c.conv ∧
      bind st s'.text s'.args = some (b ++ bs c.name ++
        bs (if neg then " NOT IN (" else " IN (") ++
        List.intercalate (bs ",") (vs.map fun v => [BSym.val (c.conv v)]) ++ bs ")") := by
  obtain ⟨s', h⟩ := run_ok st (.isIn neg c vs) s (.inr (by cases vs <;> simp_all [inNonempty]))
  have h1 := (run_aligned st _ s s' b ⟨hb, hn⟩ h).1
  refine ⟨s', h, ?_, ?_⟩
  · simp only [Clause.run, Res.bind_eq_ok] at h
    obtain ⟨⟨s1, p⟩, hv, h⟩ := h
    simp only [Res.ok.injEq] at h
    subst h
    cases st with
    | numbered =>
      simp only [Stmt.vars, Res.ok.injEq, Prod.mk.injEq] at hv
      rw [← hv.1]; rfl
    | anon =>
      simp only [Stmt.vars] at hv
      split at hv
      · cases hv
      · simp only [Res.ok.injEq, Prod.mk.injEq] at hv
        rw [← hv.1]; rfl
  · rw [h1]
    cases neg
    · have : (bs " IN (" : List (BSym V)) = bs " IN " ++ bs "(" := rfl
      simp [meaning, tuple, this, Function.comp_def]
    · have : (bs " NOT IN (" : List (BSym V)) = bs " NOT IN " ++ bs "(" := rfl
      simp [meaning, tuple, this, Function.comp_def]

/-- C18, boundary. With no values and anonymous placeholders the program panics, wherever the
condition stands in a larger one. -/
theorem C18_empty_in_panics (c : Clause V) (s : Stmt V) (h : inNonempty c = false) :
    c.run .anon s = .panic := run_panic c s h

/-- C18, boundary. With no values and numbered placeholders a condition is produced that the
database rejects. -/
theorem C18_empty_in_rejected (neg : Bool) (c : Col V) (hc : SimpleName c.name) :
    ∃ s', (Clause.isIn neg c []).run .numbered ({} : Stmt V) = .ok s' ∧ s'.args = [] ∧
      ∀ b, bind .numbered s'.text s'.args = some b → parseCond (lex b) = none := by
  obtain ⟨s', h⟩ := run_ok .numbered (.isIn neg c ([] : List V)) {} (.inl rfl)
  have h1 := (run_aligned .numbered _ {} s' [] (aligned_nil _) h).1
  refine ⟨s', h, ?_, ?_⟩
  · simp only [Clause.run, Stmt.vars, List.map_nil, Res.ok_bind, Res.ok.injEq] at h
    rw [← h]; rfl
  · intro b hb
    rw [h1] at hb
    simp only [List.nil_append, Option.some.injEq] at hb
    subst hb
    have hr := hc.2
    cases neg
    · have : lex (meaning (.isIn false c ([] : List V))) =
          [.word c.name.toList, .word (kw "IN"), .lp, .rp] := by
        rw [lex, meaning, List.append_assoc, lex_name _ hc _ (boundary_sp _ rfl _), lex_in]
        have := lex_tuple ([] : List V) []
        simp only [List.append_nil] at this
        rw [List.map_nil, this]; simp [valToks, lexFrom, flush]
      rw [this]
      simp [parseCond, pOr, pAnd, pPrim, pPred, hr, pTail, pVals, kw]
    · have : lex (meaning (.isIn true c ([] : List V))) =
          [.word c.name.toList, .word (kw "NOT"), .word (kw "IN"), .lp, .rp] := by
        rw [lex, meaning, List.append_assoc, lex_name _ hc _ (boundary_sp _ rfl _), lex_notin]
        have := lex_tuple ([] : List V) []
        simp only [List.append_nil] at this
        rw [List.map_nil, this]; simp [valToks, lexFrom, flush]
      rw [this]
      simp [parseCond, pOr, pAnd, pPrim, pPred, hr, pTail, pVals, kw]

example : SimpleName "`b`" := by simp [SimpleName, reserved, kw]

/-! ### C59 -/

/-- C59, refuted. Whenever delivery of rows stops early with an error, and the rows delivered so far
can be read and closing succeeds, the query helper returns these rows as if they were all. -/
theorem C59_failure_is_silent {R T : Type} (scan : R → Option T) (rows : List R) (ts : List T)
    (h : rows.mapM scan = some ts) :
    scanRows scan { rows := rows, nextErr := true, closeErr := false } = .ok ts := by
  simp [scanRows, h]

/-- C59, what holds. If delivery does not fail, the result is complete: it is a value exactly when
every row can be read and closing succeeds, and then it has all rows in order. -/
theorem C59_complete_partial {R T : Type} (scan : R → Option T) (r : Rows R) (ts : List T)
    (h : scanRows scan r = .ok ts) :
    ts.length = r.rows.length ∧ ∀ i (hi : i < r.rows.length), scan r.rows[i] = ts[i]? := by
  unfold scanRows at h
  cases hm : r.rows.mapM scan with
  | none => simp [hm] at h
  | some us =>
    simp only [hm] at h
    split at h
    · cases h
    · simp only [Res.ok.injEq] at h
      subst h
      rename_i hcl
      clear hcl
      generalize r.rows = l at hm
      clear r
      induction l generalizing us with
      | nil => simp at hm; subst hm; simp
      | cons x l ih =>
        rw [List.mapM_cons] at hm
        cases hx : scan x with
        | none => simp [hx] at hm
        | some y =>
          cases hl : l.mapM scan with
          | none => simp [hx, hl] at hm
          | some ys =>
            simp [hx, hl] at hm
            subst hm
            obtain ⟨h1, h2⟩ := ih ys hl
            refine ⟨by simp [h1], ?_⟩
            intro i hi
            cases i with
            | zero => simp [hx]
            | succ i => simpa using h2 i (by simpa using hi)

example : [1, 2, 3].mapM (fun n : Nat => some (n + 1)) = some [2, 3, 4] := by decide

/-! ### C60 -/

/-- Whether a finished select text ends in an `OFFSET` that is allowed in the dialect. -/
def offsetAllowed (d : Dialect) (q : Select V) : Prop := q.offset = 0 ∨ q.limit ≠ 0 ∨ offsetAlone d = true

/-- C60, refuted for mysql and sqlite: with an offset and no limit the text has an `OFFSET` clause
directly after the rest of the query, without the `LIMIT` that these dialects require. -/
theorem C60_offset_without_limit (st : Style) (m : ModelInfo) (q : Select V) (s : Stmt V)
    (h : queryStmt st m q = .ok s) (hl : q.limit = 0) (ho : q.offset ≠ 0) :
    ¬ offsetAllowed .mysql q ∧ ¬ offsetAllowed .sqlite q ∧ offsetAllowed .postgres q ∧
    ∃ t o, OrderText o q.orderBy ∧ bind st s.text s.args =
      some (bs "SELECT " ++ selectCols m q.select ++ bs " FROM " ++ qualified m t ++
        whereText q.where_ ++ groupText q.groupBy ++ o ++ bs " OFFSET " ++ bs (toString q.offset) ++ bs ";") := by
  obtain ⟨t, b, ht, ⟨o, ho', hb⟩, ha⟩ := query_core st m q s h
  refine ⟨by simp [offsetAllowed, hl, ho, offsetAlone], by simp [offsetAllowed, hl, ho, offsetAlone],
    by simp [offsetAllowed, offsetAlone], t, o, ho', ?_⟩
  rw [ha.1, hb]
  simp [countText, hl, ho]

/-- C60, what holds: with a limit the offset directly follows it. -/
theorem C60_offset_with_limit_partial (st : Style) (m : ModelInfo) (q : Select V) (s : Stmt V)
    (h : queryStmt st m q = .ok s) (hl : q.limit ≠ 0) (ho : q.offset ≠ 0) :
    ∃ pre, bind st s.text s.args = some (pre ++ bs " LIMIT " ++ bs (toString q.limit) ++
      bs " OFFSET " ++ bs (toString q.offset) ++ bs ";") := by
  obtain ⟨t, b, ht, ⟨o, ho', hb⟩, ha⟩ := query_core st m q s h
  refine ⟨bs "SELECT " ++ selectCols m q.select ++ bs " FROM " ++ qualified m t ++
    whereText q.where_ ++ groupText q.groupBy ++ o, ?_⟩
  rw [ha.1, hb]
  simp [countText, hl, ho]

example : ∃ s, queryStmt .numbered exM exQ = .ok s ∧ exQ.limit ≠ 0 ∧ exQ.offset ≠ 0 :=
  ⟨_, rfl, by decide, by decide⟩

end Verif.Props

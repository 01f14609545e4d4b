import Verif.Lemmas.Gen

/-!
# Properties C19–C22, C24, C25: generated statements and methods
-/

namespace Verif.Props

open Verif.Spec Verif.Gen Verif.Spec.Gen

variable {F V : Type}

/-! ### C19 -/

/-- The text of `r` rows, separated by commas, as the batch helpers write it. -/
def rowsText (st : Style) (n r : Nat) : Txt :=
  joinTxt (tx ",") ((List.range r).map (insertPlaceholders st n))

private theorem joinTxt_snoc (sep : Txt) (l : List Txt) (x : Txt) (h : l ≠ []) :
    joinTxt sep (l ++ [x]) = joinTxt sep l ++ sep ++ x := by
  induction l with
  | nil => exact absurd rfl h
  | cons a l ih =>
    cases l with
    | nil => rfl
    | cons b l =>
      have := ih (by simp)
      simp only [List.cons_append] at this ⊢
      rw [joinTxt, this, joinTxt]
      simp

/-- C19. The placeholder groups of rows `0 … r-1`, in a statement with no earlier parameters, refer to
the `r·c` values of the rows, each exactly once, row by row and column by column. -/
theorem C19_row_placeholders (st : Style) (n : Nat) (hn : 0 < n) (rows : List (List V))
    (hr : ∀ r ∈ rows, r.length = n) :
    bind st (rowsText st n rows.length) rows.flatten = some (comma (rows.map rowB)) := by
  induction rows using List.reverseRecOn with
  | nil => exact bind_nil st
  | append_singleton rows vs ih =>
    have ih := ih (fun r h => hr r (by simp [h]))
    have hv := hr vs (by simp)
    have hl : rows.flatten.length = rows.length * n := by
      rw [List.length_flatten, List.map_congr_left (g := fun _ => n) (fun r h => hr r (by simp [h]))]
      simp
    rw [List.flatten_append, List.length_append, List.length_singleton]
    unfold rowsText
    rw [List.range_succ, List.map_append, List.map_singleton]
    cases rows with
    | nil =>
      have := row_binds st n 0 vs hv hn [] [] [] (by simp) (bind_nil st)
      simpa [joinTxt, comma, List.intercalate] using this
    | cons a rows =>
      rw [joinTxt_snoc _ _ _ (by simp [List.range_succ])]
      have := row_binds st n (a :: rows).length vs hv hn _ _ _ hl (bind_tx ih ",")
      have e : comma ((a :: rows ++ [vs]).map rowB) =
          comma ((a :: rows).map rowB) ++ bs "," ++ rowB vs := by
        simp only [comma, List.cons_append, List.map_cons, intercalate_restText]
        simp [restText]
      rw [e]
      simpa [rowsText] using this

example : (∀ r ∈ [[1, 2], [3, 4]], r.length = 2) ∧
    rowsText .numbered 2 2 = tx "(" ++ [.num 1] ++ tx "," ++ [.num 2] ++ tx "),(" ++ [.num 3] ++
      tx "," ++ [.num 4] ++ tx ")" := by decide

/-! ### C20 -/

private theorem valuer_loop (g : Cfg) (rec : F → V) (k : Nat) (cs : List (GCol F))
    (hc : ∀ c ∈ cs, ∀ u, c.sqlVal = some u → Usable g.style u) :
    ∃ x, commaLoop (fun i c => g.sqlValuer c (i + k)) 0 cs = .ok x ∧
      ∀ (t : Txt) (args : List V) (b : List (BSym V)), args.length = k → bind g.style t args = some b →
      bind g.style (t ++ x) (args ++ cs.map fun c => rec c.field) = some (b ++ comma (cs.map (valB rec))) := by
  obtain ⟨x, hx, hb⟩ := loop_vals (st := g.style) (fun i c => g.sqlValuer c (i + k)) rec k (valB rec)
    (fun _ => "") cs (fun i c h => by
      obtain ⟨u, hu, ho⟩ := sqlValuer_ok g c (hc c h) (i + k) rec
      exact ⟨u, by simpa using hu, ho⟩) 0
  exact ⟨x, hx, fun t args b hl h => by simpa [commaFrom_zero] using hb t args b (by simpa using hl) h⟩

private theorem loop_unique {x y : Txt} {r : Res Txt} (h : r = .ok x) (h' : r = .ok y) : x = y := by
  rw [h] at h'; exact Res.ok.inj h'

private theorem scanner_loop (g : Cfg) (V : Type) (cs : List (GCol F))
    (hc : ∀ c ∈ cs, ∀ u, c.sqlScan = some u → Piece.bad ∉ u) :
    ∃ x, commaLoop (fun _ c => g.sqlScanner c) 0 cs = .ok x ∧
      ∀ (t : Txt) (args : List V) (b : List (BSym V)), bind g.style t args = some b →
      bind g.style (t ++ x) args = some (b ++ comma (cs.map (readB g))) :=
  loop_plain (fun _ c => g.sqlScanner c) (readB g) cs (fun _ c h => sqlScanner_ok g c (hc c h)) 0

private theorem names_loop (g : Cfg) (V : Type) (cs : List (GCol F)) :
    ∃ x, commaLoop (fun _ c => .ok (tx (g.quoteId c.name))) 0 cs = .ok x ∧
      ∀ (t : Txt) (args : List V) (b : List (BSym V)), bind g.style t args = some b →
      bind g.style (t ++ x) args = some (b ++ comma (cs.map (identB g))) :=
  loop_plain (fun _ c => .ok (tx (g.quoteId c.name))) (identB g) cs (fun _ _ _ => ⟨_, rfl, rfl⟩) 0

private theorem bind_table (g : Cfg) (tb : Table F) {t : Txt} {args : List V} {b : List (BSym V)}
    (h : bind g.style t args = some b) :
    bind g.style (t ++ g.tableText tb) args = some (b ++ tableB g tb) := by
  unfold Cfg.tableText tableB
  cases tb.ownTable with
  | none => exact bind_tx h _
  | some n => exact bind_tx h _

private theorem pick_mem {t : Table F} {is : List Nat} {c : GCol F} (h : c ∈ pick t is) :
    c ∈ t.columns := by
  simp only [pick, List.mem_filterMap] at h
  obtain ⟨i, -, h⟩ := h
  exact List.mem_of_getElem? h

/-- C20. The generated single-row INSERT is, for every record, the intended statement: the writable
columns that are not auto-increment, each with its own field's value (through its SQL wrapper), and
for postgres all columns returned in order. -/
theorem C20_insert_one (g : Cfg) (t : Table F) (ht : TemplatesOk g.style t) :
    ∃ text fields, g.genInsertOne t = .ok (text, fields) ∧
      ∀ (V : Type) (rec : F → V), bind g.style text (fields.map rec) = some (insertB g t rec) := by
  have hsub : ∀ c ∈ t.insertColumns, c ∈ t.columns := by
    intro c hc; rw [insertColumns_eq] at hc; exact pick_mem hc
  obtain ⟨x1, h1, -⟩ := names_loop g Unit t.insertColumns
  obtain ⟨x2, h2, -⟩ := valuer_loop g (fun _ => ()) 0 t.insertColumns (fun c hc => (ht c (hsub c hc)).1)
  obtain ⟨x3, h3, -⟩ := scanner_loop g Unit t.columns (fun c hc => (ht c hc).2)
  refine ⟨tx "INSERT INTO " ++ g.tableText t ++ tx " (" ++ x1 ++ tx ") VALUES (" ++ x2 ++ tx ")" ++
    (if g.postgres then tx " RETURNING " ++ x3 else []) ++ tx ";", t.insertColumns.map (·.field), ?_, ?_⟩
  · simp only [Nat.add_zero] at h2
    simp only [Cfg.genInsertOne, h1, h2, h3, Res.ok_bind, Res.map, genValues]
    cases g.postgres <;> simp
  · intro V rec
    obtain ⟨y1, e1, b1⟩ := names_loop g V t.insertColumns
    obtain ⟨y2, e2, b2⟩ := valuer_loop g rec 0 t.insertColumns (fun c hc => (ht c (hsub c hc)).1)
    obtain ⟨y3, e3, b3⟩ := scanner_loop g V t.columns (fun c hc => (ht c hc).2)
    cases loop_unique h1 e1
    cases loop_unique h2 e2
    cases loop_unique h3 e3
    have p1 := b1 _ _ _ (bind_tx (bind_table g t (bind_tx (bind_nil (V := V) g.style) "INSERT INTO ")) " (")
    have p2 := bind_tx (b2 _ _ _ rfl (bind_tx p1 ") VALUES (")) ")"
    unfold insertB
    rw [← insertColumns_eq]
    cases hp : g.postgres with
    | false => simpa [hp, Function.comp_def] using bind_tx p2 ";"
    | true => simpa [hp, Function.comp_def] using bind_tx (b3 _ _ _ (bind_tx p2 " RETURNING ")) ";"

private def uuidT : Tmpl := [.lit "UUID_TO_BIN(", .hole, .lit ")"]
private def exT : Table Nat :=
  { name := "user", auto := none, keys := [0, 2],
    columns := [⟨"id", 10, 0, false, none, none⟩, ⟨"created", 11, 1, true, none, none⟩,
      ⟨"uid", 12, 2, false, some [.lit "BIN_TO_UUID(", .hole, .lit ")"], some uuidT⟩,
      ⟨"name", 13, 3, false, none, none⟩] }
private def exG : Cfg := { style := .numbered, quoteId := fun s => "\"" ++ s ++ "\"", postgres := true }

example : TemplatesOk exG.style exT := by
  intro c hc
  simp [exT] at hc
  rcases hc with rfl | rfl | rfl | rfl <;> simp [Usable, uuidT, exG, holes]

example : WF exT := by
  refine ⟨by decide, ?_, by decide, by decide, by simp [exT]⟩
  intro i c h
  match i, h with
  | 0, h => cases h; rfl
  | 1, h => cases h; rfl
  | 2, h => cases h; rfl
  | 3, h => cases h; rfl
  | i + 4, h => simp [exT] at h

example : ∃ text, exG.genInsertOne exT = .ok (text, [10, 12, 13]) ∧
    text = tx "INSERT INTO \"user\" (\"id\",\"uid\",\"name\") VALUES (" ++ [.num 1] ++ tx ",UUID_TO_BIN(" ++
      [.num 2] ++ tx ")," ++ [.num 3] ++
      tx ") RETURNING \"id\",\"created\",BIN_TO_UUID(\"uid\"),\"name\";" := by
  refine ⟨_, rfl, ?_⟩
  decide +kernel

/-! ### C21 -/

private theorem auto_pick (t : Table F) (hw : WF t) (i : Nat) (h : t.auto = some i) :
    ∃ c, t.columns[i]? = some c ∧ t.autoCol = some c ∧ pick t (keyPos t) = [c] := by
  have hi := hw.auto i h
  refine ⟨t.columns[i], List.getElem?_eq_getElem hi, ?_, ?_⟩
  · simp [Table.autoCol, h, List.getElem?_eq_getElem hi]
  · simp [pick, keyPos, h, List.getElem?_eq_getElem hi]

/-- How the generated find statement writes key values: wrapped only for composite keys. -/
private def keyVal (t : Table F) (rec : F → V) (c : GCol F) : List (BSym V) :=
  match pick t (keyPos t) with
  | [_] => [.val (rec c.field)]
  | _ => valB rec c

private theorem find_core (g : Cfg) (t : Table F) (hw : WF t) (ht : TemplatesOk g.style t)
    (hk : t.hasPK = true) :
    ∃ text fields, g.genFindByPK t = .ok (text, fields) ∧
      ∀ (V : Type) (rec : F → V),
        bind g.style text (fields.map rec) = some (findB g t (keyVal t rec)) := by
  obtain ⟨x, hx, -⟩ := scanner_loop g Unit t.columns (fun c hc => (ht c hc).2)
  have hsel : ∀ (V : Type), bind g.style (tx "SELECT " ++ x ++ tx " FROM " ++ g.tableText t ++ tx " WHERE ")
      ([] : List V) = some (bs "SELECT " ++ comma (t.columns.map (readB g)) ++ bs " FROM " ++ tableB g t ++
        bs " WHERE ") := by
    intro V
    obtain ⟨y, e, hb⟩ := scanner_loop g V t.columns (fun c hc => (ht c hc).2)
    cases loop_unique hx e
    have := bind_tx (bind_table g t (bind_tx (hb _ _ _ (bind_tx (bind_nil (V := V) g.style) "SELECT ")) " FROM ")) " WHERE "
    simpa using this
  have single : ∀ (c : GCol F) (V : Type) (rec : F → V), pick t (keyPos t) = [c] →
      bind g.style (tx "SELECT " ++ x ++ tx " FROM " ++ g.tableText t ++ tx " WHERE " ++
        (tx (g.quoteId c.name) ++ tx " = " ++ [g.style.var 1]) ++ tx " LIMIT 1;") ([c.field].map rec) =
        some (findB g t (keyVal t rec)) := by
    intro c V rec hc
    have h1 := bind_val (bind_tx (bind_tx (hsel V) (g.quoteId c.name)) " = ") (oneVal_var g.style 0 (rec c.field))
    have h2 := bind_tx h1 " LIMIT 1;"
    simpa [findB, hc, equalB, identB, keyVal] using h2
  cases ha : t.auto with
  | some i =>
    obtain ⟨c, hc, hcol, hp⟩ := auto_pick t hw i ha
    exact ⟨_, [c.field], by simp only [Cfg.genFindByPK, hx, hcol, Res.ok_bind],
      fun V rec => single c V rec hp⟩
  | none =>
    have hauto : t.autoCol = none := by simp [Table.autoCol, ha]
    have hkp : pick t (keyPos t) = t.keyCols := by simp [keyPos, ha, keyCols_eq]
    have hne : t.keyCols ≠ [] := by
      have : t.keys ≠ [] := by
        intro e; simp [Table.hasPK, ha, e] at hk
      obtain ⟨k, ks, e⟩ := List.exists_cons_of_ne_nil this
      have hkl := hw.keys k (by simp [e])
      simp [Table.keyCols, e, List.getElem?_eq_getElem hkl]
    match hkc : t.keyCols, hne with
    | [c], _ =>
      exact ⟨_, [c.field], by simp only [Cfg.genFindByPK, hx, hauto, hkc, Res.ok_bind, List.map_cons, List.map_nil],
        fun V rec => single c V rec (by rw [hkp, hkc])⟩
    | c :: d :: ks, _ =>
      have hmem : ∀ c' ∈ c :: d :: ks, c' ∈ t.columns := by
        intro c' h'; rw [← hkc] at h'; exact pick_mem h'
      obtain ⟨y, hy, -⟩ := valuer_loop g (fun _ => ()) 0 (c :: d :: ks) (fun c' h' => (ht c' (hmem c' h')).1)
      refine ⟨_, (c :: d :: ks).map (·.field), by
        simp only [Nat.add_zero] at hy
        simp only [Cfg.genFindByPK, hx, hauto, hkc, hy, Res.ok_bind]
        rfl, fun V rec => ?_⟩
      obtain ⟨z, hz, hb⟩ := valuer_loop g rec 0 (c :: d :: ks) (fun c' h' => (ht c' (hmem c' h')).1)
      cases loop_unique hy hz
      have h1 := bind_joinNames g (c :: d :: ks) (bind_tx (hsel V) "(")
      have h2 := hb _ _ _ rfl (bind_tx (bind_tx (bind_tx h1 ")") " = ") "(")
      have h3 := bind_tx (bind_tx h2 ")") " LIMIT 1;"
      have e1 : (bs ") = (" : List (BSym V)) = bs ")" ++ bs " = " ++ bs "(" := rfl
      have e2 : valB rec = keyVal t rec := by
        funext c'; simp [keyVal, hkp, hkc]
      rw [findB, hkp, hkc, ← e2, equalB, e1]
      · simpa [Function.comp_def] using h3
      · simp

/-- A template other than the bare value, with no empty literal pieces, changes the text. -/
private theorem fill_ne {st : Style} (u : Tmpl) (hu : Usable st u)
    (hne : u ≠ [.hole] ∧ ∀ s, Piece.lit s ∈ u → s ≠ "") (v : V) : ¬ [BSym.val v] = fill u [BSym.val v] := by
  intro e
  have hh : 1 ≤ holes u := by
    have := hu.2
    cases st <;> simp only at this <;> omega
  have hlen : ∀ w : Tmpl, Piece.bad ∉ w → (∀ s, Piece.lit s ∈ w → s ≠ "") →
      w.length ≤ (fill w [BSym.val v]).length := by
    intro w
    induction w with
    | nil => simp
    | cons p w ih =>
      intro h1 h2
      have := ih (fun hh => h1 (by simp [hh])) (fun s hs => h2 s (by simp [hs]))
      cases p with
      | lit s =>
        have hs : s ≠ "" := h2 s (by simp)
        have : 1 ≤ s.toList.length := by
          rw [Nat.one_le_iff_ne_zero]
          intro e
          exact hs (String.toList_inj.1 (List.length_eq_zero_iff.1 e))
        simp [fill, bs] at *; omega
      | hole => simp [fill] at *; omega
      | bad => simp at h1
  have hl := hlen u hu.1 hne.2
  rw [← e] at hl
  match u, hl, hh, hne with
  | [], _, hh, _ => simp [holes] at hh
  | [p], _, hh, hne =>
    cases p with
    | lit s => simp [holes] at hh
    | hole => exact hne.1 rfl
    | bad => simp [holes] at hh
  | p :: q :: w, hl, _, _ => simp at hl

/-- C21. For tables whose single key has no SQL wrapper, and for all composite keys, the generated
find statement selects all columns and compares the key columns to the key fields' values, written
the same way as when they are inserted. -/
theorem C21_find_by_key_partial (g : Cfg) (t : Table F) (hw : WF t) (ht : TemplatesOk g.style t)
    (hk : t.hasPK = true)
    (hs : 2 ≤ (pick t (keyPos t)).length ∨ ∀ c ∈ pick t (keyPos t), c.sqlVal = none) :
    ∃ text fields, g.genFindByPK t = .ok (text, fields) ∧
      ∀ (V : Type) (rec : F → V), bind g.style text (fields.map rec) = some (findB g t (valB rec)) := by
  obtain ⟨text, fields, h, hb⟩ := find_core g t hw ht hk
  refine ⟨text, fields, h, fun V rec => ?_⟩
  rw [hb]
  match hp : pick t (keyPos t), hs with
  | [], _ => simp [findB, hp, equalB]
  | [c], hs =>
    have : c.sqlVal = none := by
      rcases hs with hs | hs
      · simp at hs
      · exact hs c (by simp)
    simp [findB, hp, equalB, keyVal, valB, wrap, this]
  | c :: d :: ks, _ =>
    have : keyVal t rec = valB rec := by funext c'; simp [keyVal, hp]
    rw [this]

/-- C21, refuted for a single key with an SQL wrapper: the row is inserted with the wrapper applied
to the key, but looked up without it. -/
theorem C21_single_key_not_wrapped (g : Cfg) (t : Table F) (hw : WF t) (ht : TemplatesOk g.style t)
    (hk : t.hasPK = true) (c : GCol F) (u : Tmpl) (hc : pick t (keyPos t) = [c]) (hu : c.sqlVal = some u)
    (hne : u ≠ [.hole] ∧ ∀ s, Piece.lit s ∈ u → s ≠ "") :
    ∃ text fields, g.genFindByPK t = .ok (text, fields) ∧
      ∀ (V : Type) (rec : F → V),
        bind g.style text (fields.map rec) = some (findB g t (fun c => [.val (rec c.field)])) ∧
        bind g.style text (fields.map rec) ≠ some (findB g t (valB rec)) := by
  obtain ⟨text, fields, h, hb⟩ := find_core g t hw ht hk
  refine ⟨text, fields, h, fun V rec => ?_⟩
  have e : bind g.style text (fields.map rec) = some (findB g t (fun c => [.val (rec c.field)])) := by
    rw [hb]; simp [findB, hc, equalB, keyVal]
  refine ⟨e, ?_⟩
  rw [e]
  simp only [findB, hc, equalB, ne_eq, Option.some.injEq, List.append_cancel_left_eq,
    List.append_cancel_right_eq]
  simp only [valB, wrap, hu]
  exact fill_ne u ((ht c (pick_mem (by rw [hc]; simp))).1 u hu) hne _

example : (pick exT (keyPos exT)).length = 2 := by decide

private def exS : Table Nat :=
  { name := "user", keys := [0],
    columns := [⟨"id", 10, 0, false, none, some uuidT⟩, ⟨"name", 13, 1, false, none, none⟩] }
example : TemplatesOk exG.style exS ∧ exS.hasPK = true ∧ uuidT ≠ [.hole] ∧
    (pick exS (keyPos exS)).map (·.sqlVal) = [some uuidT] := by
  refine ⟨?_, by decide, by decide, by decide⟩
  intro c hc
  simp [exS] at hc
  rcases hc with rfl | rfl <;> simp [Usable, uuidT, exG, holes]

/-! ### C22 -/

private theorem set_loop (g : Cfg) (rec : F → V) (cs : List (GCol F))
    (hc : ∀ c ∈ cs, ∀ u, c.sqlVal = some u → Usable g.style u) :
    ∃ x, commaLoop (fun i c => (g.sqlValuer c i).map (tx (g.quoteId c.name) ++ tx " = " ++ ·)) 0 cs = .ok x ∧
      ∀ (t : Txt) (b : List (BSym V)), bind g.style t [] = some b →
      bind g.style (t ++ x) (cs.map fun c => rec c.field) =
        some (b ++ comma (cs.map fun c => identB g c ++ bs " = " ++ valB rec c)) := by
  obtain ⟨x, hx, hb⟩ := loop_vals (st := g.style)
    (fun i c => (g.sqlValuer c i).map (tx (g.quoteId c.name) ++ tx " = " ++ ·)) rec 0 (valB rec)
    (fun c => g.quoteId c.name ++ " = ") cs (fun i c h => by
      obtain ⟨u, hu, ho⟩ := sqlValuer_ok g c (hc c h) i rec
      exact ⟨u, by simp [hu, Res.map], ho⟩) 0
  exact ⟨x, hx, fun t b h => by simpa [commaFrom_zero, identB] using hb t [] b rfl h⟩

private theorem pick_length (t : Table F) (is : List Nat) (h : ∀ i ∈ is, i < t.columns.length) :
    (pick t is).length = is.length := by
  unfold pick
  induction is with
  | nil => rfl
  | cons i is ih =>
    have := h i (by simp)
    simp [List.getElem?_eq_getElem this, ih (fun j hj => h j (by simp [hj]))]

private theorem updatePos_lt (t : Table F) : ∀ i ∈ updatePos t, i < t.columns.length := by
  intro i hi; simpa using (List.mem_filter.1 hi).1

/-- What the generated update statement is, before any assumption on numbering. -/
private theorem update_core (g : Cfg) (t : Table F) (hw : WF t) (ht : TemplatesOk g.style t)
    (hk : t.hasPK = true) :
    ∃ text fields x, g.genUpdateByPK t = .ok (text, fields) ∧
      (∀ (V : Type) (rec : F → V), bind g.style (tx "UPDATE " ++ g.tableText t ++ tx " SET " ++ x ++ tx " WHERE ")
        ((pick t (updatePos t)).map fun c => rec c.field) =
        some (bs "UPDATE " ++ tableB g t ++ bs " SET " ++
          comma ((pick t (updatePos t)).map fun c => identB g c ++ bs " = " ++ valB rec c) ++ bs " WHERE ")) ∧
      ((∃ c, pick t (keyPos t) = [c] ∧ fields = (pick t (updatePos t)).map (·.field) ++ [c.field] ∧
          text = tx "UPDATE " ++ g.tableText t ++ tx " SET " ++ x ++ tx " WHERE " ++
            (tx (g.quoteId c.name) ++ tx " = " ++ [g.style.var t.columns.length]) ++ tx ";") ∨
        2 ≤ (pick t (keyPos t)).length ∧ ∀ (V : Type) (rec : F → V),
          bind g.style text (fields.map rec) = some (updateB g t rec (valB rec))) := by
  have hcw := columnsWithoutPK_eq t hw
  have hsub : ∀ c ∈ t.columnsWithoutPK, c ∈ t.columns := by
    intro c hc; rw [hcw] at hc; exact pick_mem hc
  obtain ⟨x, hx, -⟩ := set_loop g (fun _ => ()) t.columnsWithoutPK (fun c hc => (ht c (hsub c hc)).1)
  have hset : ∀ (V : Type) (rec : F → V), bind g.style (tx "UPDATE " ++ g.tableText t ++ tx " SET " ++ x ++ tx " WHERE ")
        ((pick t (updatePos t)).map fun c => rec c.field) =
        some (bs "UPDATE " ++ tableB g t ++ bs " SET " ++
          comma ((pick t (updatePos t)).map fun c => identB g c ++ bs " = " ++ valB rec c) ++ bs " WHERE ") := by
    intro V rec
    obtain ⟨y, hy, hb⟩ := set_loop g rec t.columnsWithoutPK (fun c hc => (ht c (hsub c hc)).1)
    cases loop_unique hx hy
    have := bind_tx (hb _ _ (bind_tx (bind_table g t (bind_tx (bind_nil (V := V) g.style) "UPDATE ")) " SET ")) " WHERE "
    rw [hcw] at this
    simpa using this
  cases ha : t.auto with
  | some i =>
    obtain ⟨c, hc, hcol, hp⟩ := auto_pick t hw i ha
    refine ⟨_, _, x, by simp only [Cfg.genUpdateByPK, hx, hcol, Res.ok_bind]; rfl, hset,
      .inl ⟨c, hp, by simp [hcw], rfl⟩⟩
  | none =>
    have hauto : t.autoCol = none := by simp [Table.autoCol, ha]
    have hkp : pick t (keyPos t) = t.keyCols := by simp [keyPos, ha, keyCols_eq]
    have hne : t.keyCols ≠ [] := by
      have : t.keys ≠ [] := by
        intro e; simp [Table.hasPK, ha, e] at hk
      obtain ⟨k, ks, e⟩ := List.exists_cons_of_ne_nil this
      have hkl := hw.keys k (by simp [e])
      simp [Table.keyCols, e, List.getElem?_eq_getElem hkl]
    match hkc : t.keyCols, hne with
    | [c], _ =>
      exact ⟨_, _, x, by simp only [Cfg.genUpdateByPK, hx, hauto, hkc, Res.ok_bind]; rfl, hset,
        .inl ⟨c, by rw [hkp, hkc], by simp [hcw], rfl⟩⟩
    | c :: d :: ks, _ =>
      have hmem : ∀ c' ∈ c :: d :: ks, c' ∈ t.columns := by
        intro c' h'; rw [← hkc] at h'; exact pick_mem h'
      obtain ⟨y, hy, -⟩ := valuer_loop g (fun _ => ()) t.columnsWithoutPK.length (c :: d :: ks)
        (fun c' h' => (ht c' (hmem c' h')).1)
      refine ⟨_, (t.columnsWithoutPK ++ (c :: d :: ks)).map (·.field), x, by
        simp only [Cfg.genUpdateByPK, hx, hauto, hkc, hy, Res.ok_bind]
        rfl, hset, .inr ⟨by rw [hkp, hkc]; simp, fun V rec => ?_⟩⟩
      obtain ⟨z, hz, hb⟩ := valuer_loop g rec t.columnsWithoutPK.length (c :: d :: ks)
        (fun c' h' => (ht c' (hmem c' h')).1)
      cases loop_unique hy hz
      have h1 := bind_joinNames g (c :: d :: ks) (bind_tx (hset V rec) "(")
      have h2 := hb _ _ _ (by rw [hcw]; simp) (bind_tx (bind_tx (bind_tx h1 ")") " = ") "(")
      have h3 := bind_tx (bind_tx h2 ")") ";"
      have e1 : (bs ") = (" : List (BSym V)) = bs ")" ++ bs " = " ++ bs "(" := rfl
      rw [updateB, hkp, hkc, equalB, e1]
      · rw [hcw]
        simpa [Function.comp_def] using h3
      · simp

/-- C22. The generated update statement is the intended one: every writable column outside the key is
assigned its own field's value, nothing else is, and the key columns are compared to the key fields'
values.  Assumptions: anonymous placeholders, or a composite key, or exactly one column that is not
updated (then it is the key); and a single key has no SQL wrapper. -/
theorem C22_update_by_key_partial (g : Cfg) (t : Table F) (hw : WF t) (ht : TemplatesOk g.style t)
    (hk : t.hasPK = true)
    (hs : 2 ≤ (pick t (keyPos t)).length ∨
      (∀ c ∈ pick t (keyPos t), c.sqlVal = none) ∧
        (g.style = .anon ∨ t.columns.length = (updatePos t).length + 1)) :
    ∃ text fields, g.genUpdateByPK t = .ok (text, fields) ∧
      ∀ (V : Type) (rec : F → V),
        bind g.style text (fields.map rec) = some (updateB g t rec (valB rec)) := by
  obtain ⟨text, fields, x, h, hset, hcase⟩ := update_core g t hw ht hk
  refine ⟨text, fields, h, fun V rec => ?_⟩
  rcases hcase with ⟨c, hc, rfl, rfl⟩ | ⟨-, hb⟩
  · rw [hc] at hs
    simp only [List.length_singleton, List.mem_singleton, forall_eq] at hs
    obtain ⟨hn, hs⟩ := hs.resolve_left (by omega)
    have hv : g.style.var t.columns.length =
        g.style.var (((pick t (updatePos t)).map fun c => rec c.field).length + 1) := by
      rcases hs with hs | hs
      · rw [hs]; rfl
      · rw [hs, List.length_map, pick_length t _ (updatePos_lt t)]
    rw [hv]
    have h1 := bind_val (bind_tx (bind_tx (hset V rec) (g.quoteId c.name)) " = ")
      (oneVal_var g.style _ (rec c.field))
    have h2 := bind_tx h1 ";"
    simpa [updateB, hc, equalB, identB, valB, wrap, hn, Function.comp_def] using h2
  · exact hb V rec

/-- C22, refuted for numbered placeholders and a single key when besides the key some other column
is not updated (a readonly column, or a second key column next to an auto-increment one): the key
parameter has a number beyond the arguments, so the database rejects the statement for every
record. -/
theorem C22_update_rejected (g : Cfg) (t : Table F) (hw : WF t) (ht : TemplatesOk g.style t)
    (hst : g.style = .numbered) (c : GCol F) (hc : pick t (keyPos t) = [c])
    (hs : t.columns.length ≠ (updatePos t).length + 1) :
    ∃ text fields, g.genUpdateByPK t = .ok (text, fields) ∧
      ∀ (V : Type) (rec : F → V), bind g.style text (fields.map rec) = none := by
  have hk : t.hasPK = true := by
    cases ha : t.auto with
    | some i => simp [Table.hasPK, ha]
    | none =>
      cases hkk : t.keys with
      | nil => simp [keyPos, ha, hkk, pick] at hc
      | cons => simp [Table.hasPK, hkk]
  obtain ⟨text, fields, x, h, hset, hcase⟩ := update_core g t hw ht hk
  refine ⟨text, fields, h, fun V rec => ?_⟩
  rcases hcase with ⟨c', hc', rfl, rfl⟩ | ⟨h2, -⟩
  · have hset := hset V rec
    rw [hst] at hset ⊢
    cases hbind : Spec.bind .numbered _ _ with
      | none => rfl
      | some b =>
      exfalso
      have hn := (bindNum_nums hbind t.columns.length).1 (by
        simp [nums_append, nums_tx, Style.var, nums])
      simp only [List.length_map, List.length_append, List.length_singleton,
        pick_length t _ (updatePos_lt t)] at hn
      have hle : (updatePos t).length ≤ t.columns.length := by
        have := List.length_filter_le (fun i =>
          !isReadonly t i && t.auto != some i && !t.keys.contains i) (List.range t.columns.length)
        simpa [updatePos] using this
      have hlt : (updatePos t).length < t.columns.length := by
        rcases Nat.lt_or_eq_of_le hle with hlt | heq
        · exact hlt
        · exfalso
          have : ((List.range t.columns.length).filter (fun i =>
            !isReadonly t i && t.auto != some i && !t.keys.contains i)).length = (List.range t.columns.length).length := by
            simpa [updatePos] using heq
          rw [List.length_filter_eq_length_iff] at this
          have hall : ∀ k ∈ keyPos t, k < t.columns.length ∧ (t.auto = some k ∨ k ∈ t.keys) := by
            intro k hkk
            unfold keyPos at hkk
            split at hkk
            · next i hi => simp at hkk; subst hkk; exact ⟨hw.auto _ hi, .inl hi⟩
            · exact ⟨hw.keys k hkk, .inr hkk⟩
          obtain ⟨k, hkk⟩ : ∃ k, k ∈ keyPos t := by
            cases hkp : keyPos t with
            | nil => simp [hkp, pick] at hc
            | cons k _ => exact ⟨k, by simp⟩
          obtain ⟨h1, h2⟩ := hall k hkk
          have h3 := this k (by simpa using h1)
          simp only [Bool.and_eq_true, bne_iff_ne, ne_eq, Bool.not_eq_true', List.contains_eq_mem,
            decide_eq_false_iff_not] at h3
          rcases h2 with h2 | h2
          · exact h3.1.2 h2
          · exact h3.2 h2
      omega
  · rw [hc] at h2; simp at h2

private def exR : Table Nat :=
  { name := "user", keys := [0],
    columns := [⟨"id", 10, 0, false, none, none⟩, ⟨"created", 11, 1, true, none, none⟩,
      ⟨"name", 13, 2, false, none, none⟩] }
private def exP : Table Nat :=
  { name := "user", auto := some 1,
    columns := [⟨"name", 13, 0, false, none, some uuidT⟩, ⟨"id", 10, 1, false, none, none⟩] }
example : exR.columns.length ≠ (updatePos exR).length + 1 := by decide
example : exP.columns.length = (updatePos exP).length + 1 ∧
    ∀ c ∈ pick exP (keyPos exP), c.sqlVal = none := by decide
example : ∃ text, exG.genUpdateByPK exP = .ok (text, [13, 10]) ∧
    text = tx "UPDATE \"user\" SET \"name\" = UUID_TO_BIN(" ++ [.num 1] ++ tx ") WHERE \"id\" = " ++
      [.num 2] ++ tx ";" := by
  refine ⟨_, rfl, ?_⟩
  decide +kernel

/-! ### C24 -/

/-- C24. The position reported with the primary key is the index of the key's column in the reported
columns, the reported name is the one at that index, the reported value is that column's field, and
the scan destination at that index is the same field. -/
theorem C24_pk_position (g : Cfg) (t : Table F) (hw : WF t) (n : String) (i : Nat) (f : F)
    (h : g.genPK t = some (n, i, f)) :
    (g.genColumns t)[i]? = some n ∧ (genAddrs t)[i]? = some f ∧
      (t.auto = some i ∨ t.auto = none ∧ t.keys = [i]) := by
  have main : ∀ (k : Nat) (c : GCol F), t.columns[k]? = some c → some (g.ident c.name, c.pos, c.field) = some (n, i, f) →
      k = i ∧ (g.genColumns t)[i]? = some n ∧ (genAddrs t)[i]? = some f := by
    intro k c hc e
    simp only [Option.some.injEq, Prod.mk.injEq] at e
    obtain ⟨rfl, rfl, rfl⟩ := e
    rw [hw.pos k c hc]
    simp [Cfg.genColumns, genAddrs, hc]
  unfold Cfg.genPK at h
  cases ha : t.auto with
  | some k =>
    obtain ⟨c, hc, hcol, -⟩ := auto_pick t hw k ha
    rw [hcol] at h
    obtain ⟨rfl, h1, h2⟩ := main k c hc h
    exact ⟨h1, h2, .inl rfl⟩
  | none =>
    have hauto : t.autoCol = none := by simp [Table.autoCol, ha]
    rw [hauto] at h
    simp only at h
    split at h
    · next c hkc =>
      have hl := pick_length t t.keys hw.keys
      rw [← keyCols_eq, hkc] at hl
      obtain ⟨k, hk⟩ := List.length_eq_one_iff.1 hl.symm
      have hc : t.columns[k]? = some c := by
        rw [Table.keyCols, hk] at hkc
        cases hx : t.columns[k]? with
        | none => simp [hx] at hkc
        | some d => simpa [hx] using hkc
      obtain ⟨rfl, h1, h2⟩ := main k c hc h
      exact ⟨h1, h2, .inr ⟨rfl, hk⟩⟩
    · cases h

/-- C24. Composite keys: the reported positions are the key positions in strictly increasing order,
each the index of the reported name among the column names and of the reported value among the scan
destinations. -/
theorem C24_composite_positions (t : Table F) (hw : WF t) (ns : List String) (is : List Nat) (fs : List F)
    (h : genCompositeKey t = some (ns, is, fs)) :
    is = t.keys ∧ is.Pairwise (· < ·) ∧ 2 ≤ is.length ∧
    ns.map some = is.map (fun i => (t.columns.map (·.name))[i]?) ∧
    fs.map some = is.map (fun i => (genAddrs t)[i]?) := by
  have hkeys : ∀ ks : List Nat, (∀ k ∈ ks, k < t.columns.length) →
      (pick t ks).map (·.pos) = ks ∧
      ((pick t ks).map (·.name)).map some = ks.map (fun i => (t.columns.map (·.name))[i]?) ∧
      ((pick t ks).map (·.field)).map some = ks.map (fun i => (genAddrs t)[i]?) := by
    intro ks
    unfold pick
    induction ks with
    | nil => simp
    | cons k ks ih =>
      intro hk
      have h1 := hk k (by simp)
      obtain ⟨i1, i2, i3⟩ := ih (fun j hj => hk j (by simp [hj]))
      have hp := hw.pos k _ (List.getElem?_eq_getElem h1)
      rw [List.filterMap_cons_some (List.getElem?_eq_getElem h1)]
      refine ⟨by rw [List.map_cons, i1, hp], ?_, ?_⟩
      · rw [List.map_cons, List.map_cons, List.map_cons, i2]
        simp [List.getElem?_eq_getElem h1]
      · rw [List.map_cons, List.map_cons, List.map_cons, i3]
        simp [List.getElem?_eq_getElem h1, genAddrs]
  obtain ⟨h1, h2, h3⟩ := hkeys t.keys hw.keys
  unfold genCompositeKey at h
  split at h
  · cases h
  · split at h
    · cases h
    · cases h
    · next ks hne1 hne2 =>
      simp only [Option.some.injEq, Prod.mk.injEq] at h
      obtain ⟨rfl, rfl, rfl⟩ := h
      rw [keyCols_eq, h1]
      refine ⟨rfl, hw.sorted, ?_, h2, h3⟩
      have hl := pick_length t t.keys hw.keys
      rw [← keyCols_eq] at hl
      rw [← hl]
      match hkc : t.keyCols with
      | [] => exact absurd hkc hne1
      | [c] => exact absurd hkc (hne2 c)
      | _ :: _ :: _ => simp

/-- C24, boundary. With quoted identifiers switched on, the names reported with a composite key are
not quoted, so none of them is among the reported columns. -/
theorem C24_composite_names_unquoted (g : Cfg) (t : Table F) (hq : g.quoteNames = true)
    (hne : ∀ c ∈ t.columns, ∀ d ∈ t.columns, g.quoteId c.name ≠ d.name)
    (ns : List String) (is : List Nat) (fs : List F) (h : genCompositeKey t = some (ns, is, fs)) :
    ∀ n ∈ ns, n ∉ g.genColumns t := by
  intro n hn hc
  have hns : ns = t.keyCols.map (·.name) := by
    unfold genCompositeKey at h
    split at h
    · cases h
    · split at h
      · cases h
      · cases h
      · simp only [Option.some.injEq, Prod.mk.injEq] at h
        exact h.1.symm
  subst hns
  obtain ⟨d, hd, rfl⟩ := List.mem_map.1 hn
  obtain ⟨c, hcc, e⟩ := List.mem_map.1 hc
  simp only [Cfg.ident, hq, if_true] at e
  exact hne c hcc d (pick_mem (by rw [← keyCols_eq]; exact hd)) e

example : ∀ c ∈ exT.columns, ∀ d ∈ exT.columns, exG.quoteId c.name ≠ d.name := by decide

example : exG.genPK exR = some ("id", 0, 10) := by decide
example : genCompositeKey exT = some (["id", "uid"], [0, 2], [10, 12]) := by decide

/-! ### C25 -/

/-- C25. Columns, SQL columns and scan destinations agree position by position: position `i` of each
concerns the same column. -/
theorem C25_columns_addrs (g : Cfg) (t : Table F) :
    (g.genColumns t).length = (genAddrs t).length ∧
    ∀ (i : Nat) (c : GCol F), t.columns[i]? = some c →
      (g.genColumns t)[i]? = some (g.ident c.name) ∧ (genAddrs t)[i]? = some c.field := by
  refine ⟨by simp [Cfg.genColumns, genAddrs], fun i c hc => ?_⟩
  simp [Cfg.genColumns, genAddrs, hc]

/-- C25. When `SQLColumns` is generated it has one entry per column, each reading that column. -/
theorem C25_sql_columns (g : Cfg) (t : Table F) (ht : TemplatesOk g.style t) (l : List Txt)
    (h : g.genSqlColumns t = some l) :
    l.length = (g.genColumns t).length ∧
    ∀ (i : Nat) (c : GCol F), t.columns[i]? = some c → ∃ s, l[i]? = some (tx s) ∧
      (bs s : List (BSym V)) = wrap c.sqlScan (bs (g.ident c.name)) := by
  have hone : ∀ c ∈ t.columns, ∃ s, g.sqlColumn c = .ok (tx s) ∧
      (bs s : List (BSym V)) = wrap c.sqlScan (bs (g.ident c.name)) := by
    intro c hc
    unfold Cfg.sqlColumn wrap
    cases hs : c.sqlScan with
    | none => exact ⟨_, rfl, rfl⟩
    | some u => exact exec_tx u ((ht c hc).2 u hs) _
  unfold Cfg.genSqlColumns at h
  cases hm : t.columns.mapM g.sqlColumn with
  | err => simp [hm] at h
  | panic => simp [hm] at h
  | ok l' =>
    simp only [hm] at h
    split at h
    · simp only [Option.some.injEq] at h
      subst h
      rw [show (g.genColumns t).length = t.columns.length by simp [Cfg.genColumns]]
      clear ht
      generalize t.columns = cs at hm hone
      induction cs generalizing l' with
      | nil => simp at hm; subst hm; simp
      | cons c cs ih =>
        rw [List.mapM_cons] at hm
        obtain ⟨s, hs, hb⟩ := hone c (by simp)
        rw [hs, Res.ok_bind, Res.bind_eq_ok] at hm
        obtain ⟨r, hr, hm⟩ := hm
        simp only [Res.pure_eq, Res.ok.injEq] at hm
        subst hm
        obtain ⟨i1, i2⟩ := ih r hr (fun c hc => hone c (by simp [hc]))
        refine ⟨by simp [i1], ?_⟩
        intro i c' hc'
        cases i with
        | zero => simp at hc'; subst hc'; exact ⟨s, by simp, hb⟩
        | succ i => simpa using i2 i c' (by simpa using hc')
    · cases h

/-- C25. The reported values are the fields of the insertable columns, in the relative order of the
reported columns; without readonly and auto-increment columns they agree with the columns position by
position. -/
theorem C25_values (t : Table F) :
    genValues t = (insertPos t).filterMap (fun i => (genAddrs t)[i]?) ∧
    (insertPos t).Pairwise (· < ·) ∧
    ((∀ i, isReadonly t i = false) → t.auto = none → genValues t = genAddrs t) := by
  refine ⟨?_, ?_, ?_⟩
  · rw [genValues, insertColumns_eq, pick, List.map_filterMap]
    simp [genAddrs]
  · exact List.Pairwise.filter _ List.pairwise_lt_range
  · intro h1 h2
    rw [genValues, insertColumns_eq, genAddrs]
    congr 1
    have : insertPos t = List.range t.columns.length := by
      unfold insertPos
      rw [List.filter_eq_self]
      intro i _
      simp [h1 i, h2]
    rw [this, pick]
    apply List.ext_getElem?
    intro i
    have : (List.range t.columns.length).filterMap (fun i => t.columns[i]?) = t.columns := by
      have := filter_zipIdx t.columns (fun _ => true)
      rw [List.filter_true] at this
      rw [← List.zipIdx_map_fst 0 t.columns]
      simp only [List.zipIdx_map_fst]
      rw [List.filter_eq_self.2] at this
      · rw [← this]; simp
      · intro i hi
        have hi : i < t.columns.length := by simpa using hi
        simp [List.getElem?_eq_getElem hi]
    rw [this]

example : genValues exT = [10, 12, 13] ∧ genAddrs exT = [10, 11, 12, 13] := by decide
example : (exG.genSqlColumns exT).isSome = true := by decide

end Verif.Props

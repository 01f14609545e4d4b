import Verif.Lemmas.Helpers

/-!
# Properties C26–C30, C33: insert, upsert and by-key helpers
-/

namespace Verif.Props

open Verif.Spec Verif.Spec.Gen Verif.Helpers Verif.Spec.Helpers

variable {R V F : Type}

/-- A small model used in the examples: records are lists of numbers. -/
def exModel : Mdl (List Nat) Nat where
  table := "t"
  columns := ["id", "a", "b"]
  sqlColumns := ["id", "a", "b"]
  values r := [r.getD 0 0, r.getD 1 0, r.getD 2 0]
  placeholders := Gen.insertPlaceholders .numbered 2
  key := .single true "id" 0 fun r => r.getD 0 0

/-! ### C33 -/

private theorem rowB_text {t : Txt} {as vs : List V} {b : List (BSym V)} {st : Style} (off : Nat)
    (hl : as.length = off) (h : Spec.bind st t as = some b) :
    Spec.bind st (t ++ tx "(" ++ vars st off vs.length ++ tx ")") (as ++ vs) = some (b ++ rowB vs) := by
  have := bind_tx (bind_vars off vs hl (bind_tx h "(")) ")"
  simpa [rowB] using this

private theorem head_binds (st : Style) (verb table : String) (cols : List String) :
    Spec.bind st (tx verb ++ tx table ++ tx " (" ++ join "," cols ++ tx ") VALUES ") ([] : List V) =
      some (bs verb ++ bs table ++ bs " (" ++ namesB cols ++ bs ") VALUES ") := by
  have h := bind_tx (bind_join cols (bind_tx (bind_tx (bind_tx (bind_nil (V := V) st) verb) table) " ("))
    ") VALUES "
  simpa using h

/-- C33, postgres. The fallback single insert gives each listed column its own value. -/
theorem C33_insert_one_pg (m : Mdl R V) (r : R) (hv : (m.values r).length = m.columns.length)
    (hn : m.columns ≠ []) : ∃ t as, insertOnePg m r = .ok (t, as) ∧
      Spec.bind .numbered t as =
        some (insertRowsB "INSERT INTO " m.table m.columns [m.values r] ++ returningB m.sqlColumns) := by
  refine ⟨_, _, rfl, ?_⟩
  have h0 : (m.values r).length ≠ 0 := by rw [hv]; exact fun h => hn (List.length_eq_zero_iff.1 h)
  rw [varsFrom1_eq _ _ h0]
  have h := bind_tx (bind_join m.sqlColumns (bind_tx (rowB_text 0 (vs := m.values r) rfl
    (head_binds .numbered "INSERT INTO " m.table m.columns)) " RETURNING ")) ";"
  have e : tx ") VALUES (" = tx ") VALUES " ++ tx "(" := rfl
  have e2 : tx ") RETURNING " = tx ")" ++ tx " RETURNING " := rfl
  rw [e, e2]
  simpa [insertRowsB, returningB, comma, List.intercalate] using h

/-- C33, mysql and sqlite. -/
theorem C33_insert_one_my (m : Mdl R V) (r : R) (hv : (m.values r).length = m.columns.length)
    (hn : m.columns ≠ []) : ∃ t as, insertOneMy m r = .ok (t, as) ∧
      Spec.bind .anon t as =
        some (insertRowsB "INSERT INTO " m.table m.columns [m.values r] ++ bs ";") := by
  have h0 : m.columns.length ≠ 0 := fun h => hn (List.length_eq_zero_iff.1 h)
  refine ⟨_, _, by rw [insertOneMy, if_neg h0], ?_⟩
  rw [← hv]
  have h := bind_tx (rowB_text 0 (vs := m.values r) rfl (head_binds .anon "INSERT INTO " m.table m.columns)) ";"
  have e : tx ") VALUES (" = tx ") VALUES " ++ tx "(" := rfl
  have e2 : tx ");" = tx ")" ++ tx ";" := rfl
  rw [e, e2]
  simpa [insertRowsB, comma, List.intercalate] using h

example : (exModel.values [7, 8, 9]).length = exModel.columns.length ∧ exModel.columns ≠ [] ∧
    insertOneMy exModel [7, 8, 9] = .ok (tx "INSERT INTO t (id,a,b) VALUES (" ++ [.anon] ++ tx "," ++
      [.anon] ++ tx "," ++ [.anon] ++ tx ");", [7, 8, 9]) := by decide

/-! ### C26 -/

private theorem batchColumns_eq (m : Mdl R V) (hk : KeyOk m) :
    batchColumns m = .ok (without (autoPos m) m.columns, (autoPos m).head?) := by
  unfold batchColumns autoPos
  unfold KeyOk at hk
  cases h : m.key with
  | none => simp [without_nil]
  | comp _ _ _ => simp [without_nil]
  | single a n i v =>
    rw [h] at hk
    have hi : i < m.columns.length := by
      have : m.columns[i]? = some n := hk
      rw [List.getElem?_eq_some_iff] at this
      exact this.1
    cases a with
    | true => simp only [removeAt_eq _ _ hi]; rfl
    | false => simp [without_nil]

private theorem taken_eq (m : Mdl R V) (hk : KeyOk m) (hf : Full m) (r : R) :
    taken m (autoPos m).head? r = .ok (without (autoPos m) (m.values r)) := by
  unfold taken autoPos
  unfold KeyOk at hk
  cases h : m.key with
  | none => simp [without_nil]
  | comp _ _ _ => simp [without_nil]
  | single a n i v =>
    rw [h] at hk
    have hi : i < m.columns.length := by
      have : m.columns[i]? = some n := hk
      rw [List.getElem?_eq_some_iff] at this
      exact this.1
    cases a with
    | true => exact removeAt_eq _ _ (by rw [hf r]; exact hi)
    | false => simp [without_nil]

/-- The inserted columns. -/
def insCols (m : Mdl R V) : List String := without (autoPos m) m.columns

/-- The inserted values of a record, one for each of the inserted columns. -/
def insRow (m : Mdl R V) (r : R) : List V := without (autoPos m) (m.values r)

theorem insRow_length (m : Mdl R V) (hf : Full m) (r : R) : (insRow m r).length = (insCols m).length :=
  without_length _ _ _ (hf r)

/-- C26. No records, no statement. -/
theorem C26_empty (m : Mdl R V) : insertPg m [] = .ok none ∧ insertMy m [] = .ok none := ⟨rfl, rfl⟩

private theorem rows_bind {st : Style} (m : Mdl R V) (hk : KeyOk m) (hf : Full m) (ph : Nat → Txt)
    (hg : GroupOk V st (insCols m).length ph) (data : List R) (verb : String) (cols : List String) :
    ∃ t, rowsLoop m ph (autoPos m).head? 0 data = .ok (t, (data.map (insRow m)).flatten) ∧
      Spec.bind st (tx verb ++ tx m.table ++ tx " (" ++ join "," cols ++ tx ") VALUES " ++ t)
        (data.map (insRow m)).flatten =
        some (insertRowsB verb m.table cols (data.map (insRow m))) := by
  obtain ⟨t, ht, hb⟩ := rowsLoop_ok m ph (autoPos m).head? (insCols m).length (insRow m) hg data
    (fun r _ => ⟨taken_eq m hk hf r, insRow_length m hf r⟩) 0
  refine ⟨t, ht, ?_⟩
  have := hb _ [] _ (by simp) (head_binds (V := V) st verb m.table cols)
  simpa [insertRowsB, commaFrom_zero] using this

/-- C26, postgres, for models with one value per column (hand-written ones, and generated ones
without readonly or auto-increment columns): one group per record with as many values as listed
columns, each column's own.  Missing: generated models with readonly or auto-increment columns, see
`C26_auto_increment_fails` and `C26_readonly_short`. -/
theorem C26_insert_pg_partial (m : Mdl R V) (hk : KeyOk m) (hf : Full m)
    (hg : GroupOk V .numbered (insCols m).length m.placeholders) (data : List R) (hd : data ≠ []) :
    ∃ t as, insertPg m data = .ok (some (t, as)) ∧
      (∀ r ∈ data, (insRow m r).length = (insCols m).length) ∧
      Spec.bind .numbered t as =
        some (insertRowsB "INSERT INTO " m.table (insCols m) (data.map (insRow m)) ++
          returningB m.sqlColumns) := by
  obtain ⟨t, ht, hb⟩ := rows_bind m hk hf m.placeholders hg data "INSERT INTO " (insCols m)
  cases data with
  | nil => exact absurd rfl hd
  | cons r rs =>
    refine ⟨tx "INSERT INTO " ++ tx m.table ++ tx " (" ++ join "," (insCols m) ++ tx ") VALUES " ++ t ++
      tx " RETURNING " ++ join "," m.sqlColumns ++ tx ";", _,
      by simp only [insertPg, batchColumns_eq m hk, Res.ok_bind, ht]; rfl,
      fun r _ => insRow_length m hf r, ?_⟩
    have := bind_tx (bind_join m.sqlColumns (bind_tx hb " RETURNING ")) ";"
    simpa [returningB, insCols] using this

/-- C26, mysql and sqlite, likewise. -/
theorem C26_insert_my_partial (m : Mdl R V) (hk : KeyOk m) (hf : Full m) (hc : insCols m ≠ [])
    (data : List R) (hd : data ≠ []) :
    ∃ t as, insertMy m data = .ok (some (t, as)) ∧
      (∀ r ∈ data, (insRow m r).length = (insCols m).length) ∧
      Spec.bind .anon t as =
        some (insertRowsB "INSERT INTO " m.table (insCols m) (data.map (insRow m)) ++ bs ";") := by
  have h0 : (insCols m).length ≠ 0 := fun h => hc (List.length_eq_zero_iff.1 h)
  obtain ⟨t, ht, hb⟩ := rows_bind m hk hf _ (groupOk_static (insCols m).length (by omega)) data
    "INSERT INTO " (insCols m)
  cases data with
  | nil => exact absurd rfl hd
  | cons r rs =>
    have hq : repQ1 (without (autoPos m) m.columns).length =
        .ok ((Gen.repeatVar (insCols m).length).drop 1) := by
      rw [repQ1, if_neg (show ¬ (without (autoPos m) m.columns).length = 0 from h0)]; rfl
    refine ⟨tx "INSERT INTO " ++ tx m.table ++ tx " (" ++ join "," (insCols m) ++ tx ") VALUES " ++ t ++
      tx ";", _, by simp only [insertMy, batchColumns_eq m hk, Res.ok_bind, hq, ht]; rfl,
      fun r _ => insRow_length m hf r, ?_⟩
    have := bind_tx hb ";"
    simpa [insCols] using this

example : KeyOk exModel ∧ insCols exModel = ["a", "b"] ∧
    insRow exModel [7, 8, 9] = [8, 9] ∧
    insertMy exModel [[7, 8, 9], [1, 2, 3]] = .ok (some (tx "INSERT INTO t (a,b) VALUES (" ++ [.anon] ++
      tx "," ++ [.anon] ++ tx "),(" ++ [.anon] ++ tx "," ++ [.anon] ++ tx ");", [8, 9, 2, 3])) := by
  refine ⟨rfl, by decide, by decide, by decide⟩

example : Full exModel ∧ GroupOk Nat .numbered (insCols exModel).length exModel.placeholders :=
  ⟨fun _ => rfl, groupOk_gen .numbered 2 (by decide)⟩

/-! Generated models -/

theorem insertColumns_lt (t : Gen.Table F) (h : (∃ c ∈ t.columns, c.readonly = true) ∨
    (∃ i, t.auto = some i ∧ i < t.columns.length)) : t.insertColumns.length < t.columns.length := by
  unfold Gen.Table.insertColumns
  rw [List.length_map]
  have : t.columns.length = t.columns.zipIdx.length := by simp
  rw [this]
  rw [List.length_filter_lt_length_iff_exists]
  rcases h with ⟨c, hc, hr⟩ | ⟨i, ha, hi⟩
  · obtain ⟨i, hi, e⟩ := List.getElem_of_mem hc
    refine ⟨(c, i), ?_, by simp [hr]⟩
    rw [List.mem_zipIdx_iff_getElem?]
    simp [List.getElem?_eq_getElem hi, e]
  · refine ⟨(t.columns[i], i), ?_, by simp [ha]⟩
    rw [List.mem_zipIdx_iff_getElem?]
    simp [List.getElem?_eq_getElem hi]

private theorem ofTable_auto (g : Gen.Cfg) (t : Gen.Table F) (hw : WF t) (i : Nat) (ha : t.auto = some i) :
    ∃ n, (ofTable (V := V) g t).columns[i]? = some n ∧
      ∃ val, (ofTable (V := V) g t).key = .single true n i val := by
  have hi := hw.auto i ha
  have hc : t.autoCol = some t.columns[i] := by
    simp [Gen.Table.autoCol, ha, List.getElem?_eq_getElem hi]
  refine ⟨g.ident t.columns[i].name, ?_, fun r => r t.columns[i].field, ?_⟩
  · simp [ofTable, Gen.Cfg.genColumns, List.getElem?_eq_getElem hi]
  · simp only [ofTable, hc, Gen.Cfg.genPK]
    rw [hw.pos i _ (List.getElem?_eq_getElem hi)]

theorem nums_placeholderLoop (n row i k : Nat) (hk : 0 < k) :
    row * n + (i + k) ∈ nums (Gen.placeholderLoop n row i k) := by
  induction k generalizing i with
  | zero => omega
  | succ k ih =>
    rw [Gen.placeholderLoop, nums_append, nums_append, List.mem_append, List.mem_append]
    by_cases h : k = 0
    · subst h; left; right; simp [nums]
    · right
      have := ih (i + 1) (by omega)
      have e : row * n + (i + 1 + k) = row * n + (i + (k + 1)) := by omega
      rwa [e] at this

theorem nums_flatMap {α : Type} (f : α → Txt) (l : List α) : nums (l.flatMap f) = l.flatMap fun a => nums (f a) := by
  induction l with
  | nil => rfl
  | cons a l ih => simp [nums_append, ih]

private theorem bind_tooFew {t : Txt} {as : List V} (n : Nat) (h : n ∈ nums t) (hn : as.length < n) :
    Spec.bind .numbered t as = none := by
  cases hb : Spec.bind .numbered t as with
  | none => rfl
  | some b =>
    have := (bindNum_nums (show bindNum t as = some b from hb) n).1 h
    omega

private theorem last_group (n : Nat) (hn : 0 < n) (data : List R) (hd : data ≠ []) :
    data.length * n ∈ nums ((data.zipIdx 0).flatMap fun p =>
      (if p.2 > 0 then tx "," else []) ++ Gen.insertPlaceholders .numbered n p.2) := by
  rw [nums_flatMap, List.mem_flatMap]
  have hl : 0 < data.length := List.length_pos_iff.2 hd
  refine ⟨(data[data.length - 1], data.length - 1), ?_, ?_⟩
  · rw [List.mem_zipIdx_iff_getElem?]
    simp [List.getElem?_eq_getElem (show data.length - 1 < data.length by omega)]
  · rw [nums_append, List.mem_append]; right
    have := nums_placeholderLoop n (data.length - 1) 0 n hn
    have e : (data.length - 1) * n + (0 + n) = data.length * n := by
      obtain ⟨k, hk⟩ : ∃ k, data.length = k + 1 := ⟨data.length - 1, by omega⟩
      rw [hk]; simp [Nat.succ_mul]
    rw [e] at this
    simp only [Gen.insertPlaceholders, nums_append, List.mem_append]
    exact .inl (.inr this)

private theorem removeAt_ok {α : Type} {l l' : List α} {i : Nat} (h : removeAt l i = .ok l') :
    i < l.length ∧ l'.length = l.length - 1 := by
  unfold removeAt at h
  split at h
  · next hi => cases h; exact ⟨hi, List.length_eraseIdx_of_lt hi⟩
  · cases h

private theorem taken_some {m : Mdl R V} {k : Nat} {r : R} {vs : List V} (h : taken m (some k) r = .ok vs) :
    k < (m.values r).length ∧ vs.length = (m.values r).length - 1 := removeAt_ok h

private theorem rowsLoop_taken {m : Mdl R V} {ph : Nat → Txt} {drop : Option Nat} {i : Nat} {r : R} {rs : List R}
    {x : Txt × List V} (h : rowsLoop m ph drop i (r :: rs) = .ok x) : ∃ vs, taken m drop r = .ok vs := by
  rw [rowsLoop_cons, Res.bind_eq_ok] at h
  obtain ⟨vs, h, -⟩ := h
  exact ⟨vs, h⟩

/-- C26 is false for generated models with an auto-increment key: their `Values()` already leaves the
key out and the helper removes one more, so *every* batch insert of at least one record panics or is
refused, in both dialect families. -/
theorem C26_auto_increment_fails (g : Gen.Cfg) (t : Gen.Table F) (hw : WF t) (hs : g.style = .numbered)
    (i : Nat) (ha : t.auto = some i) (data : List (F → V)) (hd : data ≠ []) :
    FailsB .numbered (insertPg (ofTable g t) data) := by
  obtain ⟨n, hn, val, hkey⟩ := ofTable_auto (V := V) g t hw i ha
  have hko : KeyOk (ofTable (V := V) g t) := by unfold KeyOk; rw [hkey]; exact hn
  have hap : (autoPos (ofTable (V := V) g t)).head? = some i := by unfold autoPos; rw [hkey]; rfl
  have hlen : ∀ r, ((ofTable (V := V) g t).values r).length = t.insertColumns.length := by
    intro r; simp [ofTable, Gen.genValues]
  match data, hd with
  | r :: rs, hd =>
    simp only [insertPg, batchColumns_eq _ hko, Res.ok_bind, hap]
    cases hr : rowsLoop (ofTable (V := V) g t) (ofTable (V := V) g t).placeholders (some i) 0 (r :: rs) with
    | err => trivial
    | panic => trivial
    | ok x =>
      obtain ⟨u, as⟩ := x
      obtain ⟨vs, hvs⟩ := rowsLoop_taken hr
      have hpos := (taken_some hvs).1
      rw [hlen] at hpos
      obtain ⟨h1, h2⟩ := rowsLoop_count _ _ _ (t.insertColumns.length - 1)
        (fun r vs h => by rw [(taken_some h).2, hlen]) _ _ _ _ hr
      refine bind_tooFew ((r :: rs).length * t.insertColumns.length) ?_ ?_
      · simp only [nums_append, List.mem_append]
        left; left; left; right
        rw [h2]
        have := last_group t.insertColumns.length (by omega) (r :: rs) hd
        simpa [ofTable, hs] using this
      · rw [h1]
        exact Nat.mul_lt_mul_of_pos_left (by omega) (by simp)

/-- The same for mysql and sqlite. -/
theorem C26_auto_increment_fails_my (g : Gen.Cfg) (t : Gen.Table F) (hw : WF t)
    (i : Nat) (ha : t.auto = some i) (data : List (F → V)) (hd : data ≠ []) :
    FailsB .anon (insertMy (ofTable g t) data) := by
  obtain ⟨n, hn, val, hkey⟩ := ofTable_auto (V := V) g t hw i ha
  have hko : KeyOk (ofTable (V := V) g t) := by unfold KeyOk; rw [hkey]; exact hn
  have hap : autoPos (ofTable (V := V) g t) = [i] := by unfold autoPos; rw [hkey]
  have hlen : ∀ r, ((ofTable (V := V) g t).values r).length = t.insertColumns.length := by
    intro r; simp [ofTable, Gen.genValues]
  have hcl : (ofTable (V := V) g t).columns.length = t.columns.length := by simp [ofTable, Gen.Cfg.genColumns]
  have hlt := insertColumns_lt t (.inr ⟨i, ha, hw.auto i ha⟩)
  match data, hd with
  | r :: rs, hd =>
    simp only [insertMy, batchColumns_eq _ hko, Res.ok_bind, hap, List.head?_cons]
    have hwl : (without [i] (ofTable (V := V) g t).columns).length = t.columns.length - 1 := by
      rw [without_length_one _ _ (by rw [hcl]; exact hw.auto i ha), hcl]
    rw [hwl]
    by_cases h0 : t.columns.length - 1 = 0
    · rw [repQ1, if_pos h0]; trivial
    · rw [repQ1, if_neg h0, Res.ok_bind]
      cases hr : rowsLoop (ofTable (V := V) g t)
          (fun _ => tx "(" ++ (Gen.repeatVar (t.columns.length - 1)).drop 1 ++ tx ")") (some i) 0 (r :: rs) with
      | err => trivial
      | panic => trivial
      | ok x =>
        obtain ⟨u, as⟩ := x
        obtain ⟨vs, hvs⟩ := rowsLoop_taken hr
        have hpos := (taken_some hvs).1
        rw [hlen] at hpos
        obtain ⟨h1, -⟩ := rowsLoop_count _ _ _ (t.insertColumns.length - 1)
          (fun r vs h => by rw [(taken_some h).2, hlen]) _ _ _ _ hr
        have h2 := rowsLoop_anons _ _ _ _ _ _ _ hr
        refine bindAnon_none ?_
        simp only [anons_append, anons_tx, anons_join, anons_repeatVar1] at h2 ⊢
        rw [h1, h2]
        have : (r :: rs).length * (t.insertColumns.length - 1) < (r :: rs).length * (0 + (t.columns.length - 1) + 0) :=
          Nat.mul_lt_mul_of_pos_left (by omega) (by simp)
        omega

private theorem ofTable_noAuto (g : Gen.Cfg) (t : Gen.Table F) (ha : t.auto = none) :
    autoPos (ofTable (V := V) g t) = [] ∧ batchColumns (ofTable (V := V) g t) = .ok (g.genColumns t, none) := by
  have hc : t.autoCol = none := by simp [Gen.Table.autoCol, ha]
  unfold autoPos batchColumns
  simp only [ofTable, hc]
  cases g.genPK t with
  | some x => exact ⟨rfl, rfl⟩
  | none => cases Gen.genCompositeKey t with
    | some x => exact ⟨rfl, rfl⟩
    | none => exact ⟨rfl, rfl⟩

/-- C26 is false for generated models with readonly columns (and no auto-increment key): the postgres
statement lists more columns than each row has values, so the database refuses it. -/
theorem C26_readonly_short (g : Gen.Cfg) (t : Gen.Table F) (hs : g.style = .numbered)
    (ha : t.auto = none) (hr : ∃ c ∈ t.columns, c.readonly = true) (hi : t.insertColumns ≠ [])
    (data : List (F → V)) (hd : data ≠ []) : ∃ text as rows, insertPg (ofTable g t) data = .ok (some (text, as)) ∧
      Spec.bind .numbered text as = some (insertRowsB "INSERT INTO " (g.genTableName t) (g.genColumns t) rows ++
        returningB (ofTable (V := V) g t).sqlColumns) ∧
      rows.length = data.length ∧ ∀ r ∈ rows, r.length < (g.genColumns t).length := by
  have h0 : 0 < t.insertColumns.length := List.length_pos_iff.2 hi
  have hlen : ∀ r, ((ofTable (V := V) g t).values r).length = t.insertColumns.length := by
    intro r; simp [ofTable, Gen.genValues]
  have hph : (ofTable (V := V) g t).placeholders = Gen.insertPlaceholders .numbered t.insertColumns.length := by
    simp [ofTable, hs]
  obtain ⟨u, hu, hb⟩ := rowsLoop_ok (ofTable (V := V) g t) _ none t.insertColumns.length
    (ofTable (V := V) g t).values (groupOk_gen .numbered _ h0) data (fun r _ => ⟨rfl, hlen r⟩) 0
  have hb := bind_tx (bind_join (ofTable (V := V) g t).sqlColumns (bind_tx (hb _ [] _ (by simp)
    (head_binds .numbered "INSERT INTO " (g.genTableName t) (g.genColumns t))) " RETURNING ")) ";"
  match data, hd with
  | r :: rs, _ =>
    refine ⟨_, _, (r :: rs).map (ofTable (V := V) g t).values,
      by simp only [insertPg, (ofTable_noAuto g t ha).2, Res.ok_bind, hph, hu]; rfl,
      by simpa [insertRowsB, returningB, commaFrom_zero,
        show (ofTable (V := V) g t).table = g.genTableName t from rfl] using hb, by simp, ?_⟩
    intro x hx
    rw [List.mem_map] at hx
    obtain ⟨r, -, rfl⟩ := hx
    rw [hlen]
    simpa [Gen.Cfg.genColumns] using insertColumns_lt t (.inl hr)

/-- … and the mysql and sqlite statement has more parameters than arguments. -/
theorem C26_readonly_fails_my (g : Gen.Cfg) (t : Gen.Table F)
    (ha : t.auto = none) (hr : ∃ c ∈ t.columns, c.readonly = true)
    (data : List (F → V)) (hd : data ≠ []) : FailsB .anon (insertMy (ofTable g t) data) := by
  have hlt := insertColumns_lt t (.inl hr)
  match data, hd with
  | r :: rs, hd =>
    simp only [insertMy, (ofTable_noAuto g t ha).2, Res.ok_bind]
    have hwl : (g.genColumns t).length = t.columns.length := by simp [Gen.Cfg.genColumns]
    rw [hwl, repQ1, if_neg (by omega), Res.ok_bind]
    cases hr : rowsLoop (ofTable (V := V) g t)
        (fun _ => tx "(" ++ (Gen.repeatVar t.columns.length).drop 1 ++ tx ")") none 0 (r :: rs) with
    | err => trivial
    | panic => trivial
    | ok x =>
      obtain ⟨u, as⟩ := x
      obtain ⟨h1, -⟩ := rowsLoop_count _ _ _ t.insertColumns.length
        (fun r vs h => by cases h; simp [ofTable, Gen.genValues]) _ _ _ _ hr
      have h2 := rowsLoop_anons _ _ _ _ _ _ _ hr
      refine bindAnon_none ?_
      simp only [anons_append, anons_tx, anons_join, anons_repeatVar1] at h2 ⊢
      rw [h1, h2]
      have : (r :: rs).length * t.insertColumns.length < (r :: rs).length * (0 + t.columns.length + 0) :=
        Nat.mul_lt_mul_of_pos_left (by omega) (by simp)
      omega

/-- Generated models without readonly or auto-increment columns meet the hypotheses of the positive
theorems. -/
theorem C26_generated_full (g : Gen.Cfg) (t : Gen.Table F) (ha : t.auto = none)
    (hr : ∀ c ∈ t.columns, c.readonly = false) (hc : t.columns ≠ []) :
    Full (ofTable (V := V) g t) ∧ insCols (ofTable (V := V) g t) = g.genColumns t ∧
      GroupOk V g.style (insCols (ofTable (V := V) g t)).length (ofTable (V := V) g t).placeholders := by
  have hi : t.insertColumns.length = t.columns.length := by
    unfold Gen.Table.insertColumns
    rw [List.length_map, List.filter_eq_self.2, List.length_zipIdx]
    rintro ⟨c, i⟩ h
    simp [hr c (List.mem_of_getElem? (by simpa using List.mem_zipIdx_iff_getElem?.1 h)), ha]
  have hcl : (g.genColumns t).length = t.columns.length := by simp [Gen.Cfg.genColumns]
  have e : insCols (ofTable (V := V) g t) = g.genColumns t := by
    unfold insCols; rw [(ofTable_noAuto g t ha).1, without_nil]; rfl
  refine ⟨fun r => by simp [ofTable, Gen.genValues, hi, hcl], e, ?_⟩
  rw [e, hcl, ← hi]
  exact groupOk_gen _ _ (by rw [hi]; exact List.length_pos_iff.2 hc)

/-- A generated table with an auto-increment key, used in the examples. -/
def exAuto : Gen.Table Nat where
  name := "users"
  columns := [⟨"id", 0, 0, false, none, none⟩, ⟨"name", 1, 1, false, none, none⟩, ⟨"age", 2, 2, false, none, none⟩]
  auto := some 0

def exCfg (st : Style) : Gen.Cfg := { style := st, quoteId := id }

example : insertMy (ofTable (exCfg .anon) exAuto) [fun i => i + 10] =
    .ok (some (tx "INSERT INTO users (name,age) VALUES (" ++ [.anon] ++ tx "," ++ [.anon] ++ tx ");", [12])) := by
  decide

example : insertPg (ofTable (exCfg .numbered) exAuto) [fun i => i + 10] =
    .ok (some (tx "INSERT INTO users (name,age) VALUES (" ++ [.num 1] ++ tx "," ++ [.num 2] ++
      tx ") RETURNING id,name,age;", [12])) := by
  decide

/-! ### C30 -/

private theorem keyCond_ok (st : Style) (m : Mdl R V) (hk : HasKey m) (r : R) :
    ∃ c as, keyCond st m r = .ok (c, as) ∧ ∀ (t : Txt) (b : List (BSym V)), Spec.bind st t ([] : List V) = some b →
      Spec.bind st (t ++ c) as = some (b ++ keyB m r) := by
  unfold HasKey at hk
  unfold keyCond keyB
  cases h : m.key with
  | none => rw [h] at hk; exact hk.elim
  | single a n i val =>
    refine ⟨_, _, rfl, fun t b hb => ?_⟩
    have := bind_val (bind_tx (bind_tx hb n) " = ") (oneVal_var st 0 (val r))
    simpa using this
  | comp names is vals =>
    rw [h] at hk
    obtain ⟨h1, h2⟩ := hk
    have h0 : names.length ≠ 0 := fun h => h1 (List.length_eq_zero_iff.1 h)
    refine ⟨tx "(" ++ join "," names ++ tx ") = (" ++ varsFrom1 st names.length ++ tx ")", vals r, ?_,
      fun t b hb => ?_⟩
    · simp [compCond, h0, Res.map]
    · rw [varsFrom1_eq _ _ h0, ← h2 r]
      have := bind_tx (bind_vars 0 (vals r) rfl (bind_tx (bind_join names (bind_tx hb "(")) ") = (")) ")"
      simpa [tupleB] using this

/-- C30. The fallback SELECT by key reads the model's columns in order and compares exactly the key,
for single and composite keys of any width and both placeholder styles. -/
theorem C30_find_by_key (st : Style) (m : Mdl R V) (hk : HasKey m) (r : R) :
    ∃ t as, findByPK st m r = .ok (t, as) ∧ Spec.bind st t as =
      some (bs "SELECT " ++ namesB m.sqlColumns ++ bs " FROM " ++ bs m.table ++ bs " WHERE " ++ keyB m r ++
        bs " LIMIT 1;") := by
  obtain ⟨c, as, h, hb⟩ := keyCond_ok st m hk r
  refine ⟨_, _, by simp only [findByPK, h, Res.ok_bind]; rfl, ?_⟩
  have := bind_tx (hb _ _ (bind_tx (bind_tx (bind_tx (bind_join m.sqlColumns
    (bind_tx (bind_nil (V := V) st) "SELECT ")) " FROM ") m.table) " WHERE ")) " LIMIT 1;"
  simpa using this

/-- C30. The same with a row lock. -/
theorem C30_lock_by_key (st : Style) (m : Mdl R V) (hk : HasKey m) (mode : String) (r : R) :
    ∃ t as, lockByPK st m mode r = .ok (t, as) ∧ Spec.bind st t as =
      some (bs "SELECT " ++ namesB m.sqlColumns ++ bs " FROM " ++ bs m.table ++ bs " WHERE " ++ keyB m r ++
        bs " LIMIT 1 " ++ bs mode ++ bs ";") := by
  obtain ⟨c, as, h, hb⟩ := keyCond_ok st m hk r
  refine ⟨_, _, by simp only [lockByPK, h, Res.ok_bind]; rfl, ?_⟩
  have := bind_tx (bind_tx (bind_tx (hb _ _ (bind_tx (bind_tx (bind_tx (bind_join m.sqlColumns
    (bind_tx (bind_nil (V := V) st) "SELECT ")) " FROM ") m.table) " WHERE ")) " LIMIT 1 ") mode) ";"
  simpa using this

/-- C30. Deletion by key. -/
theorem C30_delete_by_key (st : Style) (m : Mdl R V) (hk : HasKey m) (r : R) :
    ∃ t as, deleteByPK st m r = .ok (t, as) ∧ Spec.bind st t as =
      some (bs "DELETE FROM " ++ bs m.table ++ bs " WHERE " ++ keyB m r ++ bs ";") := by
  obtain ⟨c, as, h, hb⟩ := keyCond_ok st m hk r
  refine ⟨_, _, by simp only [deleteByPK, h, Res.ok_bind]; rfl, ?_⟩
  have := bind_tx (hb _ _ (bind_tx (bind_tx (bind_tx (bind_nil (V := V) st) "DELETE FROM ") m.table) " WHERE ")) ";"
  simpa using this

/-- A model with a composite key of two columns, used in the examples. -/
def exComp : Mdl (List Nat) Nat where
  table := "t"
  columns := ["a", "k1", "b", "k2"]
  sqlColumns := ["a", "k1", "b", "k2"]
  values r := [r.getD 0 0, r.getD 1 0, r.getD 2 0, r.getD 3 0]
  placeholders := Gen.insertPlaceholders .numbered 4
  key := .comp ["k1", "k2"] [1, 3] fun r => [r.getD 1 0, r.getD 3 0]

example : HasKey exComp := ⟨by decide, fun _ => rfl⟩
example : HasKey exModel := trivial
example : deleteByPK .numbered exComp [1, 2, 3, 4] = .ok (tx "DELETE FROM t WHERE (k1,k2) = (" ++ [.num 1] ++
    tx "," ++ [.num 2] ++ tx ");", [2, 4]) := by decide

/-! ### C29 -/

private theorem keyOk_lt {m : Mdl R V} {a : Bool} {n : String} {i : Nat} {val : R → V} (hk : KeyOk m)
    (h : m.key = .single a n i val) : i < m.columns.length := by
  unfold KeyOk at hk
  rw [h] at hk
  have : m.columns[i]? = some n := hk
  rw [List.getElem?_eq_some_iff] at this
  exact this.1

private theorem keyOk_comp {m : Mdl R V} {ns : List String} {is : List Nat} {vals : R → List V} (hk : KeyOk m)
    (h : m.key = .comp ns is vals) : is.Pairwise (· < ·) ∧ ∀ i ∈ is, i < m.columns.length := by
  unfold KeyOk at hk
  rw [h] at hk
  refine ⟨hk.1, fun i hi => ?_⟩
  have : m.columns[i]? ∈ is.map fun i => m.columns[i]? := List.mem_map_of_mem hi
  rw [hk.2, List.mem_map] at this
  obtain ⟨c, -, h⟩ := this
  have := h.symm
  rw [List.getElem?_eq_some_iff] at this
  exact this.1

/-- C29 is false for every model with a single key and another column: the key value is passed twice, and with numbered
placeholders the comparison refers to the second copy, leaving the first unused.  Every call panics or
is refused. -/
theorem C29_single_key_fails (st : Style) (m : Mdl R V) (hk : KeyOk m) (hf : Full m) (a : Bool) (n : String) (i : Nat)
    (val : R → V) (h : m.key = .single a n i val) (hc2 : 2 ≤ m.columns.length) (r : R) :
    Fails st (updateByPK st m r) := by
  have hi := keyOk_lt hk h
  have hv : i < (m.values r).length := by rw [hf r]; exact hi
  simp only [updateByPK, h, removeAt_eq _ _ hi, removeAt_eq _ _ hv, Res.ok_bind]
  have l1 := without_length_one i m.columns hi
  have l2 := without_length_one i (m.values r) hv
  rw [hf r] at l2
  cases st with
  | anon =>
    cases hc : without [i] m.columns with
    | nil => rw [hc] at l1; simp at l1; omega
    | cons c cs =>
      simp only [setList, Res.ok_bind, Fails]
      refine bindAnon_none ?_
      rw [hc] at l1
      simp only [List.length_append, l2, anons_append, anons_tx, List.length_singleton, anons_assigns, l1]
      simp [Style.var, anons]
  | numbered =>
    cases hc : without [i] m.columns with
    | nil => simp only [setList]; trivial
    | cons c cs =>
      simp only [setList, Res.ok_bind, Fails]
      cases hb : Spec.bind .numbered _ _ with
      | none => rfl
      | some b =>
        have hmem := (bindNum_nums (show bindNum _ _ = some b from hb) ((c :: cs).length + 1)).2
          ⟨by omega, by rw [hc] at l1; simp only [List.length_append, l2, List.length_singleton, l1]; omega⟩
        exfalso
        simp only [nums_append, nums_tx, List.nil_append, List.append_nil, List.mem_append] at hmem
        rcases hmem with hm | hm
        · have : ∀ (k : Nat) (l : List String) (x : Nat), x ∈ nums (assigns .numbered k l) → x ≤ k + l.length := by
            intro k l
            induction l generalizing k with
            | nil => intro x hx; simp [assigns, nums] at hx
            | cons d l ih =>
              intro x hx
              rw [assigns] at hx
              simp only [nums_append, List.mem_append, nums_tx, List.not_mem_nil, or_false] at hx
              rcases hx with (hx | hx) | hx
              · split at hx
                · simp [nums_tx] at hx
                · simp [nums] at hx
              · simp [Style.var, nums] at hx; simp; omega
              · have := ih _ _ hx; simp; omega
          have := this 0 (c :: cs) _ hm
          omega
        · simp [Style.var, nums] at hm

/-- A model whose only column is the key: nothing could be updated, and the helper issues
`UPDATE t SET  = <key> WHERE id = <key>;` (anonymous placeholders) or panics (numbered). -/
theorem C29_only_key_malformed (m : Mdl R V) (a : Bool) (n : String)
    (val : R → V) (h : m.key = .single a n 0 val) (r : R) (hc : m.columns.length = 1)
    (hv : (m.values r).length = 1) :
    updateByPK .numbered m r = .panic ∧ ∃ t as, updateByPK .anon m r = .ok (t, as) ∧
      Spec.bind .anon t as = some (bs "UPDATE " ++ bs m.table ++ bs " SET " ++ bs " = " ++ [.val (val r)] ++
        bs " WHERE " ++ bs n ++ bs " = " ++ [.val (val r)] ++ bs ";") := by
  match hm : m.columns, hc with
  | [c], _ =>
    match hm' : m.values r, hv with
    | [v], _ =>
      refine ⟨by simp [updateByPK, h, hm, hm', removeAt, setList, Res.ok_bind], tx "UPDATE " ++ tx m.table ++ tx " SET " ++
        (tx " = " ++ [.anon]) ++ tx " WHERE " ++ tx n ++ tx " = " ++ [.anon] ++ tx ";", [val r, val r], ?_, ?_⟩
      · simp [updateByPK, h, hm, hm', removeAt, setList, Res.ok_bind, Style.var]
      · have p1 := bind_val (bind_tx (bind_tx (bind_tx (bind_tx (bind_nil (V := V) .anon) "UPDATE ") m.table) " SET ") " = ")
          (oneVal_var .anon 0 (val r))
        have p2 := bind_tx (bind_val (bind_tx (bind_tx (bind_tx p1 " WHERE ") n) " = ") (oneVal_var .anon _ (val r))) ";"
        simpa [Style.var] using p2

/-- C29 is false for every model with a composite key, with anonymous placeholders: only the key
values are passed. -/
theorem C29_composite_fails_anon (m : Mdl R V) (hk : KeyOk m) (hf : Full m) (hh : HasKey m) (ns : List String)
    (is : List Nat) (vals : R → List V) (h : m.key = .comp ns is vals) (r : R) :
    Fails .anon (updateByPK .anon m r) := by
  obtain ⟨h1, h2⟩ := keyOk_comp hk h
  unfold HasKey at hh
  rw [h] at hh
  have h0 : ns.length ≠ 0 := fun h => hh.1 (List.length_eq_zero_iff.1 h)
  simp only [updateByPK, h, sortNat_sorted _ h1, removeAll_eq _ _ h1 h2,
    removeAll_eq (m.values r) _ h1 (by rw [hf r]; exact h2), Res.ok_bind, if_neg h0]
  cases without is m.columns with
  | nil =>
    simp only [setList, Res.ok_bind, Fails]
    refine bindAnon_none ?_
    simp only [hh.2 r, anons_append, anons_tx, anons_join, anons_vars]
    simp [anons]
  | cons c cs =>
    simp only [setList, Res.ok_bind, Fails]
    refine bindAnon_none ?_
    simp only [hh.2 r, anons_append, anons_tx, anons_join, anons_vars, anons_assigns, List.length_cons]
    omega

/-- A correct update text for composite keys. -/
private theorem update_text (m : Mdl R V) (hf : Full m) (ns : List String)
    (is : List Nat) (vals : R → List V) (h : m.key = .comp ns is vals) (r : R) :
    Spec.bind .numbered (tx "UPDATE " ++ tx m.table ++ tx " SET " ++ assigns .numbered 0 (without is m.columns) ++
      tx " WHERE (" ++ join "," ns ++ tx ") = (" ++
      vars .numbered (without is m.columns).length (vals r).length ++ tx ");")
      (without is (m.values r) ++ vals r) = some (updateByKeyB m r) := by
  have hv := without_length is (m.values r) m.columns (hf r)
  have p1 := bind_assigns (st := .numbered) (without is m.columns) (without is (m.values r)) hv 0 rfl
    (bind_tx (bind_tx (bind_tx (bind_nil (V := V) .numbered) "UPDATE ") m.table) " SET ")
  have p2 := bind_vars (without is (m.values r)).length (vals r) (by simp)
    (bind_tx (bind_join ns (bind_tx p1 " WHERE (")) ") = (")
  have p3 := bind_tx p2 ");"
  rw [hv] at p3
  have e1 : bs " WHERE (" = (bs " WHERE " ++ bs "(" : List (BSym V)) := rfl
  have e2 : bs ");" = (bs ")" ++ bs ";" : List (BSym V)) := rfl
  rw [e1, e2] at p3
  simp only [updateByKeyB, keyPosOf, keyB, h, tupleB, assignB]
  simpa [commaFrom_zero] using p3

/-- C29, numbered placeholders and a "composite" key of exactly one column: the only case in which the
helper issues the intended statement.  Missing: everything else, see `C29_single_key_fails`,
`C29_composite_fails_anon`, `C29_composite_wrong_numbered`. -/
theorem C29_update_by_key_partial (m : Mdl R V) (hk : KeyOk m) (hf : Full m) (hh : HasKey m) (n : String)
    (is : List Nat) (vals : R → List V) (h : m.key = .comp [n] is vals)
    (hc : without is m.columns ≠ []) (r : R) :
    ∃ t as, updateByPK .numbered m r = .ok (t, as) ∧ Spec.bind .numbered t as = some (updateByKeyB m r) := by
  obtain ⟨h1, h2⟩ := keyOk_comp hk h
  have hv := without_length is (m.values r) m.columns (hf r)
  unfold HasKey at hh
  rw [h] at hh
  have hset : setList .numbered (without is m.columns) = .ok (assigns .numbered 0 (without is m.columns)) := by
    cases hl : without is m.columns with
    | nil => exact absurd hl hc
    | cons c cs => rfl
  refine ⟨_, _, by
    simp only [updateByPK, h, sortNat_sorted _ h1, removeAll_eq _ _ h1 h2,
      removeAll_eq (m.values r) _ h1 (by rw [hf r]; exact h2), Res.ok_bind, hset, List.length_singleton,
      Nat.sub_self, badTuple]; rfl, ?_⟩
  have := update_text m hf [n] is vals h r
  rw [hh.2 r] at this
  simpa [vars, Style.var] using this

/-- A model meeting the hypotheses. -/
def exOne : Mdl (List Nat) Nat :=
  { exComp with key := .comp ["k1"] [1] fun r => [r.getD 1 0] }

example : KeyOk exOne ∧ Full exOne ∧ HasKey exOne ∧ without [1] exOne.columns = ["a", "b", "k2"] :=
  ⟨⟨by simp, rfl⟩, fun _ => rfl, ⟨by simp, fun _ => rfl⟩, by decide⟩

/-- C29 is false for every model with a composite key of two or more columns, with numbered
placeholders: assignments are written inside the tuple of key values, so whatever is issued is not
the intended update. -/
theorem C29_composite_wrong_numbered (m : Mdl R V) (hk : KeyOk m) (hf : Full m) (hh : HasKey m) (ns : List String)
    (is : List Nat) (vals : R → List V) (h : m.key = .comp ns is vals) (hn : 2 ≤ ns.length) (r : R) (t : Txt)
    (as : List V) (ht : updateByPK .numbered m r = .ok (t, as)) :
    Spec.bind .numbered t as ≠ some (updateByKeyB m r) := by
  obtain ⟨h1, h2⟩ := keyOk_comp hk h
  have p4 := bind_length (update_text m hf ns is vals h r)
  unfold HasKey at hh
  rw [h] at hh
  -- the text issued
  simp only [updateByPK, h, sortNat_sorted _ h1, removeAll_eq _ _ h1 h2,
    removeAll_eq (m.values r) _ h1 (by rw [hf r]; exact h2), Res.ok_bind] at ht
  rw [Res.bind_eq_ok] at ht
  obtain ⟨set, hset, ht⟩ := ht
  rw [Res.bind_eq_ok] at ht
  obtain ⟨q, hq, ht⟩ := ht
  have hset' : set = assigns .numbered 0 (without is m.columns) := by
    cases hl : without is m.columns with
    | nil => rw [hl] at hset; simp [setList] at hset
    | cons c cs => rw [hl] at hset; simp only [setList] at hset; exact (Res.ok.inj hset).symm
  cases ht
  subst hset'
  intro hb
  have l1 := bind_length hb
  have l2 := badTuple_length hq
  obtain ⟨k, hk'⟩ : ∃ k, ns.length = k + 1 := ⟨ns.length - 1, by omega⟩
  have hvl : (vals r).length = k + 1 := by rw [hh.2 r, hk']
  rw [hvl] at p4
  have l3 := vars_length .numbered (without is m.columns).length k
  rw [p4] at l1
  have e1 : ns.length - 1 = k := by omega
  rw [e1] at l2
  have e2 : (tx ");").length = 2 := rfl
  simp only [List.length_append, l3, List.length_singleton] at l1
  omega

example : KeyOk exComp ∧ Full exComp ∧ HasKey exComp :=
  ⟨⟨by decide, rfl⟩, fun _ => rfl, ⟨by decide, fun _ => rfl⟩⟩
example : updateByPK .numbered exComp [1, 2, 3, 4] = .ok (tx "UPDATE t SET a = " ++ [.num 1] ++ tx ",b = " ++ [.num 2] ++
    tx " WHERE (k1,k2) = (" ++ [.num 3] ++ tx ",b = " ++ [.num 4] ++ tx ");", [1, 3, 2, 4]) := by decide
example : updateByPK .anon exModel [1, 2, 3] = .ok (tx "UPDATE t SET a = " ++ [.anon] ++ tx ",b = " ++ [.anon] ++
    tx " WHERE id = " ++ [.anon] ++ tx ";", [2, 3, 1, 1]) := by decide

/-! ### C27 -/

/-- What the code leaves out of the update list: unlike `keptOf`, conflict columns given by the caller
are not included. -/
def leftOut (m : Mdl R V) (o : UpOpts) : List String :=
  o.omitted ++ keyNamesOf m ++ (if o.dup = [] then m.dupKeys.getD [] else []) ++ m.omitCols.getD []

/-- From `ON CONFLICT` on, with a given update list. -/
def conflictTextB (m : Mdl R V) (o : UpOpts) (set : List String) : List (BSym V) :=
  bs " ON CONFLICT(" ++ namesB (targetOf m o) ++ bs ")" ++
    (if o.doNothing then bs " DO NOTHING" else bs " DO UPDATE SET " ++ excludedB set) ++ returningB m.sqlColumns

private theorem conflictPg_ok (m : Mdl R V) (o : UpOpts) (hk : HasKey m) (cols : List String) :
    ∃ c, conflictPg m o cols = .ok c ∧ ∀ (st : Style) (t : Txt) (as : List V) (b : List (BSym V)),
      Spec.bind st t as = some b → Spec.bind st (t ++ c) as =
        some (b ++ conflictTextB m o (cols.filter (· ∉ leftOut m o))) := by
  have h1 : keyNames m = .ok (keyNamesOf m) := by
    unfold HasKey at hk
    unfold keyNames keyNamesOf
    cases h : m.key with
    | none => rw [h] at hk; exact hk.elim
    | single _ _ _ _ => rfl
    | comp _ _ _ => rfl
  have h2 : target m o = .ok (targetOf m o, if o.dup = [] then m.dupKeys.getD [] else []) := by
    unfold target targetOf
    by_cases hd : o.dup = []
    · simp only [hd, ne_eq, not_true, if_false, if_true]
      cases m.dupKeys with
      | some ks => rfl
      | none => simp [h1, Res.map]
    · simp [hd]
  refine ⟨_, by simp only [conflictPg, h1, h2, Res.ok_bind]; rfl, fun st t as b hb => ?_⟩
  have p1 := bind_tx (bind_join (targetOf m o) (bind_tx hb " ON CONFLICT(")) ")"
  unfold conflictTextB
  cases hd : o.doNothing with
  | true =>
    have p2 := bind_tx (bind_join m.sqlColumns (bind_tx (bind_tx p1 " DO NOTHING") " RETURNING ")) ";"
    simpa [returningB] using p2
  | false =>
    have p2 := bind_tx (bind_join m.sqlColumns (bind_tx (bind_join ((cols.filter (· ∉ leftOut m o)).map excluded)
      (bind_tx p1 " DO UPDATE SET ")) " RETURNING ")) ";"
    have e : namesB ((cols.filter (· ∉ leftOut m o)).map excluded) =
        (excludedB (cols.filter (· ∉ leftOut m o)) : List (BSym V)) := by
      unfold namesB excludedB
      rw [List.map_map]
      congr 1
      apply List.map_congr_left
      intro c _
      simp [excluded]
    rw [e] at p2
    simp only [setLoop_true]
    simpa [returningB, leftOut] using p2

private theorem batch_filter (m : Mdl R V) (hk : KeyOk m) (om : List String) (ho : ∀ c ∈ keyNamesOf m, c ∈ om) :
    (insCols m).filter (· ∉ om) = m.columns.filter (· ∉ om) := by
  unfold insCols
  rw [without_eq]
  apply dropP_filter
  intro i c hc hp
  unfold autoPos at hp
  unfold KeyOk at hk
  unfold keyNamesOf at ho
  cases h : m.key with
  | none => rw [h] at hp; simp at hp
  | comp _ _ _ => rw [h] at hp; simp at hp
  | single a n j _ =>
    rw [h] at hp hk ho
    cases a with
    | false => simp at hp
    | true =>
      have e : i = j := by simpa using hp
      subst e
      have : m.columns[i]? = some n := hk
      rw [hc] at this
      cases this
      simpa using ho c (by simp)

/-- C27: what the postgres single upsert says, for every model with one value per column and every
combination of options. -/
theorem C27_upsert_one_text (m : Mdl R V) (hk : KeyOk m) (hh : HasKey m) (hf : Full m)
    (hg : GroupOk V .numbered (insCols m).length m.placeholders) (o : UpOpts) (r : R) :
    ∃ t as, upsertOnePg m o r = .ok (t, as) ∧ (insRow m r).length = (insCols m).length ∧
      Spec.bind .numbered t as = some (insertRowsB "INSERT INTO " m.table (insCols m) [insRow m r] ++
        conflictTextB m o ((insCols m).filter (· ∉ leftOut m o))) := by
  obtain ⟨c, hc, hb⟩ := conflictPg_ok m o hh (insCols m)
  have ht : taken m (autoPos m).head? r = .ok (insRow m r) := taken_eq m hk hf r
  refine ⟨tx "INSERT INTO " ++ tx m.table ++ tx " (" ++ join "," (insCols m) ++ tx ") VALUES " ++
    m.placeholders 0 ++ c, insRow m r, ?_, insRow_length m hf r, ?_⟩
  · simp only [upsertOnePg, batchColumns_eq m hk, Res.ok_bind]
    have hc' : conflictPg m o (without (autoPos m) m.columns) = .ok c := hc
    rw [hc']
    unfold taken at ht
    cases hd : (autoPos m).head? with
    | none => rw [hd] at ht; simp only [Res.ok_bind]; rw [← Res.ok.inj ht]; rfl
    | some k => rw [hd] at ht; simp only [ht, Res.ok_bind]; rfl
  · have := hb .numbered _ _ _ (hg 0 (insRow m r) _ [] _ (by simp) (insRow_length m hf r)
      (head_binds .numbered "INSERT INTO " m.table (insCols m)))
    simpa [insertRowsB, comma, List.intercalate] using this

/-- C27: what the postgres batch upsert says. -/
theorem C27_upsert_text (m : Mdl R V) (hk : KeyOk m) (hh : HasKey m) (hf : Full m)
    (hg : GroupOk V .numbered (insCols m).length m.placeholders) (o : UpOpts) (data : List R) (hd : data ≠ []) :
    ∃ t as, upsertPg m o data = .ok (some (t, as)) ∧
      (∀ r ∈ data, (insRow m r).length = (insCols m).length) ∧
      Spec.bind .numbered t as = some (insertRowsB "INSERT INTO " m.table (insCols m) (data.map (insRow m)) ++
        conflictTextB m o ((insCols m).filter (· ∉ leftOut m o))) := by
  obtain ⟨c, hc, hb⟩ := conflictPg_ok m o hh m.columns
  rw [← batch_filter m hk (leftOut m o) (fun c hc => by simp [leftOut, hc])] at hb
  obtain ⟨t, ht, hb'⟩ := rows_bind m hk hf m.placeholders hg data "INSERT INTO " (insCols m)
  cases data with
  | nil => exact absurd rfl hd
  | cons r rs =>
    refine ⟨tx "INSERT INTO " ++ tx m.table ++ tx " (" ++ join "," (insCols m) ++ tx ") VALUES " ++ t ++ c, _,
      by simp only [upsertPg, batchColumns_eq m hk, Res.ok_bind, ht, hc]; rfl,
      fun r _ => insRow_length m hf r, hb .numbered _ _ _ hb'⟩

private theorem leftOut_kept (m : Mdl R V) (o : UpOpts) (hd : ∀ c ∈ o.dup, c ∈ leftOut m o) (c : String) :
    c ∉ leftOut m o ↔ c ∉ keptOf m o := by
  unfold keptOf targetOf
  by_cases h : o.dup = []
  · simp only [leftOut, h, if_true]
    cases m.dupKeys <;> simp <;> tauto
  · simp only [h, if_false]
    have : ∀ c, c ∈ leftOut m o ↔ c ∈ o.omitted ++ keyNamesOf m ++ m.omitCols.getD [] := by
      intro c; simp [leftOut, h]
    rw [this]
    have := hd c
    rw [show c ∈ leftOut m o ↔ _ from ‹∀ c, c ∈ leftOut m o ↔ _› c] at this
    simp only [List.mem_append] at this ⊢
    tauto

/-- C27, provided conflict columns given by the caller are keys or omitted: exactly the inserted
columns that are neither key, conflict target nor omitted are updated.  Missing: conflict columns given
with `WithDuplicateKeys`, see `C27_given_targets_updated`; generated models with readonly or
auto-increment columns. -/
theorem C27_upsert_one_partial (m : Mdl R V) (hk : KeyOk m) (hh : HasKey m) (hf : Full m)
    (hg : GroupOk V .numbered (insCols m).length m.placeholders) (o : UpOpts)
    (hd : ∀ c ∈ o.dup, c ∈ keyNamesOf m ++ o.omitted ++ m.omitCols.getD []) (r : R) :
    ∃ t as, upsertOnePg m o r = .ok (t, as) ∧
      Spec.bind .numbered t as = some (insertRowsB "INSERT INTO " m.table (insCols m) [insRow m r] ++
        onConflictB m o (insCols m)) := by
  obtain ⟨t, as, h1, -, h2⟩ := C27_upsert_one_text m hk hh hf hg o r
  refine ⟨t, as, h1, ?_⟩
  rw [h2]
  have hd' : ∀ c ∈ o.dup, c ∈ leftOut m o := fun c hc => by
    have := hd c hc; simp only [leftOut, List.mem_append] at this ⊢; tauto
  unfold conflictTextB onConflictB
  simp only [leftOut_kept m o hd']

/-- C27 for batches, with the same restriction. -/
theorem C27_upsert_partial (m : Mdl R V) (hk : KeyOk m) (hh : HasKey m) (hf : Full m)
    (hg : GroupOk V .numbered (insCols m).length m.placeholders) (o : UpOpts)
    (hd : ∀ c ∈ o.dup, c ∈ keyNamesOf m ++ o.omitted ++ m.omitCols.getD []) (data : List R) (hne : data ≠ []) :
    ∃ t as, upsertPg m o data = .ok (some (t, as)) ∧
      Spec.bind .numbered t as = some (insertRowsB "INSERT INTO " m.table (insCols m) (data.map (insRow m)) ++
        onConflictB m o (insCols m)) := by
  obtain ⟨t, as, h1, -, h2⟩ := C27_upsert_text m hk hh hf hg o data hne
  refine ⟨t, as, h1, ?_⟩
  rw [h2]
  have hd' : ∀ c ∈ o.dup, c ∈ leftOut m o := fun c hc => by
    have := hd c hc; simp only [leftOut, List.mem_append] at this ⊢; tauto
  unfold conflictTextB onConflictB
  simp only [leftOut_kept m o hd']

/-- No records, no statement. -/
theorem C27_empty (m : Mdl R V) (o : UpOpts) : upsertPg m o [] = .ok none := rfl

private theorem excludedB_filter_lt (l : List String) (p q : String → Bool) (hpq : ∀ c, q c = true → p c = true)
    (hex : ∃ c ∈ l, p c = true ∧ q c = false) :
    (excludedB (l.filter q) : List (BSym V)).length < (excludedB (l.filter p) : List (BSym V)).length := by
  have hlen : ∀ l : List String, (excludedB l : List (BSym V)).length + (if l = [] then 0 else 1) =
      (l.map fun c => 2 * c.toList.length + 13).sum := by
    intro l
    induction l with
    | nil => rfl
    | cons c l ih =>
      have e : (bs " = EXCLUDED." : List (BSym V)).length = 12 := rfl
      have e1 : (bs "," : List (BSym V)).length = 1 := rfl
      have ec : (bs c : List (BSym V)).length = c.toList.length := by simp [bs]
      cases l with
      | nil =>
        simp only [excludedB, comma, List.intercalate, List.map_cons, List.map_nil]
        simp [e, ec]; omega
      | cons d l =>
        have h : (excludedB (c :: d :: l) : List (BSym V)) =
            bs c ++ bs " = EXCLUDED." ++ bs c ++ bs "," ++ excludedB (d :: l) := by
          simp [excludedB, comma, List.intercalate]
        rw [h, List.map_cons, List.sum_cons, ← ih]
        simp only [List.length_append, e, e1, ec]
        simp; omega
  have hsum : ∀ l : List String, ((l.filter q).map fun c => 2 * c.toList.length + 13).sum ≤
      ((l.filter p).map fun c => 2 * c.toList.length + 13).sum := by
    intro l
    induction l with
    | nil => simp
    | cons c l ih =>
      rw [List.filter_cons, List.filter_cons]
      cases hq : q c with
      | true => simp [hpq c hq]; exact ih
      | false => cases hp : p c <;> simp <;> omega
  have hstrict : ((l.filter q).map fun c => 2 * c.toList.length + 13).sum + 13 ≤
      ((l.filter p).map fun c => 2 * c.toList.length + 13).sum := by
    obtain ⟨c, hc, hp, hq⟩ := hex
    induction l with
    | nil => simp at hc
    | cons d l ih =>
      rw [List.filter_cons, List.filter_cons]
      rcases List.mem_cons.1 hc with rfl | hc
      · have := hsum l
        simp [hp, hq]; omega
      · have := ih hc
        cases hq' : q d with
        | true => simp [hpq d hq'] ; omega
        | false => cases hp' : p d <;> simp <;> omega
  have h1 := hlen (l.filter q)
  have h2 := hlen (l.filter p)
  split at h1 <;> split at h2 <;> omega

/-- C27 is false whenever the caller names a conflict column that is an inserted column, neither key
nor omitted: the statement also overwrites that column. -/
theorem C27_given_targets_updated (m : Mdl R V) (hk : KeyOk m) (hh : HasKey m) (hf : Full m)
    (hg : GroupOk V .numbered (insCols m).length m.placeholders) (o : UpOpts) (ho : o.doNothing = false) (c : String)
    (hc : c ∈ o.dup) (hi : c ∈ insCols m) (hn : c ∉ keyNamesOf m ++ o.omitted ++ m.omitCols.getD []) (r : R) :
    ∃ t as set, upsertOnePg m o r = .ok (t, as) ∧ c ∈ set ∧
      Spec.bind .numbered t as = some (insertRowsB "INSERT INTO " m.table (insCols m) [insRow m r] ++
        conflictTextB m o set) ∧
      Spec.bind .numbered t as ≠ some (insertRowsB "INSERT INTO " m.table (insCols m) [insRow m r] ++
        onConflictB m o (insCols m)) := by
  obtain ⟨t, as, h1, -, h2⟩ := C27_upsert_one_text m hk hh hf hg o r
  have hdup : o.dup ≠ [] := List.ne_nil_of_mem hc
  have hcl : c ∉ leftOut m o := by
    simp only [leftOut, if_neg hdup, List.mem_append] at hn ⊢
    simp only [List.not_mem_nil, or_false]; tauto
  refine ⟨t, as, _, h1, ?_, h2, ?_⟩
  · simp [hi, hcl]
  · rw [h2]
    intro he
    have := congrArg List.length (Option.some.inj he)
    have hlt := excludedB_filter_lt (V := V) (insCols m) (fun c => decide (c ∉ leftOut m o)) (fun c => decide (c ∉ keptOf m o))
      (fun c h => by
        simp only [decide_eq_true_eq] at h ⊢
        simp only [keptOf, leftOut, if_neg hdup, List.mem_append] at h ⊢
        simp only [List.not_mem_nil, or_false]; tauto)
      ⟨c, hi, by simpa using hcl, by simp [keptOf, targetOf, hdup, hc]⟩
    simp only [conflictTextB, onConflictB, ho, Bool.false_eq_true, if_false, List.length_append] at this
    omega

example : (exModel.columns.filter (· ∉ keptOf exModel { omitted := ["b"] })) = ["a"] ∧
    upsertOnePg exModel { omitted := ["b"] } [7, 8, 9] = .ok (tx "INSERT INTO t (a,b) VALUES (" ++ [.num 1] ++ tx "," ++
      [.num 2] ++ tx ") ON CONFLICT(id) DO UPDATE SET a = EXCLUDED.a RETURNING id,a,b;", [8, 9]) := by decide

example : "a" ∈ insCols exModel ∧ upsertOnePg exModel { dup := ["a"] } [7, 8, 9] =
    .ok (tx "INSERT INTO t (a,b) VALUES (" ++ [.num 1] ++ tx "," ++
      [.num 2] ++ tx ") ON CONFLICT(a) DO UPDATE SET a = EXCLUDED.a,b = EXCLUDED.b RETURNING id,a,b;", [8, 9]) := by decide

/-- When nothing is left to update the statement still says `DO UPDATE SET`, followed by nothing: it
is not valid SQL. -/
theorem C27_nothing_to_update (m : Mdl R V) (hk : KeyOk m) (hh : HasKey m) (hf : Full m)
    (hg : GroupOk V .numbered (insCols m).length m.placeholders) (o : UpOpts) (ho : o.doNothing = false)
    (hn : ∀ c ∈ insCols m, c ∈ leftOut m o) (r : R) :
    ∃ t as, upsertOnePg m o r = .ok (t, as) ∧
      Spec.bind .numbered t as = some (insertRowsB "INSERT INTO " m.table (insCols m) [insRow m r] ++
        bs " ON CONFLICT(" ++ namesB (targetOf m o) ++ bs ")" ++ bs " DO UPDATE SET " ++ bs " RETURNING " ++
        namesB m.sqlColumns ++ bs ";") := by
  obtain ⟨t, as, h1, -, h2⟩ := C27_upsert_one_text m hk hh hf hg o r
  refine ⟨t, as, h1, ?_⟩
  rw [h2]
  have : (insCols m).filter (· ∉ leftOut m o) = [] := by
    rw [List.filter_eq_nil_iff]; intro c hc; simpa using hn c hc
  rw [this]
  simp [conflictTextB, ho, returningB, excludedB, comma, List.intercalate]

example : ∀ c ∈ insCols exModel, c ∈ leftOut exModel { omitted := ["a", "b"] } := by decide

/-- C27 is false for generated models with an auto-increment key: every upsert panics or is refused. -/
theorem C27_auto_increment_fails (g : Gen.Cfg) (t : Gen.Table F) (hw : WF t) (hs : g.style = .numbered)
    (i : Nat) (ha : t.auto = some i) (o : UpOpts) (data : List (F → V)) (hd : data ≠ []) :
    FailsB .numbered (upsertPg (ofTable g t) o data) := by
  obtain ⟨n, hn, val, hkey⟩ := ofTable_auto (V := V) g t hw i ha
  have hko : KeyOk (ofTable (V := V) g t) := by unfold KeyOk; rw [hkey]; exact hn
  have hh : HasKey (ofTable (V := V) g t) := by unfold HasKey; rw [hkey]; trivial
  have hap : (autoPos (ofTable (V := V) g t)).head? = some i := by unfold autoPos; rw [hkey]; rfl
  have hlen : ∀ r, ((ofTable (V := V) g t).values r).length = t.insertColumns.length := by
    intro r; simp [ofTable, Gen.genValues]
  obtain ⟨c, hc, -⟩ := conflictPg_ok (ofTable (V := V) g t) o hh (ofTable (V := V) g t).columns
  match data, hd with
  | r :: rs, hd =>
    simp only [upsertPg, batchColumns_eq _ hko, Res.ok_bind, hap]
    cases hr : rowsLoop (ofTable (V := V) g t) (ofTable (V := V) g t).placeholders (some i) 0 (r :: rs) with
    | err => trivial
    | panic => trivial
    | ok x =>
      obtain ⟨u, as⟩ := x
      obtain ⟨vs, hvs⟩ := rowsLoop_taken hr
      have hpos := (taken_some hvs).1
      rw [hlen] at hpos
      obtain ⟨h1, h2⟩ := rowsLoop_count _ _ _ (t.insertColumns.length - 1)
        (fun r vs h => by rw [(taken_some h).2, hlen]) _ _ _ _ hr
      simp only [Res.ok_bind, hc]
      refine bind_tooFew ((r :: rs).length * t.insertColumns.length) ?_ ?_
      · simp only [nums_append, List.mem_append]
        left; right
        rw [h2]
        have := last_group t.insertColumns.length (by omega) (r :: rs) hd
        simpa [ofTable, hs] using this
      · rw [h1]
        exact Nat.mul_lt_mul_of_pos_left (by omega) (by simp)

/-! ### C28 -/

private theorem valuesFn_names (cols : List String) :
    namesB (cols.map valuesFn) = (comma (cols.map fun c => bs c ++ bs " =VALUES(" ++ bs c ++ bs ")") : List (BSym V)) := by
  unfold namesB
  rw [List.map_map]
  congr 1
  apply List.map_congr_left
  intro c _
  simp [valuesFn]

private theorem valuesFn'_names (cols : List String) :
    namesB (cols.map valuesFn') = (comma (cols.map fun c => bs c ++ bs "=VALUES(" ++ bs c ++ bs ")") : List (BSym V)) := by
  unfold namesB
  rw [List.map_map]
  congr 1
  apply List.map_congr_left
  intro c _
  simp [valuesFn']

/-- The statement head of the mysql upserts. -/
def verbOf (override : Bool) : String := if override then "INSERT INTO " else "INSERT IGNORE INTO "

private theorem oneRow (m : Mdl R V) (r : R) (hv : (m.values r).length = m.columns.length) (hn : m.columns ≠ [])
    (verb : String) :
    repQ1 m.columns.length = .ok ((Gen.repeatVar m.columns.length).drop 1) ∧
    Spec.bind .anon (tx verb ++ tx m.table ++ tx " (" ++ join "," m.columns ++ tx ") VALUES (" ++
      (Gen.repeatVar m.columns.length).drop 1 ++ tx ")") (m.values r) =
      some (insertRowsB verb m.table m.columns [m.values r]) := by
  have h0 : m.columns.length ≠ 0 := fun h => hn (List.length_eq_zero_iff.1 h)
  refine ⟨by rw [repQ1, if_neg h0], ?_⟩
  have := groupOk_static (V := V) m.columns.length (by omega) 0 (m.values r) _ [] _ (by simp) hv
    (head_binds .anon verb m.table m.columns)
  have e : tx ") VALUES (" = tx ") VALUES " ++ tx "(" := rfl
  rw [e]
  simpa [insertRowsB, comma, List.intercalate] using this

/-- C28, single upsert of mysql for models with one value per column and a single key: all columns are
inserted, and exactly those that are neither key nor omitted are updated.  Missing: composite keys
(`C28_upsert_one_composite_panics`), generated models with auto-increment or readonly columns
(`C28_upsert_one_generated_fails`). -/
theorem C28_upsert_one_partial (m : Mdl R V) (r : R) (hv : (m.values r).length = m.columns.length)
    (hn : m.columns ≠ []) (a : Bool) (n : String) (i : Nat) (val : R → V) (hk : m.key = .single a n i val)
    (override : Bool) (omitted : List String) : ∃ t as, upsertOneMy m override omitted r = .ok (t, as) ∧
      Spec.bind .anon t as = some (insertRowsB (verbOf override) m.table m.columns [m.values r] ++
        if override then onDuplicateB " =VALUES(" (m.columns.filter (· ∉ n :: omitted)) else bs ";") := by
  obtain ⟨hq, hb⟩ := oneRow m r hv hn (verbOf override)
  cases override with
  | true =>
    refine ⟨_, _, by simp only [upsertOneMy, hk, hq, Res.ok_bind, if_true]; rfl, ?_⟩
    have p := bind_join ((m.columns.filter (· ∉ n :: omitted)).map valuesFn) (bind_tx hb " ON DUPLICATE KEY UPDATE ")
    rw [valuesFn_names] at p
    rw [setLoop_true]
    have e : tx ") ON DUPLICATE KEY UPDATE " = tx ")" ++ tx " ON DUPLICATE KEY UPDATE " := rfl
    rw [e]
    simpa [verbOf, onDuplicateB] using p
  | false =>
    refine ⟨_, _, by simp only [upsertOneMy, hk, hq, Res.ok_bind, Bool.false_eq_true, if_false]; rfl, ?_⟩
    have p := bind_tx hb ";"
    have e : tx ");" = tx ")" ++ tx ";" := rfl
    rw [e]
    simpa [verbOf] using p

/-- C28, composite keys without override: INSERT IGNORE of all columns. -/
theorem C28_upsert_one_ignore_partial (m : Mdl R V) (r : R) (hv : (m.values r).length = m.columns.length)
    (hn : m.columns ≠ []) (ns : List String) (is : List Nat) (vals : R → List V) (hk : m.key = .comp ns is vals)
    (omitted : List String) : ∃ t as, upsertOneMy m false omitted r = .ok (t, as) ∧
      Spec.bind .anon t as = some (insertRowsB "INSERT IGNORE INTO " m.table m.columns [m.values r] ++ bs ";") := by
  obtain ⟨hq, hb⟩ := oneRow m r hv hn "INSERT IGNORE INTO "
  refine ⟨_, _, by simp only [upsertOneMy, hk, hq, Res.ok_bind, Bool.false_eq_true, if_false]; rfl, ?_⟩
  have p := bind_tx hb ";"
  have e : tx ");" = tx ")" ++ tx ";" := rfl
  rw [e]
  simpa using p

/-- C28 is false for every composite key: the overriding single upsert panics, whatever the record and
the omitted columns. -/
theorem C28_upsert_one_composite_panics (m : Mdl R V) (r : R) (ns : List String) (is : List Nat)
    (vals : R → List V) (hk : m.key = .comp ns is vals) (hn : ns ≠ []) (omitted : List String) :
    upsertOneMy m true omitted r = .panic := by
  have h0 : 0 < ns.length := List.length_pos_iff.2 hn
  simp only [upsertOneMy, hk]
  by_cases h : m.columns.length = 0
  · simp only [repQ1, if_pos h]; rfl
  · simp only [repQ1, if_neg h, Res.ok_bind, if_true]
    rw [if_pos (by simp; omega)]

/-- C28 is false for generated models with an auto-increment key or readonly columns and a single key:
there are fewer values than columns. -/
theorem C28_upsert_one_generated_fails (g : Gen.Cfg) (t : Gen.Table F)
    (h : (∃ c ∈ t.columns, c.readonly = true) ∨ (∃ i, t.auto = some i ∧ i < t.columns.length))
    (override : Bool) (omitted : List String) (r : F → V) (ho : override = false ∨ ∃ a n i v,
      (ofTable (V := V) g t).key = .single a n i v) :
    Fails .anon (upsertOneMy (ofTable g t) override omitted r) := by
  have hlt := insertColumns_lt t h
  have hcl : (ofTable (V := V) g t).columns.length = t.columns.length := by simp [ofTable, Gen.Cfg.genColumns]
  have hlen : ((ofTable (V := V) g t).values r).length = t.insertColumns.length := by simp [ofTable, Gen.genValues]
  have hq : repQ1 (ofTable (V := V) g t).columns.length = .ok ((Gen.repeatVar t.columns.length).drop 1) := by
    rw [hcl, repQ1, if_neg (by omega)]
  unfold upsertOneMy
  cases hk : (ofTable (V := V) g t).key with
  | none => trivial
  | single a n i v =>
    simp only [hq, Res.ok_bind]
    cases override <;> simp only [if_true, Bool.false_eq_true, if_false, Fails] <;> refine bindAnon_none ?_ <;>
      simp only [anons_append, anons_tx, anons_join, anons_repeatVar1, anons_setLoop, hlen] <;> omega
  | comp ns is v =>
    rcases ho with rfl | ⟨_, _, _, _, ho⟩
    · simp only [hq, Res.ok_bind, Bool.false_eq_true, if_false, Fails]
      refine bindAnon_none ?_
      simp only [anons_append, anons_tx, anons_join, anons_repeatVar1, hlen]
      omega
    · rw [hk] at ho; cases ho

/-- C28 is false for every batch upsert of models with an auto-increment key, hand-written or
generated: each group has one parameter too many. -/
theorem C28_upsert_auto_fails (m : Mdl R V) (k : Nat) (hv : ∀ r, (m.values r).length = k) (hle : k ≤ m.columns.length)
    (n : String) (i : Nat) (val : R → V) (hk : m.key = .single true n i val) (override : Bool)
    (omitted : List String) (data : List R) (hd : data ≠ []) :
    FailsB .anon (upsertMy m override omitted data) := by
  match data, hd with
  | r :: rs, hd =>
    simp only [upsertMy, hk]
    cases hc : removeAt m.columns i with
    | err => trivial
    | panic => trivial
    | ok cols =>
      have hi := (removeAt_ok hc).1
      rw [Res.ok_bind, repQ1, if_neg (by omega), Res.ok_bind]
      cases hr : rowsLoop m (fun _ => tx "(" ++ (Gen.repeatVar m.columns.length).drop 1 ++ tx ")") (some i) 0 (r :: rs) with
      | err => trivial
      | panic => trivial
      | ok x =>
        obtain ⟨u, as⟩ := x
        obtain ⟨vs, hvs⟩ := rowsLoop_taken hr
        have hpos := (taken_some hvs).1
        rw [hv] at hpos
        obtain ⟨h1, -⟩ := rowsLoop_count _ _ _ (k - 1) (fun r vs h => by rw [(taken_some h).2, hv]) _ _ _ _ hr
        have h2 := rowsLoop_anons _ _ _ _ _ _ _ hr
        refine bindAnon_none ?_
        have ht : anons (upsertTail override (omitted ++ [n]) cols) = 0 := by
          unfold upsertTail; cases override <;> simp
        have hvb : anons (if override = true then tx "INSERT INTO " else tx "INSERT IGNORE INTO ") = 0 := by
          cases override <;> simp
        simp only [anons_append, anons_tx, anons_join, anons_repeatVar1, ht, hvb] at h2 ⊢
        rw [h1, h2]
        have : (r :: rs).length * (k - 1) < (r :: rs).length * (0 + m.columns.length + 0) :=
          Nat.mul_lt_mul_of_pos_left (by omega) (by simp)
        omega

private theorem upsertTail_binds {t : Txt} {as : List V} {b : List (BSym V)} (h : Spec.bind .anon t as = some b)
    (override : Bool) (om cols : List String) : Spec.bind .anon (t ++ upsertTail override om cols) as =
      some (b ++ (if override then onDuplicateB "=VALUES(" (cols.filter (· ∉ om)) else []) ++ bs ";") := by
  unfold upsertTail
  cases override with
  | false => simpa using bind_tx h ";"
  | true =>
    have p := bind_tx (bind_join ((cols.filter (· ∉ om)).map valuesFn') (bind_tx h " ON DUPLICATE KEY UPDATE ")) ";"
    rw [valuesFn'_names] at p
    simp only [if_true, setLoop_true]
    simpa [onDuplicateB] using p

private theorem plainRows (m : Mdl R V) (hf : Full m) (hg : GroupOk V .anon m.columns.length m.placeholders)
    (data : List R) (verb : String) : ∃ t, rowsLoop m m.placeholders none 0 data = .ok (t, (data.map m.values).flatten) ∧
      Spec.bind .anon (tx verb ++ tx m.table ++ tx " (" ++ join "," m.columns ++ tx ") VALUES " ++ t)
        (data.map m.values).flatten = some (insertRowsB verb m.table m.columns (data.map m.values)) := by
  obtain ⟨t, ht, hb⟩ := rowsLoop_ok m m.placeholders none m.columns.length m.values hg data
    (fun r _ => ⟨rfl, hf r⟩) 0
  refine ⟨t, ht, ?_⟩
  have := hb _ [] _ (by simp) (head_binds (V := V) .anon verb m.table m.columns)
  simpa [insertRowsB, commaFrom_zero] using this

/-- C28, batches of models with one value per column and a single key that is not auto-increment. -/
theorem C28_upsert_single_partial (m : Mdl R V) (hf : Full m) (hg : GroupOk V .anon m.columns.length m.placeholders)
    (n : String) (i : Nat) (val : R → V) (hk : m.key = .single false n i val) (override : Bool)
    (omitted : List String) (data : List R) (hd : data ≠ []) :
    ∃ t as, upsertMy m override omitted data = .ok (some (t, as)) ∧
      Spec.bind .anon t as = some (insertRowsB (verbOf override) m.table m.columns (data.map m.values) ++
        (if override then onDuplicateB "=VALUES(" (m.columns.filter (· ∉ omitted ++ [n])) else []) ++ bs ";") := by
  obtain ⟨t, ht, hb⟩ := plainRows m hf hg data (verbOf override)
  match data, hd with
  | r :: rs, _ =>
    refine ⟨tx (verbOf override) ++ tx m.table ++ tx " (" ++ join "," m.columns ++ tx ") VALUES " ++ t ++
      upsertTail override (omitted ++ [n]) m.columns, _, ?_, upsertTail_binds hb override _ _⟩
    simp only [upsertMy, hk, ht, Res.ok_bind]
    cases override <;> rfl

/-- C28, batches of models with one value per column and a composite key (of any width): the key
columns are inserted but not updated. -/
theorem C28_upsert_composite_partial (m : Mdl R V) (hf : Full m) (hko : KeyOk m)
    (hg : GroupOk V .anon m.columns.length m.placeholders)
    (ns : List String) (is : List Nat) (vals : R → List V) (hk : m.key = .comp ns is vals) (override : Bool)
    (omitted : List String) (data : List R) (hd : data ≠ []) :
    ∃ t as, upsertMy m override omitted data = .ok (some (t, as)) ∧
      Spec.bind .anon t as = some (insertRowsB (verbOf override) m.table m.columns (data.map m.values) ++
        (if override then onDuplicateB "=VALUES(" ((without is m.columns).filter (· ∉ omitted)) else []) ++ bs ";") := by
  obtain ⟨t, ht, hb⟩ := plainRows m hf hg data (verbOf override)
  obtain ⟨h1, h2⟩ := keyOk_comp hko hk
  match data, hd with
  | r :: rs, _ =>
    refine ⟨tx (verbOf override) ++ tx m.table ++ tx " (" ++ join "," m.columns ++ tx ") VALUES " ++ t ++
      upsertTail override omitted (without is m.columns), _, ?_, upsertTail_binds hb override _ _⟩
    simp only [upsertMy, hk, ht, Res.ok_bind, removeAll_eq _ _ h1 h2]
    cases override <;> rfl

/-- No records, no statement. -/
theorem C28_empty (m : Mdl R V) (override : Bool) (omitted : List String) :
    upsertMy m override omitted [] = .ok none := by cases override <;> rfl

example : Full exComp ∧ KeyOk exComp ∧
    GroupOk Nat .anon exComp.columns.length (Gen.insertPlaceholders .anon 4) :=
  ⟨fun _ => rfl, ⟨by decide, rfl⟩, groupOk_gen .anon 4 (by decide)⟩
example : upsertMy { exComp with placeholders := Gen.insertPlaceholders .anon 4 } true ["b"] [[1, 2, 3, 4]] =
    .ok (some (tx "INSERT INTO t (a,k1,b,k2) VALUES (" ++ [.anon] ++ tx "," ++ [.anon] ++ tx "," ++ [.anon] ++ tx "," ++
      [.anon] ++ tx ") ON DUPLICATE KEY UPDATE a=VALUES(a);", [1, 2, 3, 4])) := by decide
example : upsertOneMy exModel true ["b"] [7, 8, 9] =
    .ok (tx "INSERT INTO t (id,a,b) VALUES (" ++ [.anon] ++ tx "," ++ [.anon] ++ tx "," ++ [.anon] ++
      tx ") ON DUPLICATE KEY UPDATE a =VALUES(a)", [7, 8, 9]) := by decide
example : upsertMy exModel true [] [[7, 8, 9]] =
    .ok (some (tx "INSERT INTO t (a,b) VALUES (" ++ [.anon] ++ tx "," ++ [.anon] ++ tx "," ++ [.anon] ++
      tx ") ON DUPLICATE KEY UPDATE a=VALUES(a),b=VALUES(b);", [8, 9])) := by decide

end Verif.Props

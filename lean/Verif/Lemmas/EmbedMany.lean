import Verif.Spec.EmbedMany
import Verif.Props.Embed
import Verif.Props.Bulk
import Verif.Props.Cond

/-! # Batches and queries with structs send the statements of those with rows -/

namespace Verif.Embed

open Verif Verif.Addrs Verif.Gen Verif.Props Verif.Spec Verif.Spec.Gen Verif.Spec.Store Verif.Spec.Embed

variable {X V : Type} {G : Values X} {E : Store.Env Path X V} {t : Table Path}

/-! ## Rows -/

theorem load_row (hs : Struct (genAddrs t)) (hG : Lawful G (genAddrs t)) (r : Obj X) (s : Path → V) :
    Loads G E (genAddrs t) s r (load G E t r ((genAddrs t).map s)) := by
  obtain ⟨r', h1, h2⟩ := addrs_ok hs hG r
  unfold load
  rw [h1]
  obtain ⟨g1, g2, -⟩ := scan_row E s (genAddrs t) hs.once r'
  simp only
  rcases hr : scan E (genAddrs t) ((genAddrs t).map s) r' with ⟨b, r''⟩
  rw [hr] at g1 g2
  rcases g1 with ⟨rfl, g1⟩ | ⟨rfl, c, hc, g1⟩
  · refine .inl ⟨rfl, fun c hc => ⟨?_, ?_⟩⟩
    · intro p hp hne
      show r''.mem _ = true
      rw [g2]
      exact (h2 c hc).1 p hp hne
    · rw [← (h2 c hc).2]; exact g1 c hc
  · exact .inr ⟨rfl, c, hc, by rw [← (h2 c hc).2]; exact g1⟩

theorem loadRows_all (hs : Struct (genAddrs t)) (hG : Lawful G (genAddrs t)) (ss : List (Path → V)) :
    ∀ rs : List (Obj X), ss.length ≤ rs.length →
      LoadsAll G E (genAddrs t) ss rs (loadRows G E t (ss.map fun s => (genAddrs t).map s) rs) := by
  induction ss with
  | nil => intro rs _; simp only [List.map_nil, loadRows]; exact .done
  | cons s ss ih =>
    intro rs hl
    cases rs with
    | nil => simp at hl
    | cons r rs =>
      have hr := load_row (E := E) hs hG r s
      simp only [List.map_cons, loadRows]
      rcases e : load G E t r ((genAddrs t).map s) with ⟨b, r'⟩
      rw [e] at hr
      rcases hr with ⟨hb, h⟩ | ⟨hb, h⟩ <;> dsimp only at hb <;> subst hb
      · exact .next (.inl ⟨rfl, h⟩) (ih rs (by simpa using hl))
      · exact .stop (.inr ⟨rfl, h⟩)

theorem newRows_lists (hs : Struct (genAddrs t)) (hG : Lawful G (genAddrs t)) (ss : List (Path → V)) :
    Lists G E (genAddrs t) ss (newRows G E t (ss.map fun s => (genAddrs t).map s)) := by
  induction ss with
  | nil => exact .inl ⟨[], rfl, .nil⟩
  | cons s ss ih =>
    have hr := load_row (E := E) hs hG (blank G) s
    simp only [List.map_cons, newRows]
    rcases e : load G E t (blank G) ((genAddrs t).map s) with ⟨b, r'⟩
    rw [e] at hr
    rcases hr with ⟨hb, h⟩ | ⟨hb, h⟩ <;> dsimp only at hb <;> subst hb
    · rcases ih with ⟨rs, e', h'⟩ | ⟨e', s', hs', h'⟩
      · simp only [e']
        exact .inl ⟨_, rfl, .cons (.inl ⟨rfl, h⟩) h'⟩
      · simp only [e']
        exact .inr ⟨rfl, s', by simp [hs'], h'⟩
    · exact .inr ⟨rfl, s, by simp, h⟩

/-! ## Statements with conditions -/

mutual
theorem clause_raw (c : Cond Path X) : Store.clause E c = Store.clause (raw E) (condOf E c) := by
  cases c with
  | and cs => simp only [Store.clause, condOf, clauses_raw cs]
  | or cs => simp only [Store.clause, condOf, clauses_raw cs]
  | cmp op c x => rfl
  | isIn neg c xs => simp only [Store.clause, condOf, raw, List.map_id']; rfl
  | null neg c => rfl
  | between neg c a b => rfl
theorem clauses_raw (cs : List (Cond Path X)) : Store.clauses E cs = Store.clauses (raw E) (condsOf E cs) := by
  cases cs with
  | nil => rfl
  | cons c cs => simp only [Store.clauses, condsOf, clause_raw c, clauses_raw cs]
end

theorem where_raw (w : Option (Cond Path X)) : w.map (Store.clause E) = (w.map (condOf E)).map (Store.clause (raw E)) := by
  cases w with
  | none => rfl
  | some c => simp only [Option.map_some, clause_raw c]

theorem select_raw (q : Store.Query Path X) : Store.selectOf E q = Store.selectOf (raw E) (queryOf E q) := by
  unfold Store.selectOf queryOf
  rw [where_raw]
  rfl

theorem update_raw (u : Store.Change Path X) : Store.updateOf E u = Store.updateOf (raw E) (changeOf E u) := by
  unfold Store.updateOf changeOf
  rw [where_raw]
  simp only [List.map_map]
  rfl

theorem delete_raw (u : Store.Removal Path X) : Store.deleteOf E u = Store.deleteOf (raw E) (removalOf E u) := by
  unfold Store.deleteOf removalOf
  rw [where_raw]
  rfl

variable [DecidableEq V]

theorem agrees_raw (K : Sql.Compare V) (Ok : Path → V → Prop) : Agrees K (raw E).null (raw E).enc Ok t (byCells K E.null) where
  isNil := fun _ _ _ _ => by simp [raw, byCells]
  eq := fun _ _ _ _ _ _ => rfl
  lt := fun _ _ _ _ _ _ => rfl
  like := fun _ _ _ _ _ _ => rfl
  before := fun _ _ _ _ _ _ => rfl

omit [DecidableEq V] in
/-- The rows of an answer, from what is read of them as they are. -/
theorem rows_raw (hs : Struct (genAddrs t)) (z : Path → V) (l : List (List V)) (ss : List (Path → V))
    (h : (l.mapM fun v => Store.scan (raw E) (genAddrs t) v z) = some ss) : l = ss.map fun s => (genAddrs t).map s := by
  induction l generalizing ss with
  | nil => simp only [List.mapM_nil, Option.pure_def, Option.some.injEq] at h; subst h; rfl
  | cons v l ih =>
    simp only [List.mapM_cons, Option.bind_eq_bind, Option.bind_eq_some_iff, Option.pure_def, Option.some.injEq] at h
    obtain ⟨s, h1, ss', h2, rfl⟩ := h
    obtain ⟨rfl, -⟩ := raw_scan _ hs.once v z s h1
    rw [ih ss' h2]
    rfl

omit [DecidableEq V] in
theorem loads_congr {s s' : Path → V} (e : ∀ c ∈ genAddrs t, s c = s' c) {r : Obj X} {a : End × Obj X}
    (h : Loads G E (genAddrs t) s r a) : Loads G E (genAddrs t) s' r a := by
  rcases h with ⟨g1, g2⟩ | ⟨g1, c, hc, g2⟩
  · exact .inl ⟨g1, fun c hc => ⟨(g2 c hc).1, by rw [← e c hc]; exact (g2 c hc).2⟩⟩
  · exact .inr ⟨g1, c, hc, by rw [← e c hc]; exact g2⟩

omit [DecidableEq V] in
theorem lists_load {z : Path → V} {ss : List (Path → V)} {a : Store.Ret (List (Obj X))}
    (h : Lists G E (genAddrs t) (ss.map fun s => Spec.Store.load t s z) a) : Lists G E (genAddrs t) ss a := by
  have el : ∀ s : Path → V, ∀ c ∈ genAddrs t, Spec.Store.load t s z c = s c := fun s c hc => if_pos hc
  rcases h with ⟨rs, e, h⟩ | ⟨e, s, hs, c, hc, h⟩
  · refine .inl ⟨rs, e, ?_⟩
    rw [List.forall₂_map_left_iff] at h
    exact h.imp fun s r h => loads_congr (el s) h
  · obtain ⟨s', hs', rfl⟩ := List.mem_map.1 hs
    exact .inr ⟨e, s', hs', c, hc, by rw [← el s' c hc]; exact h⟩

omit [DecidableEq V] in
theorem rowsOf_lists (hs : Struct (genAddrs t)) (hG : Lawful G (genAddrs t)) (z : Path → V) (a : Sql.Ans V) (ss : List (Path → V))
    (h : Store.rowsOf (raw E) t z a = .ok ss) : Lists G E (genAddrs t) ss (rowsOf G E t a) := by
  cases a with
  | rows l =>
    simp only [Store.rowsOf] at h
    cases e : l.mapM fun v => Store.scan (raw E) (genAddrs t) v z with
    | none => simp [e] at h
    | some rs =>
      simp only [e, Store.Ret.ok.injEq] at h
      subst h
      rw [rows_raw hs z l rs e]
      exact newRows_lists hs hG rs
  | done => simp only [Store.rowsOf, Store.Ret.ok.injEq] at h; subst h; exact .inl ⟨[], rfl, .nil⟩
  | duplicate => simp [Store.rowsOf] at h
  | refused => simp [Store.rowsOf] at h

omit [DecidableEq V] in
theorem rowOf_noRows (hs : Struct (genAddrs t)) (hG : Lawful G (genAddrs t)) (z : Path → V) (a : Sql.Ans V)
    (h : Store.rowOf (raw E) t z a = .noRows) : rowOf G E t a = .noRows := by
  obtain ⟨r', h1, -⟩ := addrs_ok hs hG (blank G)
  cases a with
  | rows l =>
    cases l with
    | nil => simp only [rowOf, queryRow, h1]
    | cons v l => simp only [Store.rowOf] at h; split at h <;> cases h
  | done => simp only [rowOf, queryRow, h1]
  | duplicate => simp [Store.rowOf] at h
  | refused => simp [Store.rowOf] at h

omit [DecidableEq V] in
theorem rowOf_loads (hs : Struct (genAddrs t)) (hG : Lawful G (genAddrs t)) (z : Path → V) (a : Sql.Ans V) (s : Path → V)
    (h : Store.rowOf (raw E) t z a = .ok s) : (∃ r, rowOf G E t a = .ok r ∧ Loads G E (genAddrs t) s (blank G) (.ok, r)) ∨
      rowOf G E t a = .failed ∧ ∃ c ∈ genAddrs t, E.dec c (s c) (start G (blank G) c) = none := by
  cases a with
  | rows l =>
    cases l with
    | nil => simp [Store.rowOf] at h
    | cons v l =>
      have hq := query_sim (E := E) hs hG (blank G) z (.rows (v :: l))
      simp only [Store.rowOf] at h
      split at h
      · rename_i s' e
        cases h
        simp only [Store.queryRow, e] at hq
        unfold rowOf
        rcases e' : queryRow G E t (blank G) (.rows (v :: l)) with ⟨b, r⟩
        rw [e'] at hq
        rcases hq with ⟨hb, h⟩ | ⟨hb, h⟩ <;> dsimp only at hb <;> subst hb
        · exact .inl ⟨r, rfl, .inl ⟨rfl, h⟩⟩
        · exact .inr ⟨rfl, h⟩
      · cases h
  | done => simp [Store.rowOf] at h
  | duplicate => simp [Store.rowOf] at h
  | refused => simp [Store.rowOf] at h

/-! ## Statements of batches -/

section
open Verif.Helpers

omit [DecidableEq V]

variable {R : Type} (M : Mdl R V)

theorem rowsLoop_congr {α : Type} {f g : α → R} (ph : Nat → Txt) (drop : Option Nat) (rs : List α)
    (h : ∀ r ∈ rs, M.values (f r) = M.values (g r)) (i : Nat) : rowsLoop M ph drop i (rs.map f) = rowsLoop M ph drop i (rs.map g) := by
  induction rs generalizing i with
  | nil => rfl
  | cons r rs ih => simp only [List.map_cons, rowsLoop, h r (by simp), ih (fun r hr => h r (by simp [hr]))]

theorem insertPg_congr {α : Type} {f g : α → R} (rs : List α) (h : ∀ r ∈ rs, M.values (f r) = M.values (g r)) :
    insertPg M (rs.map f) = insertPg M (rs.map g) := by
  cases rs with
  | nil => rfl
  | cons r rs =>
    have e := fun ph d => rowsLoop_congr M ph d (r :: rs) h 0
    simp only [List.map_cons] at e
    simp only [List.map_cons, insertPg, e]

theorem insertMy_congr {α : Type} {f g : α → R} (rs : List α) (h : ∀ r ∈ rs, M.values (f r) = M.values (g r)) :
    insertMy M (rs.map f) = insertMy M (rs.map g) := by
  cases rs with
  | nil => rfl
  | cons r rs =>
    have e := fun ph d => rowsLoop_congr M ph d (r :: rs) h 0
    simp only [List.map_cons] at e
    simp only [List.map_cons, insertMy, e]

theorem upsertPg_congr {α : Type} {f g : α → R} (o : UpOpts) (rs : List α) (h : ∀ r ∈ rs, M.values (f r) = M.values (g r)) :
    upsertPg M o (rs.map f) = upsertPg M o (rs.map g) := by
  cases rs with
  | nil => rfl
  | cons r rs =>
    have e := fun ph d => rowsLoop_congr M ph d (r :: rs) h 0
    simp only [List.map_cons] at e
    simp only [List.map_cons, upsertPg, e]

theorem upsertMy_congr {α : Type} {f g : α → R} (b : Bool) (o : List String) (rs : List α)
    (h : ∀ r ∈ rs, M.values (f r) = M.values (g r)) : upsertMy M b o (rs.map f) = upsertMy M b o (rs.map g) := by
  cases rs with
  | nil => rfl
  | cons r rs =>
    have e := fun ph d => rowsLoop_congr M ph d (r :: rs) h 0
    simp only [List.map_cons] at e
    simp only [List.map_cons, upsertMy, e]

theorem upsertOnePg_congr {a b : R} (o : UpOpts) (h : M.values a = M.values b) : upsertOnePg M o a = upsertOnePg M o b := by
  simp only [upsertOnePg, h]

theorem upsertOneMy_congr {a b : R} (c : Bool) (o : List String) (h : M.values a = M.values b) :
    upsertOneMy M c o a = upsertOneMy M c o b := by
  simp only [upsertOneMy, h]

end

theorem values_mem : ∀ c ∈ genValues t, c ∈ genAddrs t := by
  intro c hc
  obtain ⟨k, hk, rfl⟩ := List.mem_map.1 hc
  exact List.mem_map_of_mem (insert_mem hk)

omit [DecidableEq V] in
theorem values_eq (hs : Struct (genAddrs t)) (r : Obj X) : (Store.mdl E t).values (keyArg G E (genAddrs t) r) =
    (Store.mdl (raw E) t).values (cells G E r) := by
  have : ∀ c ∈ genValues t, keyArg G E (genAddrs t) r c = cells G E r c := by
    intro c hc
    unfold keyArg
    rw [arg_eq hs E r (values_mem c hc)]
  exact List.map_congr_left this

omit [DecidableEq V] in
theorem all_readable (hs : Struct (genAddrs t)) (rs : List (Obj X)) : rs.all (readable G E t) = true := by
  rw [List.all_eq_true]
  intro r _
  unfold readable
  rw [args_eq hs E r _ values_mem]

end Verif.Embed

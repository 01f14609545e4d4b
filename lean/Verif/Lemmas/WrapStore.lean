import Verif.Spec.Wrapped
import Verif.Lemmas.Wrap
import Verif.Lemmas.Keyed

/-!
# Lemmas about statements with functions at work on a database
-/

namespace Verif.Wrap

open Verif Verif.Gen Verif.Spec Verif.Spec.Gen Verif.Spec.Sql Verif.Spec.Store Verif.Sql Verif.Spec.Wrap Verif.Store

variable {F X V : Type}

/-! ## Values of expressions -/

mutual
theorem eval_subst (B : Funs V) (ρ ρ' : Name → Option V) (x : Ex V) (v : V) (hx : eval B ρ x = some v) :
    ∀ e : Ex Unit, e.closed = true → eval B ρ (Ex.subst x e) = eval B ρ' (Ex.subst (.val v) e)
  | .name _, h => by simp [Ex.closed] at h
  | .val _, _ => by simp [Ex.subst, hx, eval]
  | .num _, _ => by simp [Ex.subst, eval]
  | .call f as, h => by
    simp only [Ex.closed] at h
    simp [Ex.subst, eval, evals_substs B ρ ρ' x v hx as h]
theorem evals_substs (B : Funs V) (ρ ρ' : Name → Option V) (x : Ex V) (v : V) (hx : eval B ρ x = some v) :
    ∀ es : List (Ex Unit), Ex.closeds es = true → evals B ρ (Ex.substs x es) = evals B ρ' (Ex.substs (.val v) es)
  | [], _ => by simp [Ex.substs, evals]
  | a :: as, h => by
    simp only [Ex.closeds, Bool.and_eq_true] at h
    simp [Ex.substs, evals, eval_subst B ρ ρ' x v hx a h.1, evals_substs B ρ ρ' x v hx as h.2]
end

theorem eval_apply {B : Funs V} {ρ : Name → Option V} {x : Ex V} {v : V} (hx : eval B ρ x = some v) {e : Ex Unit} (he : e.closed = true) :
    eval B ρ (Ex.subst x e) = apply B e v := eval_subst B ρ _ x v hx e he

theorem means_closed {D : Dialect} {t : Option Tmpl} {e : Ex Unit} (h : Means D t e) : e.closed = true := by
  cases t with
  | none => rw [show e = .val () from h]; rfl
  | some t => exact (show Says D t e from h).closed

theorem evals_mapM (B : Funs V) (ρ : Name → Option V) (l : List (Ex V)) : evals B ρ l = l.mapM (eval B ρ) := by
  induction l with
  | nil => rfl
  | cons a l ih =>
    simp only [evals, List.mapM_cons, ih]
    cases eval B ρ a with
    | none => rfl
    | some v => cases l.mapM (eval B ρ) <;> rfl

theorem evals_map {α : Type} (B : Funs V) (ρ : Name → Option V) (x : α → Ex V) (v : α → V) (l : List α)
    (h : ∀ a ∈ l, eval B ρ (x a) = some (v a)) : evals B ρ (l.map x) = some (l.map v) := by
  induction l with
  | nil => rfl
  | cons a l ih =>
    simp [evals, h a (by simp), ih fun b hb => h b (by simp [hb])]

theorem evals_inv {α : Type} (B : Funs V) (ρ : Name → Option V) (x : α → Ex V) (d : V) (l : List α) (vs : List V)
    (h : evals B ρ (l.map x) = some vs) :
    vs = l.map (fun a => (eval B ρ (x a)).getD d) ∧ ∀ a ∈ l, ∃ v, eval B ρ (x a) = some v := by
  induction l generalizing vs with
  | nil => simp [evals] at h; simp [h]
  | cons a l ih =>
    simp only [List.map_cons, evals, Option.bind_eq_some_iff, Option.map_eq_some_iff] at h
    obtain ⟨v, hv, k, hk, rfl⟩ := h
    obtain ⟨h1, h2⟩ := ih k hk
    refine ⟨by simp [hv, ← h1], ?_⟩
    intro b hb
    rcases List.mem_cons.1 hb with rfl | hb
    · exact ⟨v, hv⟩
    · exact h2 b hb

theorem pairs_map {α : Type} (B : Funs V) (nm : α → Name) (x : α → Ex V) (v : α → V) (l : List α)
    (h : ∀ a ∈ l, eval B (fun _ => none) (x a) = some (v a)) :
    pairs B (l.map fun a => (nm a, x a)) = some (l.map fun a => (nm a, v a)) := by
  unfold pairs
  have := evals_map B (fun _ => none) x v l h
  simp only [List.map_map, Function.comp_def] at this ⊢
  rw [this]
  simp [List.zip_map']

/-- An INSERT changes nothing or adds its row. -/
theorem execute_insert [DecidableEq V] (B : Funs V) (null : V) (gen : Tbl V → V) {σ : Sql.Store V} {n : Name} {T : Tbl V} (hσ : σ n = some T)
    (cs : List Name) {es : List (Ex V)} {vs : List V} (hev : evals B (fun _ => none) es = some vs) (ret : List (Ex V)) :
    (execute B null gen (.insert n cs es ret) σ).2 = σ ∨ (execute B null gen (.insert n cs es ret) σ).2 =
      σ.put n { T with rows := T.rows ++ [assign (cs.zip vs) (blank null gen T)] } := by
  simp only [execute, hσ, hev, exec]
  by_cases hC : known T cs = false ∨ cs.length ≠ vs.length ∨ (([] : List Name).all fun n => T.cols.contains n) = false ∨
      (T.key.any fun k => decide (assign (cs.zip vs) (blank null gen T) k = null)) = true
  · simp only [if_pos hC]
    exact .inl trivial
  · simp only [if_neg hC]
    by_cases hD : (T.rows.any fun r => T.key.all fun k => decide (r k = assign (cs.zip vs) (blank null gen T) k)) = true
    · simp only [if_pos hD]
      exact .inl trivial
    · simp only [if_neg hD, if_true]
      cases ret with
      | nil => exact .inr rfl
      | cons x ret =>
        simp only
        cases evals B (at_ T (assign (cs.zip vs) (blank null gen T))) (x :: ret) with
        | none => exact .inl rfl
        | some l => exact .inr rfl

/-! ## Models without templates -/

section Strip
variable (t : Table F)

theorem strip_columns : (strip t).columns = t.columns.map bareCol := rfl

theorem strip_pick (is : List Nat) : pick (strip t) is = (pick t is).map bareCol := by
  unfold pick
  induction is with
  | nil => rfl
  | cons i is ih =>
    simp only [List.filterMap_cons, strip_columns, List.getElem?_map]
    rw [strip_columns] at ih
    simp only [List.getElem?_map] at ih
    cases t.columns[i]? with
    | none => simpa using ih
    | some c => simpa using ih

theorem strip_keyPos : keyPos (strip t) = keyPos t := rfl

theorem strip_isReadonly (i : Nat) : isReadonly (strip t) i = isReadonly t i := by
  unfold isReadonly
  simp only [strip_columns, List.getElem?_map]
  cases t.columns[i]? <;> rfl

theorem strip_insertPos : insertPos (strip t) = insertPos t := by
  unfold insertPos
  simp only [strip_isReadonly, strip_columns, List.length_map]
  rfl

theorem strip_updatePos : updatePos (strip t) = updatePos t := by
  unfold updatePos
  simp only [strip_isReadonly, strip_columns, List.length_map]
  rfl

theorem strip_autoCol : (strip t).autoCol = t.autoCol.map bareCol := by
  unfold Table.autoCol
  cases h : t.auto with
  | none => simp [strip, h]
  | some i => simp [strip, h]

theorem strip_tableName (D : Dialect) : tableName D (strip t) = tableName D t := rfl

theorem bareCol_name (D : Dialect) (c : GCol F) : colName D (bareCol c) = colName D c := rfl

theorem strip_tableOf (D : Dialect) (rows : List (Row V)) : tableOf D (strip t) rows = tableOf D t rows := by
  unfold tableOf
  rw [strip_columns, strip_keyPos, strip_pick, strip_autoCol]
  simp [Function.comp_def, bareCol_name]

theorem strip_keyOf (r : F → X) : keyOf (strip t) r = keyOf t r := by
  unfold keyOf
  rw [strip_keyPos, strip_pick]
  simp [Function.comp_def, bareCol]

theorem strip_good (Ok : F → X → Prop) (r : F → X) : Good Ok (strip t) r ↔ Good Ok t r := by
  unfold Good
  rw [strip_columns]
  simp [bareCol]

theorem strip_fine (Ok : F → X → Prop) (o : Store.Op F X) : Fine Ok (strip t) o ↔ Fine Ok t o := by
  unfold Fine
  rw [strip_good, strip_updatePos, strip_pick]
  simp

theorem strip_load [DecidableEq F] (s r : F → X) : load (strip t) s r = load t s r := by
  unfold load
  rw [strip_columns]
  simp [Function.comp_def, bareCol]

theorem strip_act [DecidableEq F] [DecidableEq X] (o : Store.Op F X) (m : Map F X) : act (strip t) o m = act t o m := by
  cases o <;> simp [act, strip_keyOf, strip_load]

theorem strip_acts [DecidableEq F] [DecidableEq X] (os : List (Store.Op F X)) (m : Map F X) : acts (strip t) os m = acts t os m := by
  induction os generalizing m with
  | nil => rfl
  | cons o os ih => simp [acts, strip_act, ih]

theorem strip_rep (enc : F → X → V) (D : Dialect) (s : F → X) (row : Row V) : Rep enc D (strip t) s row ↔ Rep enc D t s row := by
  unfold Rep
  rw [strip_columns]
  simp only [List.forall_mem_map, bareCol_name]
  rfl

theorem strip_apart (D : Dialect) : (Apart D (strip t) : Row V → Row V → Prop) = Apart D t := by
  funext a b
  unfold Apart
  rw [strip_keyPos, strip_pick]
  simp [bareCol_name]

theorem strip_holds (enc : F → X → V) (D : Dialect) (Ok : F → X → Prop) (m : Map F X) (rows : List (Row V)) :
    Holds enc D Ok (strip t) m rows ↔ Holds enc D Ok t m rows := by
  constructor
  · rintro ⟨h1, h2, h3⟩
    simp only [strip_keyOf, strip_good, strip_rep, strip_apart] at h1 h2 h3
    exact ⟨h1, h2, h3⟩
  · rintro ⟨h1, h2, h3⟩
    constructor <;> simp only [strip_keyOf, strip_good, strip_rep, strip_apart] <;> assumption

theorem strip_keeps (E : Env F X V) (Ok : F → X → Prop) (m : Map F X) (σ : Sql.Store V) :
    Keeps E Ok (strip t) m σ ↔ Keeps E Ok t m σ := by
  unfold Keeps
  simp only [strip_tableName, strip_tableOf, strip_holds]

end Strip

/-! ## Sending statements -/

section Send
variable [DecidableEq V] {E : Env F X V} {B : Funs V} {val scan : F → Ex Unit} {t : Table F}
  (h : Texts E val scan t)
include h

omit [DecidableEq V] in
theorem templates : TemplatesOk E.g.style t := fun c hc => ⟨(h.vals c hc).2, fun u hu => by
  have := h.scans c hc
  rw [hu] at this
  exact (show Says _ _ _ from this).fine⟩

/-- The expression for a value. -/
def valEx (E : Env F X V) (val : F → Ex Unit) (r : F → X) (c : GCol F) : Ex V := Ex.subst (.val (E.enc c.field (r c.field))) (val c.field)

/-- The expression for reading a column. -/
def scanEx (D : Dialect) (scan : F → Ex Unit) (c : GCol F) : Ex V := Ex.subst (.name (colName D c)) (scan c.field)

omit [DecidableEq V] in
theorem valB_reads (r : F → X) (c : GCol F) (hc : c ∈ t.columns) : ItemTxt E.D (valB (written E r) c) (valEx E val r c) :=
  itemTxt_val (h.vals c hc).1 _

omit [DecidableEq V] in
theorem readB_reads (c : GCol F) (hc : c ∈ t.columns) : ItemTxt E.D (readB E.g c : List (BSym V)) (scanEx E.D scan c) :=
  itemTxt_name (h.scans c hc) (nameTxt_of_quoted (h.named.cols c hc))

omit [DecidableEq V] in
theorem keys_ne : pick t (keyPos t) ≠ [] := by
  intro e
  cases ha : t.auto with
  | some i =>
    have := h.wf.auto i ha
    simp [pick, keyPos, ha, List.getElem?_eq_getElem this] at e
  | none =>
    have hk := h.key
    simp only [Table.hasPK, ha] at hk
    cases hkk : t.keys with
    | nil => simp [hkk] at hk
    | cons k l =>
      have := h.wf.keys k (by simp [hkk])
      simp [pick, keyPos, ha, hkk, List.getElem?_eq_getElem this] at e

omit [DecidableEq V] h in
theorem equalB_condT (g : Cfg) (b : GCol F → List (BSym V)) (l : List (GCol F)) :
    equalB g b l = condT (fun c => g.quoteId c.name) b l := by
  match l with
  | [] => rfl
  | [c] => rfl
  | _ :: _ :: _ => rfl

omit [DecidableEq V] in
theorem pick_nodup {is : List Nat} (hi : is.Nodup) : ((pick t is).map (colName E.D)).Nodup := by
  unfold pick
  rw [List.Nodup, List.pairwise_map, List.pairwise_filterMap]
  refine List.Pairwise.imp ?_ hi
  intro i j hij a ha b hb e
  obtain ⟨hi', rfl⟩ := List.getElem?_eq_some_iff.1 ha
  obtain ⟨hj', rfl⟩ := List.getElem?_eq_some_iff.1 hb
  apply hij
  have := (List.Nodup.getElem_inj_iff h.names (i := i) (j := j) (hi := by simpa using hi') (hj := by simpa using hj')).1
  exact this (by simpa using e)

omit [DecidableEq V] in
theorem insert_says (hi : pick t (insertPos t) ≠ []) (r : F → X) :
    ∃ text fs, E.g.genInsertOne t = .ok (text, fs) ∧
      (Spec.bind E.g.style text (fs.map fun f => E.enc f (r f))).bind (Spec.Wrap.read E.D) =
        some (.insert (tableName E.D t) ((pick t (insertPos t)).map (colName E.D))
          ((pick t (insertPos t)).map (valEx E val r)) (if E.g.postgres then t.columns.map (scanEx E.D scan) else [])) := by
  obtain ⟨text, fs, e, hb⟩ := Props.C20_insert_one E.g t (templates h)
  refine ⟨text, fs, e, ?_⟩
  have hb := hb V (written E r)
  have hc := cols_of h.named hi (fun c => mem_of_pick)
  have hne : t.columns ≠ [] := by
    intro e; apply hi; simp [pick, e]
  have hv : ∀ c ∈ pick t (insertPos t), ItemTxt E.D (valB (written E r) c) (valEx E val r c) :=
    fun c hc => valB_reads h r c (mem_of_pick hc)
  have e1 : (pick t (insertPos t)).map (identB (V := V) E.g) = (pick t (insertPos t)).map fun c => bs (E.g.quoteId c.name) := rfl
  change (Spec.bind E.g.style text (fs.map (written E r))).bind (Spec.Wrap.read E.D) = _
  rw [hb, Option.bind_some]
  unfold insertB
  simp only [tableB_eq]
  cases hp : E.g.postgres with
  | false =>
    have := Wrap.read_insert h.named.quote (tableTxt_reads h.named) hc hv
    simpa only [e1, Bool.false_eq_true, if_false, if_true, List.append_nil] using this
  | true =>
    have := Wrap.read_insert_returning h.named.quote (tableTxt_reads h.named) hc hv hne (readB_reads h)
    simpa only [e1, Bool.false_eq_true, if_false, if_true, List.append_nil] using this

theorem send_insert (hi : pick t (insertPos t) ≠ []) (r : F → X) (σ : Sql.Store V) :
    ∃ text fs, E.g.genInsertOne t = .ok (text, fs) ∧ sendEx E B (text, args E r fs) σ =
      execute B E.null E.gen (.insert (tableName E.D t) ((pick t (insertPos t)).map (colName E.D))
        ((pick t (insertPos t)).map (valEx E val r)) (if E.g.postgres then t.columns.map (scanEx E.D scan) else [])) σ := by
  obtain ⟨text, fs, e, hb⟩ := insert_says h hi r
  refine ⟨text, fs, e, ?_⟩
  unfold sendEx args
  rw [hb]

/-- What is read of a row. -/
def outs (B : Funs V) (D : Dialect) (scan : F → Ex Unit) (t : Table F) (row : Row V) : Option (List V) :=
  t.columns.mapM fun c => apply B (scan c.field) (row (colName D c))

omit [DecidableEq V] in
theorem eval_scans (rows : List (Row V)) (row : Row V) :
    evals B (at_ (tableOf E.D t rows) row) (t.columns.map (scanEx E.D scan)) = outs B E.D scan t row := by
  have : ∀ l : List (GCol F), (∀ c ∈ l, c ∈ t.columns) → evals B (at_ (tableOf E.D t rows) row) (l.map (scanEx E.D scan)) =
      l.mapM fun c => apply B (scan c.field) (row (colName E.D c)) := by
    intro l
    induction l with
    | nil => intro _; rfl
    | cons c l ih =>
      intro hl
      have hc := hl c (by simp)
      have e : eval B (at_ (tableOf E.D t rows) row) (scanEx E.D scan c) = apply B (scan c.field) (row (colName E.D c)) := by
        unfold scanEx
        apply eval_apply _ (means_closed (h.scans c hc))
        have : (tableOf E.D t rows).cols.contains (colName E.D c) = true := by
          simp only [tableOf, List.contains_iff_mem]
          exact List.mem_map_of_mem hc
        simp only [eval, at_, this, if_true]
      simp only [List.map_cons, evals, e, ih fun c hc => hl c (by simp [hc]), List.mapM_cons]
      cases apply B (scan c.field) (row (colName E.D c)) with
      | none => rfl
      | some v => cases l.mapM fun c => apply B (scan c.field) (row (colName E.D c)) <;> rfl
  exact this _ fun c hc => hc

end Send

section Keyed
variable [DecidableEq V] {E : Env F X V} {B : Funs V} {val scan : F → Ex Unit} {t : Table F} {Ok : F → X → Prop}
  (h : Wrapped E B val scan t Ok)
include h

theorem send_find (r : F → X) (σ : Sql.Store V) :
    ∃ text fs, E.g.genFindByPK t = .ok (text, fs) ∧ sendEx E B (text, args E r fs) σ =
      execute B E.null E.gen (.select (t.columns.map (scanEx E.D scan)) (tableName E.D t)
        ((pick t (keyPos t)).map fun c => (colName E.D c, valEx E val r c))) σ := by
  obtain ⟨text, fs, e, hb⟩ := Props.C21_find_by_key_partial E.g t h.wf (templates h.toTexts) h.key (.inr h.keys)
  refine ⟨text, fs, e, ?_⟩
  have hb := hb V (written E r)
  have hk := keys_ne h.toTexts
  have hc := cols_of h.named hk (fun c => mem_of_pick)
  have hne : t.columns ≠ [] := by
    intro e; apply hk; simp [pick, e]
  have hread : Spec.Wrap.read E.D (findB E.g t (valB (written E r))) = some (.select (t.columns.map (scanEx E.D scan)) (tableName E.D t)
        ((pick t (keyPos t)).map fun c => (colName E.D c, valEx E val r c))) := by
    unfold findB
    simp only [tableB_eq, equalB_condT]
    exact Wrap.read_select h.named.quote (tableTxt_reads h.named) hne (readB_reads h.toTexts) hc
      (fun c hc => valB_reads h.toTexts r c (mem_of_pick hc))
  unfold sendEx
  change (match (Spec.bind E.g.style text (fs.map (written E r))).bind (Spec.Wrap.read E.D) with
    | some s => execute B E.null E.gen s σ
    | none => (Ans.refused, σ)) = _
  rw [hb, Option.bind_some, hread]

theorem send_update (hl : 2 ≤ (pick t (keyPos t)).length ∨ E.g.style = .anon ∨ t.columns.length = (updatePos t).length + 1)
    (hu : pick t (updatePos t) ≠ []) (r : F → X) (σ : Sql.Store V) :
    ∃ text fs, E.g.genUpdateByPK t = .ok (text, fs) ∧ sendEx E B (text, args E r fs) σ =
      execute B E.null E.gen (.update (tableName E.D t) ((pick t (updatePos t)).map fun c => (colName E.D c, valEx E val r c))
        ((pick t (keyPos t)).map fun c => (colName E.D c, valEx E val r c))) σ := by
  obtain ⟨text, fs, e, hb⟩ := Props.C22_update_by_key_partial E.g t h.wf (templates h.toTexts) h.key (hl.imp_right fun hl => ⟨h.keys, hl⟩)
  refine ⟨text, fs, e, ?_⟩
  have hb := hb V (written E r)
  have hc := cols_of h.named (keys_ne h.toTexts) (fun c => mem_of_pick)
  have hcu := cols_of h.named hu (fun c => mem_of_pick)
  have hread : Spec.Wrap.read E.D (updateB E.g t (written E r) (valB (written E r))) = some (.update (tableName E.D t)
        ((pick t (updatePos t)).map fun c => (colName E.D c, valEx E val r c))
        ((pick t (keyPos t)).map fun c => (colName E.D c, valEx E val r c))) := by
    unfold updateB
    simp only [tableB_eq, equalB_condT]
    exact Wrap.read_update h.named.quote (tableTxt_reads h.named) hcu (fun c hc => valB_reads h.toTexts r c (mem_of_pick hc)) hc
      (fun c hc => valB_reads h.toTexts r c (mem_of_pick hc))
  unfold sendEx
  change (match (Spec.bind E.g.style text (fs.map (written E r))).bind (Spec.Wrap.read E.D) with
    | some s => execute B E.null E.gen s σ
    | none => (Ans.refused, σ)) = _
  rw [hb, Option.bind_some, hread]

omit h in
/-- The DELETE has no functions, whatever the templates. -/
theorem send_delete (hwf : WF t) (hn : Named E.g E.D t) (hbn : BareNames E.g E.D t) (hk : pick t (keyPos t) ≠ []) (r : F → X) (σ : Sql.Store V) :
    ∃ q, Helpers.deleteByPK E.g.style (Helpers.ofTable E.g t : Helpers.Mdl (F → V) V) (written E r) = .ok q ∧
      sendEx E B q σ = execute B E.null E.gen (.delete (tableName E.D t)
        ((pick t (keyPos t)).map fun c => (colName E.D c, .val (E.enc c.field (r c.field))))) σ := by
  obtain ⟨hh, hkb⟩ := keyB_eq (g := E.g) hwf hk (written E r)
  obtain ⟨text, as, e, hb⟩ := Props.C30_delete_by_key E.g.style (Helpers.ofTable E.g t : Helpers.Mdl (F → V) V) hh (written E r)
  refine ⟨(text, as), e, ?_⟩
  have e2 : condB (keyTxt E.g t) (fun c => written E r c.field) (pick t (keyPos t)) =
      condT (keyTxt E.g t) (fun c => [.val (written E r c.field)]) (pick t (keyPos t)) := by
    match pick t (keyPos t) with
    | [] => rfl
    | [c] => rfl
    | _ :: _ :: _ => rfl
  have hread := Wrap.read_delete (V := V) (b := fun c : GCol F => [.val (written E r c.field)])
    (x := fun c => .val (written E r c.field)) hn.quote (genTableName_reads hn hbn) ⟨keyTxt_reads hn hbn, hk⟩
    (fun c _ => itemTxt_atom (idle_val _ _).lexes (atom_val _ _))
  unfold sendEx
  change (match (Spec.bind E.g.style text as).bind (Spec.Wrap.read E.D) with
    | some s => execute B E.null E.gen s σ
    | none => (Ans.refused, σ)) = _
  rw [hb, Option.bind_some, hkb, e2]
  change (match Spec.Wrap.read E.D (bs "DELETE FROM " ++ bs (E.g.genTableName t) ++ bs " WHERE " ++ _ ++ bs ";") with
    | some s => execute B E.null E.gen s σ
    | none => (Ans.refused, σ)) = _
  rw [hread]
  rfl

omit [DecidableEq V] in
theorem enc_apply {c : GCol F} (hc : c ∈ t.columns) {x : X} (hx : Ok c.field x) :
    apply B (val c.field) (E.enc c.field x) = some ((through E B val scan).enc c.field x) := by
  obtain ⟨v, w, h1, -⟩ := h.back c hc x hx
  simp [through, h1]

omit [DecidableEq V] in
theorem key_enc {c : GCol F} (hc : c ∈ pick t (keyPos t)) (x : X) : (through E B val scan).enc c.field x = E.enc c.field x := by
  have := (h.vals c (mem_of_pick hc)).1
  rw [h.keys c hc] at this
  have e : val c.field = .val () := this
  simp [through, e, apply, Ex.subst, eval]

omit [DecidableEq V] in
theorem eval_val {r : F → X} (hr : Good Ok t r) {c : GCol F} (hc : c ∈ t.columns) (ρ : Name → Option V) :
    eval B ρ (valEx E val r c) = some ((through E B val scan).enc c.field (r c.field)) := by
  unfold valEx
  rw [eval_apply (by rfl) (means_closed (h.vals c hc).1), enc_apply h hc (hr c hc)]

omit [DecidableEq V] in
theorem setup : Setup (through E B val scan) (strip t) Ok where
  wf := by
    have w := h.wf
    refine ⟨?_, ?_, ?_, w.sorted, ?_⟩
    · have := w.names
      rw [strip_columns, List.map_map]
      exact this
    · intro i c hc
      rw [strip_columns, List.getElem?_map] at hc
      obtain ⟨d, hd, rfl⟩ := Option.map_eq_some_iff.1 hc
      exact w.pos i d hd
    · intro k hk
      rw [strip_columns, List.length_map]
      exact w.keys k hk
    · intro i hi
      rw [strip_columns, List.length_map]
      exact w.auto i hi
  key := h.key
  named := by
    refine ⟨h.named.quote, h.named.table, ?_⟩
    rw [strip_columns, List.forall_mem_map]
    exact h.named.cols
  bare := by
    refine ⟨h.bare.table, ?_⟩
    rw [strip_keyPos, strip_pick, List.forall_mem_map, List.length_map]
    exact h.bare.keys
  plain := by
    unfold NoTemplates
    rw [strip_columns, List.forall_mem_map]
    exact fun _ _ => ⟨rfl, rfl⟩
  names := by
    rw [strip_columns, List.map_map]
    exact h.names
  single := h.single
  back := by
    rw [strip_columns, List.forall_mem_map]
    intro c hc x old hx
    obtain ⟨v, w, h1, h2, h3⟩ := h.back c hc x hx
    simp only [through, bareCol, h1, Option.getD_some, h2, Option.bind_some]
    exact h3 old
  keyed := by
    rw [strip_keyPos, strip_pick, List.forall_mem_map]
    intro c hc x hx
    change (through E B val scan).enc c.field x ≠ E.null
    rw [key_enc h hc]
    exact h.keyed c hc x hx

omit [DecidableEq V] in
theorem outs_some {s : F → X} (hs : Good Ok t s) {row : Row V} (hrep : Rep (through E B val scan).enc E.D t s row) :
    ∃ l, outs B E.D scan t row = some l := by
  have : ∀ l : List (GCol F), (∀ c ∈ l, c ∈ t.columns) → ∃ k, (l.mapM fun c => apply B (scan c.field) (row (colName E.D c))) = some k := by
    intro l
    induction l with
    | nil => intro _; exact ⟨[], rfl⟩
    | cons c l ih =>
      intro hl
      have hc := hl c (by simp)
      obtain ⟨k, hk⟩ := ih fun c hc => hl c (by simp [hc])
      obtain ⟨v, w, h1, h2, -⟩ := h.back c hc _ (hs c hc)
      have e : row (colName E.D c) = v := by
        rw [hrep c hc]
        simp [through, h1]
      exact ⟨w :: k, by simp [List.mapM_cons, e, h2, hk]⟩
  exact this _ fun c hc => hc

omit [DecidableEq V] h in
theorem scan_outs [DecidableEq F] (l : List (GCol F)) (row : Row V) (k : List V) (r : F → X)
    (hk : (l.mapM fun c => apply B (scan c.field) (row (colName E.D c))) = some k) :
    Store.scan E (l.map (·.field)) k r = Store.scan (through E B val scan) (l.map (·.field)) (l.map fun c => row (colName E.D c)) r := by
  induction l generalizing k r with
  | nil => simp at hk; subst hk; rfl
  | cons c l ih =>
    simp only [List.mapM_cons, Option.bind_eq_bind, Option.bind_eq_some_iff, Option.pure_def, Option.some.injEq] at hk
    obtain ⟨w, hw, k, hk, rfl⟩ := hk
    simp only [List.map_cons, Store.scan, through, hw, Option.bind_some]
    cases E.dec c.field w (r c.field) with
    | none => rfl
    | some x =>
      simp only [Option.bind_some]
      rw [ih k _ hk]
      rfl

omit [DecidableEq V] h in
theorem genAddrs_strip (t : Table F) : genAddrs (strip t) = genAddrs t := by
  unfold genAddrs
  rw [strip_columns, List.map_map]
  rfl

end Keyed

/-! ## The four operations -/

section Same
variable [DecidableEq F] [DecidableEq X] [DecidableEq V] {E : Env F X V} {B : Funs V} {val scan : F → Ex Unit} {t : Table F} {Ok : F → X → Prop}
  (h : Wrapped E B val scan t Ok)
include h

theorem insert_same (hi : pick t (insertPos t) ≠ []) {rows : List (Row V)} {σ : Sql.Store V} (hσ : σ (tableName E.D t) = some (tableOf E.D t rows))
    {r s : F → X} (hr : Good Ok t r) (hs : Good Ok t s)
    (hrep : Rep (through E B val scan).enc E.D t s (newRow (through E B val scan) (strip t) rows r)) :
    Wrap.insertOne E B t r σ = Store.insertOne (through E B val scan) (strip t) r σ := by
  have h' := setup h
  obtain ⟨text, fs, e, hs1⟩ := send_insert (B := B) h.toTexts hi r σ
  have hi' : pick (strip t) (insertPos (strip t)) ≠ [] := by
    rw [strip_insertPos, strip_pick]
    simpa using hi
  obtain ⟨text', fs', e', hs2⟩ := Store.send_insert h' hi' r σ
  rw [strip_insertPos, strip_pick, strip_columns, strip_tableName, List.map_map, List.map_map, List.map_map] at hs2
  change _ = exec E.null E.gen (.insert (tableName E.D t) ((pick t (insertPos t)).map (colName E.D))
    ((pick t (insertPos t)).map fun c => (through E B val scan).enc c.field (r c.field))
    (if E.g.postgres then t.columns.map (colName E.D) else [])) σ at hs2
  have hev : evals B (fun _ => none) ((pick t (insertPos t)).map (valEx E val r)) =
      some ((pick t (insertPos t)).map fun c => (through E B val scan).enc c.field (r c.field)) :=
    evals_map B _ _ _ _ fun c hc => eval_val h hr (mem_of_pick hc) _
  have hrow : assign (((pick t (insertPos t)).map (colName E.D)).zip
      ((pick t (insertPos t)).map fun c => (through E B val scan).enc c.field (r c.field))) (blank E.null E.gen (tableOf E.D t rows)) =
      newRow (through E B val scan) (strip t) rows r := by
    unfold newRow
    rw [strip_insertPos, strip_pick, List.map_map, strip_tableOf]
    simp [List.zip_map']
    rfl
  have hne : t.columns ≠ [] := by
    intro e; apply hi; simp [pick, e]
  obtain ⟨k, hk⟩ := outs_some h hs hrep
  have hsc := eval_scans (B := B) h.toTexts rows (newRow (through E B val scan) (strip t) rows r)
  rw [hk] at hsc
  have hret : ((if E.g.postgres = true then t.columns.map (colName E.D) else []).all
      fun n => (tableOf E.D t rows).cols.contains n) = true := by
    cases E.g.postgres with
    | true => exact all_known (E := E) rows
    | false => rfl
  have hsame := scan_outs (E := E) (B := B) (val := val) (scan := scan) t.columns
    (newRow (through E B val scan) (strip t) rows r) k r hk
  simp only [Store.send] at hs2
  simp only [Wrap.insertOne, e, hs1, Store.insertOne, insertVia]
  have e'' : E.g.genInsertOne (strip t) = .ok (text', fs') := e'
  change _ = (match E.g.genInsertOne (strip t) with
    | .ok (text, fs) =>
      let a := sendTo (through E B val scan) (exec E.null E.gen) (text, args (through E B val scan) r fs) σ
      (if E.g.postgres then queryRow (through E B val scan) (strip t) r a.1 else
        match (strip t).autoCol with
        | some c => execAuto (through E B val scan) c r a.1
        | none => execOnly r a.1, a.2)
    | _ => (.failed, σ))
  rw [e'']
  simp only
  have hs2' : sendTo (through E B val scan) (exec E.null E.gen) (text', args (through E B val scan) r fs') σ = _ := hs2
  rw [hs2']
  simp only [execute, hσ, hev, exec, hrow, hret]
  by_cases hC : known (tableOf E.D t rows) ((pick t (insertPos t)).map (colName E.D)) = false ∨
      ((pick t (insertPos t)).map (colName E.D)).length ≠
        ((pick t (insertPos t)).map fun c => (through E B val scan).enc c.field (r c.field)).length ∨
      ((tableOf E.D t rows).key.any fun k => decide (newRow (through E B val scan) (strip t) rows r k = E.null)) = true
  · simp only [List.all_nil, Bool.true_eq_false, false_or, if_pos hC, strip_autoCol]
    cases E.g.postgres with
    | true => rfl
    | false => cases t.autoCol <;> rfl
  · simp only [List.all_nil, Bool.true_eq_false, false_or, if_neg hC, strip_autoCol]
    by_cases hD : ((tableOf E.D t rows).rows.any fun r' => (tableOf E.D t rows).key.all fun k =>
        decide (r' k = newRow (through E B val scan) (strip t) rows r k)) = true
    · simp only [if_pos hD]
      cases E.g.postgres with
      | true => rfl
      | false => cases t.autoCol <;> rfl
    · simp only [if_neg hD, if_true]
      cases hp : E.g.postgres with
      | true =>
        obtain ⟨c0, l0, hc0⟩ := List.exists_cons_of_ne_nil hne
        have hne' : t.columns.map (colName E.D) ≠ [] := by simpa using hne
        have hne'' : t.columns.map (scanEx (V := V) E.D scan) ≠ [] := by simpa using hne
        simp only [if_true, if_neg hne']
        generalize hg : t.columns.map (scanEx (V := V) E.D scan) = g at *
        cases g with
        | nil => exact absurd rfl hne''
        | cons x g =>
          simp only [hsc, queryRow, genAddrs_strip]
          have hga : genAddrs t = t.columns.map (·.field) := rfl
          rw [hga, hsame, List.map_map]
          rfl
      | false =>
        simp only [Bool.false_eq_true, if_false]
        cases t.autoCol <;> rfl

theorem find_same {m : Map F X} {rows : List (Row V)} (hh : Holds (through E B val scan).enc E.D Ok t m rows) {σ : Sql.Store V}
    (hσ : σ (tableName E.D t) = some (tableOf E.D t rows)) {r : F → X} (hr : Good Ok t r) :
    Wrap.findByPK E B t r σ = Store.findByPK (through E B val scan) (strip t) r σ := by
  have h' := setup h
  obtain ⟨text, fs, e, hs1⟩ := send_find h r σ
  obtain ⟨text', fs', e', hs2⟩ := Store.send_find h' r σ
  have hkc : keyCond (through E B val scan) (strip t) r =
      (pick t (keyPos t)).map fun c => (colName E.D c, (through E B val scan).enc c.field (r c.field)) := by
    unfold keyCond
    rw [strip_keyPos, strip_pick, List.map_map]
    rfl
  rw [strip_columns, strip_tableName, List.map_map, hkc] at hs2
  change _ = exec E.null E.gen (.select (t.columns.map (colName E.D)) (tableName E.D t) _) σ at hs2
  have hp : pairs B ((pick t (keyPos t)).map fun c => (colName E.D c, valEx E val r c)) =
      some ((pick t (keyPos t)).map fun c => (colName E.D c, (through E B val scan).enc c.field (r c.field))) :=
    pairs_map B _ _ _ _ fun c hc => eval_val h hr (mem_of_pick hc) _
  have hcol := all_known (E := E) (t := t) rows
  simp only [Store.send] at hs2
  simp only [Wrap.findByPK, e, hs1, Store.findByPK, findVia]
  change _ = (match E.g.genFindByPK (strip t) with
    | .ok (text, fs) =>
      let a := sendTo (through E B val scan) (exec E.null E.gen) (text, args (through E B val scan) r fs) σ
      (queryRow (through E B val scan) (strip t) r a.1, a.2)
    | _ => (.failed, σ))
  have e'' : E.g.genFindByPK (strip t) = .ok (text', fs') := e'
  rw [e'']
  simp only
  have hs2' : sendTo (through E B val scan) (exec E.null E.gen) (text', args (through E B val scan) r fs') σ = _ := hs2
  rw [hs2']
  simp only [execute, hσ, hp, exec, hcol, Bool.true_eq_false, false_or]
  split
  · rfl
  · have hrow : ∀ row ∈ (tableOf E.D t rows).rows, ∃ k, outs B E.D scan t row = some k := by
      intro row hrow
      obtain ⟨s, hs, hrep⟩ := hh.only row hrow
      exact outs_some h (hh.stored _ _ hs).2.1 hrep
    have heq : (fun row => evals B (at_ (tableOf E.D t rows) row) (t.columns.map (scanEx E.D scan))) = outs B E.D scan t :=
      funext fun row => eval_scans h.toTexts rows row
    rw [heq]
    cases hf : (tableOf E.D t rows).rows.filter (Sql.holds E.null
      ((pick t (keyPos t)).map fun c => (colName E.D c, (through E B val scan).enc c.field (r c.field)))) with
    | nil => rfl
    | cons row l =>
      have hm : row ∈ (tableOf E.D t rows).rows := List.mem_of_mem_filter (by rw [hf]; simp)
      obtain ⟨k, hk⟩ := hrow row hm
      have hsame := scan_outs (E := E) (B := B) (val := val) (scan := scan) t.columns row k r hk
      simp only [List.take_succ_cons, List.take_zero, List.mapM_cons, List.mapM_nil, hk, Option.pure_def, Option.bind_eq_bind,
        Option.bind_some, List.map_cons, List.map_nil, queryRow, genAddrs_strip]
      have hga : genAddrs t = t.columns.map (·.field) := rfl
      rw [hga, hsame, List.map_map]
      rfl

theorem update_same (hw : AllWritten t) (hu : pick t (updatePos t) ≠ []) (σ : Sql.Store V) {r : F → X} (hr : Good Ok t r) :
    Wrap.updateByPK E B t r σ = Store.updateByPK (through E B val scan) (strip t) r σ := by
  have h' := setup h
  have hw' : AllWritten (strip t) := by
    unfold AllWritten
    rw [strip_columns, List.forall_mem_map]
    exact hw
  have hl' := update_numbered h' hw'
  have hl : 2 ≤ (pick t (keyPos t)).length ∨ E.g.style = .anon ∨ t.columns.length = (updatePos t).length + 1 := by
    rw [strip_keyPos, strip_pick, List.length_map, strip_columns, List.length_map, strip_updatePos] at hl'
    exact hl'
  have hu' : pick (strip t) (updatePos (strip t)) ≠ [] := by
    rw [strip_updatePos, strip_pick]
    simpa using hu
  obtain ⟨text, fs, e, hs1⟩ := send_update h hl hu r σ
  obtain ⟨text', fs', e', hs2⟩ := Store.send_update h' hl' hu' r σ
  have hkc : keyCond (through E B val scan) (strip t) r =
      (pick t (keyPos t)).map fun c => (colName E.D c, (through E B val scan).enc c.field (r c.field)) := by
    unfold keyCond
    rw [strip_keyPos, strip_pick, List.map_map]
    rfl
  rw [strip_tableName, strip_updatePos, strip_pick, List.map_map, hkc] at hs2
  change _ = exec E.null E.gen (.update (tableName E.D t)
    ((pick t (updatePos t)).map fun c => (colName E.D c, (through E B val scan).enc c.field (r c.field))) _) σ at hs2
  have hp : ∀ is, pairs B ((pick t is).map fun c => (colName E.D c, valEx E val r c)) =
      some ((pick t is).map fun c => (colName E.D c, (through E B val scan).enc c.field (r c.field))) :=
    fun is => pairs_map B _ _ _ _ fun c hc => eval_val h hr (mem_of_pick hc) _
  simp only [Store.send] at hs2
  simp only [Wrap.updateByPK, e, hs1, Store.updateByPK, updateVia]
  change _ = (match E.g.genUpdateByPK (strip t) with
    | .ok (text, fs) =>
      let a := sendTo (through E B val scan) (exec E.null E.gen) (text, args (through E B val scan) r fs) σ
      (execOnly r a.1, a.2)
    | _ => (.failed, σ))
  have e'' : E.g.genUpdateByPK (strip t) = .ok (text', fs') := e'
  rw [e'']
  simp only
  have hs2' : sendTo (through E B val scan) (exec E.null E.gen) (text', args (through E B val scan) r fs') σ = _ := hs2
  rw [hs2']
  simp only [execute, hp]

theorem delete_same (σ : Sql.Store V) (r : F → X) :
    Wrap.deleteByPK E B t r σ = Store.deleteByPK (through E B val scan) (strip t) r σ := by
  have h' := setup h
  obtain ⟨q, e, hs1⟩ := send_delete (B := B) h.wf h.named h.bare (keys_ne h.toTexts) r σ
  obtain ⟨q', e', hs2⟩ := Store.send_delete h' r σ
  have hkc : keyCond (through E B val scan) (strip t) r = (pick t (keyPos t)).map fun c => (colName E.D c, E.enc c.field (r c.field)) := by
    unfold keyCond
    rw [strip_keyPos, strip_pick, List.map_map]
    apply List.map_congr_left
    intro c hc
    simp only [Function.comp_apply]
    exact congrArg _ (key_enc h hc _)
  rw [strip_tableName, hkc] at hs2
  change _ = exec E.null E.gen _ σ at hs2
  have hp : pairs B ((pick t (keyPos t)).map fun c => (colName E.D c, Ex.val (E.enc c.field (r c.field)))) =
      some ((pick t (keyPos t)).map fun c => (colName E.D c, E.enc c.field (r c.field))) :=
    pairs_map B _ (fun c : GCol F => Ex.val (E.enc c.field (r c.field))) _ _ fun c _ => rfl
  simp only [Store.send] at hs2
  have e0 : Helpers.deleteByPK E.g.style (Helpers.ofTable E.g t : Helpers.Mdl (F → V) V) (fun f => E.enc f (r f)) = .ok q := e
  simp only [Wrap.deleteByPK, e0, hs1, Store.deleteByPK, deleteVia]
  change _ = (match Helpers.deleteByPK E.g.style (Helpers.ofTable E.g (strip t) : Helpers.Mdl (F → V) V)
      (written (through E B val scan) r) with
    | .ok q =>
      let a := sendTo (through E B val scan) (exec E.null E.gen) q σ
      (execOnly r a.1, a.2)
    | _ => (.failed, σ))
  have e'' : Helpers.deleteByPK E.g.style (Helpers.ofTable E.g (strip t) : Helpers.Mdl (F → V) V)
      (written (through E B val scan) r) = .ok q' := e'
  rw [e'']
  simp only
  have hs2' : sendTo (through E B val scan) (exec E.null E.gen) q' σ = _ := hs2
  rw [hs2']
  simp only [execute, hp]
  rfl

omit [DecidableEq F] [DecidableEq X] [DecidableEq V] h in
theorem strip_written (hw : AllWritten t) : AllWritten (strip t) := by
  unfold AllWritten
  rw [strip_columns, List.forall_mem_map]
  exact hw

theorem insert_good_same (hw : AllWritten t) (ha : t.auto = none) {rows : List (Row V)} {σ : Sql.Store V}
    (hσ : σ (tableName E.D t) = some (tableOf E.D t rows)) {r : F → X} (hr : Good Ok t r) :
    Wrap.insertOne E B t r σ = Store.insertOne (through E B val scan) (strip t) r σ := by
  have hac : t.autoCol = none := by simp [Table.autoCol, ha]
  have hi : pick t (insertPos t) ≠ [] := by
    obtain ⟨c, l, e⟩ := List.exists_cons_of_ne_nil (keys_ne h.toTexts)
    have := inserted hw (mem_of_pick (c := c) (is := keyPos t) (by simp [e])) (by simp [hac])
    exact List.ne_nil_of_mem this
  refine insert_same h hi hσ hr hr ((strip_rep t _ _ _ _).1 ?_)
  intro c hc
  exact newRow_in (setup h) (strip_written hw) hc (by rw [strip_autoCol, hac]; simp)

theorem insert_made_up_same (hw : AllWritten t) {c : GCol F} (ha : t.autoCol = some c) (hf : (t.columns.map (·.field)).Nodup)
    (hi : pick t (insertPos t) ≠ []) (hx : MadeUp E t Ok c) {rows : List (Row V)} {σ : Sql.Store V}
    (hσ : σ (tableName E.D t) = some (tableOf E.D t rows)) {r : F → X} (hr : Good Ok t r) :
    Wrap.insertOne E B t r σ = Store.insertOne (through E B val scan) (strip t) r σ := by
  obtain ⟨x, hok, henc, -, -⟩ := hx rows
  have hcm := autoCol_mem ha
  have hck : c ∈ pick t (keyPos t) := by
    cases hau : t.auto with
    | none => simp [Table.autoCol, hau] at ha
    | some i =>
      have hic : t.columns[i]? = some c := by simpa [Table.autoCol, hau] using ha
      simp [pick, keyPos, hau, hic]
  have hother : ∀ d ∈ t.columns, d.field = c.field → d = c := fun d hd e => List.inj_on_of_nodup_map hf hd hcm e
  have ha' : (strip t).autoCol = some (bareCol c) := by rw [strip_autoCol, ha]; rfl
  refine insert_same h hi hσ hr (s := fun f => if f = c.field then x else r f) ?_ ?_
  · intro d hd
    by_cases e : d.field = c.field
    · simpa [e] using hok
    · simpa [e] using hr d hd
  · intro d hd
    by_cases e : d.field = c.field
    · have := hother d hd e
      subst this
      have h1 := newRow_auto (setup h) (rows := rows) (r := r) ha'
      change newRow (through E B val scan) (strip t) rows r (colName E.D d) = E.gen (tableOf E.D (strip t) rows) at h1
      rw [h1, strip_tableOf]
      simp only [if_true]
      rw [key_enc h hck, henc]
    · have h1 := newRow_in (setup h) (strip_written hw) (rows := rows) (r := r) (c := bareCol d)
        (by rw [strip_columns]; exact List.mem_map_of_mem hd) (by
          rw [ha']
          intro e'
          exact e (congrArg GCol.field (Option.some.inj e')).symm)
      simp only [if_neg e]
      exact h1

theorem perform_same (hw : AllWritten t) {o : Store.Op F X} (ho : t.auto = none ∨ ∀ r, o ≠ .insert r) (hf : Fine Ok t o) {m : Map F X}
    {σ : Sql.Store V} (hk : Keeps (through E B val scan) Ok t m σ) :
    Wrap.perform E B t o σ = Store.perform (through E B val scan) (strip t) o σ := by
  obtain ⟨rows, hσ, hh⟩ := hk
  obtain ⟨hr, hu⟩ := hf
  cases o with
  | insert r => exact insert_good_same h hw (ho.resolve_right fun e => e r rfl) hσ hr
  | find r => exact find_same h hh hσ hr
  | update r => exact update_same h hw (hu r rfl) σ hr
  | delete r => exact delete_same h σ r

end Same

end Verif.Wrap

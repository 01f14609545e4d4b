import Verif.Lemmas.Where
import Verif.Spec.Gen
import Mathlib.Data.List.Induction
import Mathlib.Data.List.Nodup

/-!
# Lemmas about generated statements
-/

namespace Verif.Spec.Gen

open Verif Verif.Spec Verif.Gen

variable {F V : Type}

/-! ### Binding -/

theorem bind_nil (st : Style) : bind st [] ([] : List V) = some [] := (aligned_nil st).1

theorem bind_tx {st : Style} {t : Txt} {args : List V} {b : List (BSym V)}
    (h : bind st t args = some b) (s : String) : bind st (t ++ tx s) args = some (b ++ bs s) := by
  cases st with
  | anon =>
    have := bindAnon_append t (tx s) args [] b (bs s) h (bindAnon_tx s)
    simpa [bind] using this
  | numbered =>
    simp only [bind, bindNum] at h ⊢
    split at h
    · next hm =>
      rw [if_pos (by simpa [nums_append, nums_tx] using hm)]
      exact substNum_append _ _ _ _ _ h (substNum_tx _ _)
    · cases h

/-- Text that refers to exactly one new value. -/
def OneVal (st : Style) (n : Nat) (u : Txt) (v : V) (y : List (BSym V)) : Prop :=
  match st with
  | .anon => bindAnon u [v] = some y
  | .numbered => n + 1 ∈ nums u ∧ ∀ args : List V, args[n]? = some v → substNum args u = some y

theorem bind_val {st : Style} {t : Txt} {args : List V} {b : List (BSym V)}
    (h : bind st t args = some b) {u : Txt} {v : V} {y : List (BSym V)}
    (hu : OneVal st args.length u v y) : bind st (t ++ u) (args ++ [v]) = some (b ++ y) := by
  cases st with
  | anon => exact bindAnon_append _ _ _ _ _ _ h hu
  | numbered =>
    simp only [bind, bindNum] at h ⊢
    split at h
    · next hm =>
      rw [if_pos (by
        intro k hk
        rw [nums_append, List.mem_append]
        simp only [List.length_append, List.length_singleton] at hk
        by_cases hk' : k = args.length
        · subst hk'; exact .inr hu.1
        · exact .inl (hm k (by omega)))]
      exact substNum_append _ _ _ _ _ (substNum_extend _ _ _ _ h) (hu.2 _ (by simp))
    · cases h

theorem oneVal_var (st : Style) (n : Nat) (v : V) : OneVal st n [st.var (n + 1)] v [.val v] := by
  cases st with
  | anon => simp [OneVal, Style.var, bindAnon]
  | numbered =>
    refine ⟨by simp [Style.var, nums], fun args h => ?_⟩
    simp [Style.var, substNum, h]

theorem exec_bindAnon (t : Tmpl) (h : Piece.bad ∉ t) (v : V) :
    ∃ u, t.exec [.anon] = .ok u ∧ bindAnon u (List.replicate (holes t) v) = some (fill t [.val v]) := by
  induction t with
  | nil => exact ⟨[], rfl, rfl⟩
  | cons p t ih =>
    obtain ⟨u, hu, hb⟩ := ih (fun hh => h (List.mem_cons_of_mem _ hh))
    cases p with
    | lit s =>
      refine ⟨tx s ++ u, by simp [Tmpl.exec, hu, Res.map], ?_⟩
      have := bindAnon_append _ _ _ _ _ _ (bindAnon_tx (V := V) s) hb
      simpa [holes, fill] using this
    | hole =>
      refine ⟨[.anon] ++ u, by simp [Tmpl.exec, hu, Res.map], ?_⟩
      have : holes (.hole :: t) = holes t + 1 := by simp [holes]
      rw [this, List.replicate_succ]
      simp [bindAnon, hb, fill]
    | bad => exact absurd (List.mem_cons_self) h

theorem exec_substNum (t : Tmpl) (h : Piece.bad ∉ t) (n : Nat) (v : V) :
    ∃ u, t.exec [.num (n + 1)] = .ok u ∧ (holes t ≠ 0 → n + 1 ∈ nums u) ∧
      ∀ args : List V, args[n]? = some v → substNum args u = some (fill t [.val v]) := by
  induction t with
  | nil => exact ⟨[], rfl, fun h => absurd rfl h, fun _ _ => rfl⟩
  | cons p t ih =>
    obtain ⟨u, hu, hm, hb⟩ := ih (fun hh => h (List.mem_cons_of_mem _ hh))
    cases p with
    | lit s =>
      refine ⟨tx s ++ u, by simp [Tmpl.exec, hu, Res.map], ?_, fun args ha => ?_⟩
      · have : holes (.lit s :: t) = holes t := by simp [holes]
        rw [this, nums_append, nums_tx]; simpa using hm
      · have := substNum_append args _ _ _ _ (substNum_tx args s) (hb args ha)
        simpa [fill] using this
    | hole =>
      refine ⟨[.num (n + 1)] ++ u, by simp [Tmpl.exec, hu, Res.map], ?_, fun args ha => ?_⟩
      · intro _
        simp [nums]
      · simp [substNum, ha, hb args ha, fill]
    | bad => exact absurd (List.mem_cons_self) h

theorem sqlValuer_ok (g : Cfg) (c : GCol F) (h : ∀ u, c.sqlVal = some u → Usable g.style u) (n : Nat)
    (rec : F → V) :
    ∃ u, g.sqlValuer c n = .ok u ∧ OneVal g.style n u (rec c.field) (valB rec c) := by
  unfold Cfg.sqlValuer valB wrap
  cases hc : c.sqlVal with
  | none => exact ⟨_, rfl, oneVal_var _ _ _⟩
  | some t =>
    obtain ⟨h1, h2⟩ := h t hc
    cases hs : g.style with
    | anon =>
      obtain ⟨u, hu, hb⟩ := exec_bindAnon t h1 (rec c.field)
      rw [hs] at h2
      rw [h2] at hb
      exact ⟨u, hu, hb⟩
    | numbered =>
      obtain ⟨u, hu, hm, hb⟩ := exec_substNum t h1 n (rec c.field)
      rw [hs] at h2
      exact ⟨u, hu, hm (by simp only at h2; omega), hb⟩

/-- A plain text. -/
theorem exec_tx (t : Tmpl) (h : Piece.bad ∉ t) (q : String) :
    ∃ s, t.exec (tx q) = .ok (tx s) ∧ (bs s : List (BSym V)) = fill t (bs q) := by
  induction t with
  | nil => exact ⟨"", rfl, rfl⟩
  | cons p t ih =>
    obtain ⟨s, hs, hb⟩ := ih (fun hh => h (List.mem_cons_of_mem _ hh))
    cases p with
    | lit x => exact ⟨x ++ s, by simp [Tmpl.exec, hs, Res.map], by simp [fill, hb]⟩
    | hole => exact ⟨q ++ s, by simp [Tmpl.exec, hs, Res.map], by simp [fill, hb]⟩
    | bad => exact absurd (List.mem_cons_self) h

theorem sqlScanner_ok (g : Cfg) (c : GCol F) (h : ∀ u, c.sqlScan = some u → Piece.bad ∉ u) :
    ∃ s, g.sqlScanner c = .ok (tx s) ∧ (bs s : List (BSym V)) = readB g c := by
  unfold Cfg.sqlScanner readB wrap identB
  cases hc : c.sqlScan with
  | none => exact ⟨_, rfl, rfl⟩
  | some t => exact exec_tx t (h t hc) _

/-! ### Loops -/

/-- Later items of a comma separated list. -/
def commaFrom (i : Nat) (l : List (List (BSym V))) : List (BSym V) :=
  if i = 0 then comma l else restText "," l

theorem commaFrom_zero (l : List (List (BSym V))) : commaFrom 0 l = comma l := rfl

theorem commaFrom_cons (i : Nat) (x : List (BSym V)) (l : List (List (BSym V))) :
    commaFrom i (x :: l) = (if i = 0 then [] else bs ",") ++ x ++ commaFrom (i + 1) l := by
  unfold commaFrom
  by_cases h : i = 0
  · subst h; simp [comma, intercalate_restText]
  · simp [h, restText]

theorem commaFrom_nil (i : Nat) : commaFrom i ([] : List (List (BSym V))) = [] := by
  unfold commaFrom; split <;> simp [comma, restText, List.intercalate]

theorem loop_plain {st : Style} (f : Nat → GCol F → Res Txt) (y : GCol F → List (BSym V))
    (cs : List (GCol F)) (hf : ∀ i, ∀ c ∈ cs, ∃ s, f i c = .ok (tx s) ∧ (bs s : List (BSym V)) = y c)
    (i : Nat) : ∃ x, commaLoop f i cs = .ok x ∧ ∀ (t : Txt) (args : List V) (b : List (BSym V)),
      bind st t args = some b → bind st (t ++ x) args = some (b ++ commaFrom i (cs.map y)) := by
  induction cs generalizing i with
  | nil => exact ⟨[], rfl, fun t args b h => by simpa [commaFrom_nil] using h⟩
  | cons c cs ih =>
    obtain ⟨s, hs, hy⟩ := hf i c (by simp)
    obtain ⟨x, hx, hb⟩ := ih (fun i c hc => hf i c (by simp [hc])) (i + 1)
    refine ⟨_, by simp only [commaLoop, hs, hx, Res.ok_bind]; rfl, fun t args b h => ?_⟩
    rw [List.map_cons, commaFrom_cons, ← hy]
    by_cases hi : i = 0
    · subst hi
      have := hb _ _ _ (bind_tx h s)
      simpa using this
    · have := hb _ _ _ (bind_tx (bind_tx h ",") s)
      simpa [hi, Nat.pos_of_ne_zero hi] using this

theorem loop_vals {st : Style} (f : Nat → GCol F → Res Txt) (rec : F → V) (k : Nat)
    (y : GCol F → List (BSym V)) (pre : GCol F → String)
    (cs : List (GCol F))
    (hf : ∀ i, ∀ c ∈ cs, ∃ u, f i c = .ok (tx (pre c) ++ u) ∧ OneVal st (i + k) u (rec c.field) (y c))
    (i : Nat) : ∃ x, commaLoop f i cs = .ok x ∧ ∀ (t : Txt) (args : List V) (b : List (BSym V)),
      args.length = i + k → bind st t args = some b →
      bind st (t ++ x) (args ++ cs.map fun c => rec c.field) =
        some (b ++ commaFrom i (cs.map fun c => bs (pre c) ++ y c)) := by
  induction cs generalizing i with
  | nil => exact ⟨[], rfl, fun t args b _ h => by simpa [commaFrom_nil] using h⟩
  | cons c cs ih =>
    obtain ⟨u, hu, ho⟩ := hf i c (by simp)
    obtain ⟨x, hx, hb⟩ := ih (fun i c hc => hf i c (by simp [hc])) (i + 1)
    refine ⟨_, by simp only [commaLoop, hu, hx, Res.ok_bind]; rfl, fun t args b hl h => ?_⟩
    rw [List.map_cons, List.map_cons, commaFrom_cons]
    by_cases hi : i = 0
    · subst hi
      have := hb _ (args ++ [rec c.field]) _ (by simp [hl]; omega) (bind_val (bind_tx h (pre c)) (by rw [hl]; exact ho))
      simpa using this
    · have := hb _ (args ++ [rec c.field]) _ (by simp [hl]; omega)
        (bind_val (bind_tx (bind_tx h ",") (pre c)) (by rw [hl]; exact ho))
      simpa [hi, Nat.pos_of_ne_zero hi] using this

theorem bind_joinNames {st : Style} (g : Cfg) (ks : List (GCol F)) {t : Txt} {args : List V}
    {b : List (BSym V)} (h : bind st t args = some b) :
    bind st (t ++ g.keyNames ks) args = some (b ++ comma (ks.map (identB g))) := by
  unfold Cfg.keyNames
  induction ks generalizing t b with
  | nil => simpa [joinTxt, comma, List.intercalate] using h
  | cons c ks ih =>
    cases ks with
    | nil =>
      have := bind_tx h (g.quoteId c.name)
      simpa [joinTxt, comma, List.intercalate, identB] using this
    | cons d ks =>
      have := ih (bind_tx (bind_tx h (g.quoteId c.name)) ",")
      simpa [joinTxt, comma, identB, List.intercalate] using this

/-! ### Which columns -/

theorem filter_zipIdx {α : Type} (l : List α) (p : α × Nat → Bool) :
    ((l.zipIdx.filter p).map (·.1)) =
      ((List.range l.length).filter fun i => (l[i]?.map fun a => p (a, i)).getD false).filterMap
        fun i => l[i]? := by
  induction l using List.reverseRecOn with
  | nil => rfl
  | append_singleton l a ih =>
    rw [List.zipIdx_append, List.filter_append, List.map_append, ih, List.length_append,
      List.length_singleton, List.range_succ, List.filter_append, List.filterMap_append]
    congr 1
    · have h1 : ((List.range l.length).filter fun i => ((l ++ [a])[i]?.map fun a => p (a, i)).getD false) =
          ((List.range l.length).filter fun i => (l[i]?.map fun a => p (a, i)).getD false) := by
        apply List.filter_congr
        intro i hi
        rw [List.getElem?_append_left (by simpa using hi)]
      rw [h1]
      apply List.filterMap_congr
      intro i hi
      rw [List.getElem?_append_left (by simpa using (List.mem_filter.1 hi).1)]
    · by_cases hp : p (a, l.length)
      · simp [hp]
      · simp [hp]

theorem insertColumns_eq (t : Table F) : t.insertColumns = pick t (insertPos t) := by
  unfold Table.insertColumns pick insertPos
  rw [filter_zipIdx]
  congr 1
  apply List.filter_congr
  intro i hi
  have hi : i < t.columns.length := by simpa using hi
  simp only [isReadonly, List.getElem?_eq_getElem hi, Option.map_some, Option.getD_some]
  congr 1
  simp [bne, Bool.beq_eq_decide_eq, eq_comm]

theorem keyCols_eq (t : Table F) : t.keyCols = pick t t.keys := rfl

theorem mem_keyNames (t : Table F) (hw : WF t) (i : Nat) (hi : i < t.columns.length) :
    (t.keyCols.map (·.name)).contains t.columns[i].name = t.keys.contains i := by
  rw [Bool.eq_iff_iff]
  simp only [List.contains_iff_mem, List.mem_map, Table.keyCols, List.mem_filterMap]
  constructor
  · rintro ⟨c, ⟨k, hk, hc⟩, hn⟩
    obtain ⟨hkl, rfl⟩ := List.getElem?_eq_some_iff.1 hc
    have : k = i := by
      have := (List.nodup_iff_injective_get.1 hw.names)
      have h2 := @this ⟨k, by simpa using hkl⟩ ⟨i, by simpa using hi⟩ (by simpa using hn)
      simpa using h2
    exact this ▸ hk
  · intro h
    exact ⟨t.columns[i], ⟨i, h, List.getElem?_eq_getElem hi⟩, rfl⟩

theorem columnsWithoutPK_eq (t : Table F) (hw : WF t) :
    t.columnsWithoutPK = pick t (updatePos t) := by
  unfold Table.columnsWithoutPK pick updatePos
  rw [filter_zipIdx]
  congr 1
  apply List.filter_congr
  intro i hi
  have hi : i < t.columns.length := by simpa using hi
  simp only [isReadonly, List.getElem?_eq_getElem hi, Option.map_some, Option.getD_some]
  rw [mem_keyNames t hw i hi]
  have : (some i == t.auto) = (t.auto == some i) := Bool.beq_comm
  rw [this]
  cases t.keys.contains i <;> cases t.columns[i].readonly <;> cases h : (t.auto == some i) <;>
    simp [bne, h]

/-! ### Rows of placeholders -/

theorem placeholderLoop_vals (n row : Nat) (k i : Nat) (args : List V) (vs : List V)
    (t : Txt) (b : List (BSym V)) (hl : args.length = row * n + i) (hv : vs.length = k)
    (h : bind .numbered t args = some b) :
    bind .numbered (t ++ placeholderLoop n row i k) (args ++ vs) =
      some (b ++ commaFrom i (vs.map fun v => [.val v])) := by
  induction k generalizing i args vs t b with
  | zero =>
    have : vs = [] := List.length_eq_zero_iff.1 hv
    subst this
    simpa [placeholderLoop, commaFrom_nil] using h
  | succ k ih =>
    match vs, hv with
    | v :: vs, hv =>
      rw [List.map_cons, commaFrom_cons, placeholderLoop]
      have ho : OneVal .numbered args.length [.num (row * n + (i + 1))] v [.val v] := by
        have := oneVal_var .numbered args.length v
        rw [hl] at this ⊢
        exact this
      by_cases hi : i = 0
      · subst hi
        have := ih 1 (args ++ [v]) vs _ _ (by simp [hl]) (by simpa using hv) (bind_val h ho)
        simpa using this
      · have := ih (i + 1) (args ++ [v]) vs _ _ (by simp [hl]; omega) (by simpa using hv)
          (bind_val (bind_tx h ",") ho)
        simpa [hi, Nat.pos_of_ne_zero hi] using this

theorem repeatVar_vals (vs : List V) :
    bindAnon (repeatVar vs.length) vs = some (commaFrom 1 (vs.map fun v => [.val v])) := by
  induction vs with
  | nil => simp [repeatVar, bindAnon, commaFrom_nil]
  | cons v vs ih =>
    rw [List.map_cons, commaFrom_cons, List.length_cons, repeatVar]
    have h1 := bindAnon_append _ [.anon] _ [v] _ [.val v] (bindAnon_tx (V := V) ",") (by simp [bindAnon])
    have h2 := bindAnon_append _ _ _ _ _ _ h1 ih
    simpa [commaFrom] using h2

theorem row_binds (st : Style) (n : Nat) (row : Nat) (vs : List V) (hv : vs.length = n) (hn : 0 < n)
    (t : Txt) (args : List V) (b : List (BSym V)) (hl : args.length = row * n)
    (h : bind st t args = some b) :
    bind st (t ++ insertPlaceholders st n row) (args ++ vs) = some (b ++ rowB vs) := by
  cases st with
  | numbered =>
    have := bind_tx (placeholderLoop_vals n row n 0 args vs _ _ (by simpa using hl) hv (bind_tx h "(")) ")"
    simpa [insertPlaceholders, rowB, commaFrom_zero] using this
  | anon =>
    match vs, hv with
    | [], hv => subst hv; simp at hn
    | v :: vs, hv =>
      subst hv
      have h0 := bindAnon_append [.anon] _ [v] _ [.val v] _ (by simp [bindAnon]) (repeatVar_vals vs)
      have h1 := bindAnon_append _ _ _ _ _ _ (bind_tx (st := .anon) h "(") h0
      have h2 := bind_tx (st := .anon) h1 ")"
      have e : insertPlaceholders .anon (v :: vs).length row =
          tx "(" ++ ([.anon] ++ repeatVar vs.length) ++ tx ")" := by
        simp [insertPlaceholders, repeatVar, tx]
      rw [e]
      have e2 : comma ((v :: vs).map fun v => [BSym.val v]) =
          [.val v] ++ commaFrom 1 (vs.map fun v => [.val v]) := by
        rw [← commaFrom_zero, List.map_cons, commaFrom_cons]; rfl
      rw [rowB, e2]
      simpa [Spec.bind] using h2

end Verif.Spec.Gen

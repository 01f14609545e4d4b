import Verif.Props.Fault

/-!
# Property C103: what connections that fail make of calls against expectations
-/

namespace Verif.Props

open Verif Verif.Gen Verif.Spec Verif.Spec.Gen Verif.Spec.Sql Verif.Spec.Store Verif.Store Verif.Spec.Program Verif.Program

variable {F X V : Type} [DecidableEq F] [DecidableEq X] [DecidableEq V] {E : Env F X V} {Ok : F → X → Prop} {K : Compare V} {br : Brand}

/-- C103 is false for keys that the database makes up: if the answer of `InsertOne` is lost and the call is made again, the
record is there twice, under two new keys. -/
theorem C103_twice {O : Comp F X} {t : Table F} (hr : Ready E Ok K O t) (hg : Meant E.g br) (zero : F → X) {c : GCol F}
    (hc : t.autoCol = some c) (r : F → X) (ha : Sound E Ok br t (.one (.insert r))) (m : Map F X) (σ : Sql.Store V)
    (hk : Keeps E Ok t m σ) :
    let with_ := fun (x : X) (f : F) => if f = c.field then x else r f
    ∃ x y, x ≠ y ∧ m [x] = none ∧ m [y] = none ∧ ∃ σ',
      playOn E br K (fun _ : Unit => t) (fun _ => zero) (fun _ : Unit => insist () (.one (.insert r)))
        [((), .after), ((), .fine)] (fun _ => []) σ = (fun _ => [.one .failed, .one (.ok (with_ y))], σ') ∧
      Keeps E Ok t (put (put m [x] (some (with_ x))) [y] (some (with_ y))) σ' := by
  intro with_
  obtain ⟨reply, m1, σ1, e1, hd1, h1, -⟩ := call_does hr hg zero ha hk
  obtain ⟨reply2, m2, σ2, e2, hd2, h2, -⟩ := call_does hr hg zero ha h1
  cases hd1 with
  | one hA1 =>
    cases hd2 with
    | one hA2 =>
      simp only [Act, hc] at hA1 hA2
      obtain ⟨x, hx, e3⟩ := hA1
      cases e3
      obtain ⟨y, hy, e4⟩ := hA2
      cases e4
      have hxy : x ≠ y := by
        rintro rfl
        simp [put] at hy
      refine ⟨x, y, hxy, hx, by simpa [put, Ne.symm hxy] using hy, σ2, ?_, h2⟩
      simp only [playOn, insist, List.all_nil, if_true, callOn_after, e1, heard, List.nil_append, List.all_cons, Reply.isFailure,
        Bool.and_self, callOn_fine, e2]
      rfl

omit [DecidableEq X] in
theorem mapM_take {A B : Type} (f : A → Option B) : ∀ (l : List A) (l' : List B) (n : Nat), l.mapM f = some l' →
    (l.take n).mapM f = some (l'.take n)
  | [], l', n, h => by simp at h; subst h; simp
  | a :: l, l', n, h => by
    rw [List.mapM_cons] at h
    simp only [Option.pure_def, Option.bind_eq_bind, Option.bind_eq_some_iff, Option.some.injEq] at h
    obtain ⟨b, hb, l1, hl, rfl⟩ := h
    cases n with
    | zero => simp
    | succ n =>
      rw [List.take_succ_cons, List.mapM_cons, hb, mapM_take f l l1 n hl]
      simp

omit [DecidableEq X] in
private theorem rowsOf_cut {t : Table F} {zero : F → X} {s : Res (Verif.Stmt V)} {σ σ' : Sql.Store V} {L : List (F → X)}
    (h : runStmt E br K (rowsOf E t zero) s σ = (.ok L, σ')) (hL : L ≠ []) (n : Nat) (kept : Bool) :
    runStmtOn E br K (looped (.cut n kept)) (rowsOf E t zero) s σ = (.ok (L.take n), if kept then σ' else σ) := by
  unfold runStmt at h
  unfold runStmtOn
  rcases s with s | _ | _
  · simp only [Prod.mk.injEq] at h ⊢
    obtain ⟨h1, h2⟩ := h
    generalize sendWide E br K s σ = a at h1 h2
    obtain ⟨a, σ1⟩ := a
    simp only at h1 h2
    subst h2
    cases a with
    | rows l =>
      simp only [rowsOf] at h1
      split at h1
      · next rs hm =>
        cases h1
        simp only [looped, rowsOf, mapM_take _ _ _ n hm, and_self]
      · cases h1
    | done v =>
      simp only [rowsOf, Ret.ok.injEq] at h1
      exact absurd h1.symm hL
    | duplicate => cases h1
    | refused => cases h1
  · cases h
  · cases h

/-- C103 is false for `QueryStmt` over a connection that fails after some rows: it returns these rows as if there were no more. -/
theorem C103_query_short {O : Comp F X} {t : Table F} (hr : Ready E Ok K O t) (hg : Meant E.g br) (zero : F → X) (q : Query F X)
    (ha : Sound E Ok br t (.query q)) (m : Map F X) (σ : Sql.Store V) (hk : Keeps E Ok t m σ) (n : Nat) (kept : Bool) :
    ∃ l, Found O t m q.where_ q.orderBy l ∧ (firstOf q.limit (l.drop q.offset) ≠ [] →
      callOn E br K (.cut n kept) t zero (.query q) σ =
        (.list (.ok (((firstOf q.limit (l.drop q.offset)).map fun s => load t s zero).take n)), σ)) := by
  obtain ⟨reply, m', σ', e, hd, -⟩ := call_does hr hg zero ha hk
  cases hd with
  | @query _ l hl =>
    refine ⟨l, hl, fun hne => ?_⟩
    have e1 : queryAll E br K t zero q σ = (.ok ((firstOf q.limit (l.drop q.offset)).map fun s => load t s zero), σ') := by
      have h1 := congrArg Prod.fst e
      have h2 := congrArg Prod.snd e
      simp only [Program.call, Prod.map_fst, Prod.map_snd, id_eq, Reply.list.injEq] at h1 h2
      exact Prod.ext h1 h2
    have hσ : σ' = σ := by
      obtain ⟨l', -, e2⟩ := C92_query_partial E t Ok K O br hr.setup.toSetup hr.agrees hr.spelled m σ hk q ha.1 ha.2.1 ha.2.2 zero
      rw [e1] at e2
      exact congrArg Prod.snd e2
    have := rowsOf_cut e1 (by simpa using hne) n kept
    simp only [callOn, this, hσ, ite_self]
    rfl

/-! ### Batches -/

/-- What a batch of PostgreSQL makes of an answer that is cut. -/
private theorem runManyOn_cut {t : Table F} (h : FullSetup E t Ok) (hp : E.g.postgres = true) {U : List (GCol F)} (hU : Upd t U)
    (hUn : (U.map (colName E.D)).Nodup) (hU0 : U ≠ []) (e : Existing) (ru : Rules) {rs : List (F → X)} (hr : ∀ r ∈ rs, Good Ok t r)
    {m : Map F X} {σ : Sql.Store V} (hk : Keeps E Ok t m σ) {q : Res (Option (Txt × List V))} {q0 : Txt × List V}
    (hq : q = .ok (some q0))
    (hs : sendBulk E ru q0 σ = execBulk E.null E.gen ru (bulkOf E t rs (conflictOf E.D (targetFor E t) U e)) σ)
    (hc : ¬ (ru = .onConflict ∧ e = .replace ∧ ¬ (rs.map (keyOf t)).Nodup)) {m' : Map F X} {ss : List (F → X)}
    (hst : storeAll t e (U.map (·.field)) rs m = some (m', ss)) (n : Nat) :
    runManyOn E ru (.cut n false) t rs q σ = (.ok (into t (ss.take n) rs), σ) := by
  obtain ⟨rows, hσ, hh⟩ := hk
  have hx := execBulk_ok h hU hUn hU0 (tg := targetFor E t) (by
    intro ns e
    unfold targetFor at e
    simp [hp] at e
    exact e.symm) e ru E.g.postgres hr hh hσ
  simp only [bulkOf] at hs
  simp only [← hs] at hx
  rw [if_neg hc, hst] at hx
  obtain ⟨rows', xs, e1, hh', hsame⟩ := hx
  have h1 : Same E Ok t (ss.take n) (xs.take n) := List.forall₂_take n hsame
  have h2 : (ss.take n).length ≤ rs.length := by
    have := storeAll_length _ _ _ _ _ _ hst
    rw [List.length_take]
    omega
  simp only [runManyOn, hq, hp, if_true, e1, looped, queryRows, ← List.map_take, scanRows_ok h h1 h2, Bool.false_eq_true, if_false]

omit [DecidableEq X] in
private theorem into_take {t : Table F} (n : Nat) (rs : List (F → X)) : into t (rs.take n) rs = rs := by
  induction rs generalizing n with
  | nil => cases n <;> rfl
  | cons r rs ih =>
    cases n with
    | zero => rfl
    | succ n =>
      simp only [List.take_succ_cons, into, ih, List.cons.injEq, and_true]
      funext f
      simp [load]

omit [DecidableEq X] in
private theorem into_length {t : Table F} : ∀ ss rs : List (F → X), (into t ss rs).length = rs.length
  | [], rs => by simp [into]
  | _ :: _, [] => by simp [into]
  | s :: ss, r :: rs => by simp [into, into_length ss rs]

/-- C103 is false for `Insert` in PostgreSQL if the statement is undone after any number of rows have arrived, even after all of
them, as when the commit fails: it returns no error, and nothing is stored. -/
theorem C103_insert_silent {O : Comp F X} {t : Table F} (hr : Ready E Ok K O t) (hg : Meant E.g br) (hp : E.g.postgres = true)
    (zero : F → X) (rs : List (F → X)) (hne : rs ≠ []) (ha : Sound E Ok br t (.insert rs)) (m : Map F X)
    (hd : (rs.map (keyOf t)).Nodup) (hnew : ∀ r ∈ rs, m (keyOf t r) = none) (σ : Sql.Store V) (hk : Keeps E Ok t m σ) (n : Nat) :
    callOn E br K (.cut n false) t zero (.insert rs) σ = (.many (.ok rs), σ) := by
  have h := hr.setup
  obtain ⟨⟨hau, hn⟩, hgood⟩ := ha
  have hb : br = .postgres := by simpa [hp] using hg.postgres
  subst hb
  obtain ⟨q, e1, e2⟩ := send_insertMany h hn hg.style hau (ru := rules .postgres) (fun _ => rfl) hne σ
  have := runManyOn_cut h hp (U := t.columns) ⟨fun c hc => hc, hr.fields⟩ h.names (columns_ne h) .error (rules .postgres) hgood hk e1 e2
    (by simp) (m' := fun k => (withKey t rs k).or (m k)) (ss := rs) (by rw [storeAll_error, if_pos ⟨hd, hnew⟩]) n
  simp only [callOn, insertManyOn, this, into_take]
  rfl

/-- The same for `Upsert`. -/
theorem C103_upsert_silent {O : Comp F X} {t : Table F} (hr : Ready E Ok K O t) (hg : Meant E.g br) (hp : E.g.postgres = true)
    (zero : F → X) (w : Wish) (hkp : w.keep = false) (rs : List (F → X)) (ha : Sound E Ok br t (.upsert w rs)) (m : Map F X)
    (hd : (rs.map (keyOf t)).Nodup) (σ : Sql.Store V) (hk : Keeps E Ok t m σ) (n : Nat) :
    ∃ rs', callOn E br K (.cut n false) t zero (.upsert w rs) σ = (.many (.ok rs'), σ) ∧ rs'.length = rs.length := by
  have h := hr.setup
  obtain ⟨⟨hau, hn⟩, hsq, hw, hne, hgood⟩ := ha
  have hw' := hw.resolve_left (by simp [hkp])
  have hb : br = .postgres := by simpa [hp] using hg.postgres
  subst hb
  have hru : rules .postgres = rulesOf E.g := by simp [rules, rulesOf, hp]
  obtain ⟨q, e1, e2⟩ := send_upsertMany h hn hg.style hau w hw hne σ
  have := runManyOn_cut h hp (U := replaced E.g t w) ⟨replaced_sub E.g w, hr.fields⟩ (h.names.sublist (List.filter_sublist.map _)) hw'
    (existing w) (rulesOf E.g) hgood hk e1 e2 (fun hc => hc.2.2 hd) (by
      rw [show existing w = .replace by simp [existing, hkp], storeAll_distinct _ _ hd]) n
  refine ⟨_, by simp only [callOn, upsertManyOn, hru, this]; rfl, into_length _ _⟩

/-- So a call of `Insert` is not done and not reported as failed either. -/
theorem C103_not_once {O : Comp F X} {t : Table F} (hr : Ready E Ok K O t) (hg : Meant E.g br) (hp : E.g.postgres = true)
    (zero : F → X) (rs : List (F → X)) (hne : rs ≠ []) (ha : Sound E Ok br t (.insert rs)) (m : Map F X)
    (hd : (rs.map (keyOf t)).Nodup) (hnew : ∀ r ∈ rs, m (keyOf t r) = none) (σ : Sql.Store V) (hk : Keeps E Ok t m σ) (n : Nat) :
    ¬ ∃ m', Tries E.g O t zero m (.insert rs) (callOn E br K (.cut n false) t zero (.insert rs) σ).1 m' ∧
      Keeps E Ok t m' (callOn E br K (.cut n false) t zero (.insert rs) σ).2 := by
  rw [C103_insert_silent hr hg hp zero rs hne ha m hd hnew σ hk n]
  rintro ⟨m', htr, hk'⟩
  have hm' : m' = fun k => (withKey t rs k).or (m k) := by
    generalize hrep : (Reply.many (.ok rs) : Reply F X) = reply at htr
    cases htr with
    | does h =>
      cases h with
      | insert => rfl
      | taken => cases hrep
    | never => cases hrep
    | lost => cases hrep
  obtain ⟨r, rs, rfl⟩ := List.exists_cons_of_ne_nil hne
  have hgr := ha.2 r (by simp)
  obtain ⟨rows, hσ, hh⟩ := hk
  obtain ⟨rows', hσ', hh'⟩ := hk'
  have f1 := (find_ok hr.setup.toSetup hh hσ (r := r) hgr).1
  have f2 := (find_ok hr.setup.toSetup hh' hσ' (r := r) hgr).1
  simp only at f2
  rw [f1] at f2
  have hfst := congrArg Prod.fst f2
  have h1 : m (keyOf t r) = none := hnew r (by simp)
  have h2 : m' (keyOf t r) ≠ none := by
    rw [hm']
    simp [withKey]
  obtain ⟨s, hs⟩ := Option.ne_none_iff_exists'.1 h2
  simp only [act, h1, hs] at hfst
  cases hfst

end Verif.Props

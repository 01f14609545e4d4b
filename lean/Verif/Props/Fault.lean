import Verif.Model.Fault
import Verif.Props.Program

/-!
# Property C103: calls over connections that fail
-/

namespace Verif.Props

open Verif Verif.Gen Verif.Spec Verif.Spec.Gen Verif.Spec.Sql Verif.Spec.Store Verif.Store Verif.Spec.Program Verif.Program

variable {F X V : Type} [DecidableEq F] [DecidableEq X] [DecidableEq V] {E : Env F X V} {Ok : F → X → Prop} {K : Compare V} {br : Brand}

/-- The answer is not cut while the helper goes through it row by row. -/
def Whole (g : Cfg) : Fault → Call F X → Prop
  | .cut _ _, .insert _ => g.postgres = false
  | .cut _ _, .upsert _ _ => g.postgres = false
  | .cut _ _, .query _ => False
  | _, _ => True

omit [DecidableEq V] in
private theorem single_cases (f : Fault) (σ : Sql.Store V) (x : Ans V × Sql.Store V) :
    single f σ x = x ∨ ∃ σ', single f σ x = (.refused, σ') ∧ (σ' = σ ∨ σ' = x.2) := by
  cases f with
  | fine => exact .inl rfl
  | before => exact .inr ⟨_, rfl, .inl rfl⟩
  | after => exact .inr ⟨_, rfl, .inr rfl⟩
  | cut n kept =>
    refine .inr ⟨_, rfl, ?_⟩
    cases kept
    · exact .inl rfl
    · exact .inr rfl

omit [DecidableEq V] in
private theorem single_refused (f : Fault) (σ : Sql.Store V) : single f σ (.refused, σ) = (.refused, σ) := by
  cases f <;> simp [single]

omit [DecidableEq F] [DecidableEq X] in
private theorem sendTo_single (f : Fault) (q : Txt × List V) (σ : Sql.Store V) :
    sendTo E (fun s σ => single f σ (exec E.null E.gen s σ)) q σ = single f σ (sendTo E (exec E.null E.gen) q σ) := by
  unfold sendTo
  split
  · rfl
  · rw [single_refused]

omit [DecidableEq X] in
private theorem performOn_cases (f : Fault) (t : Table F) (o : Spec.Store.Op F X) (σ : Sql.Store V) :
    performOn E f t o σ = perform E t o σ ∨
      ∃ σ', performOn E f t o σ = (.failed, σ') ∧ (σ' = σ ∨ σ' = (perform E t o σ).2) := by
  cases o with
  | insert r =>
    simp only [performOn, performVia, perform, insertOne, insertVia]
    split
    · next text fs _ =>
      simp only [sendTo_single]
      rcases single_cases f σ (sendTo E (exec E.null E.gen) (text, args E r fs) σ) with h | ⟨σ', h, h'⟩
      · rw [h]; exact .inl rfl
      · refine .inr ⟨σ', ?_, h'⟩
        rw [h]
        cases E.g.postgres <;> cases t.autoCol <;> rfl
    · exact .inl rfl
  | find r =>
    simp only [performOn, performVia, perform, findByPK, findVia]
    split
    · next text fs _ =>
      simp only [sendTo_single]
      rcases single_cases f σ (sendTo E (exec E.null E.gen) (text, args E r fs) σ) with h | ⟨σ', h, h'⟩
      · rw [h]; exact .inl rfl
      · exact .inr ⟨σ', by rw [h]; rfl, h'⟩
    · exact .inl rfl
  | update r =>
    simp only [performOn, performVia, perform, updateByPK, updateVia]
    split
    · next text fs _ =>
      simp only [sendTo_single]
      rcases single_cases f σ (sendTo E (exec E.null E.gen) (text, args E r fs) σ) with h | ⟨σ', h, h'⟩
      · rw [h]; exact .inl rfl
      · exact .inr ⟨σ', by rw [h]; rfl, h'⟩
    · exact .inl rfl
  | delete r =>
    simp only [performOn, performVia, perform, deleteByPK, deleteVia]
    split
    · next q _ =>
      simp only [sendTo_single]
      rcases single_cases f σ (sendTo E (exec E.null E.gen) q σ) with h | ⟨σ', h, h'⟩
      · rw [h]; exact .inl rfl
      · exact .inr ⟨σ', by rw [h]; rfl, h'⟩
    · exact .inl rfl

omit [DecidableEq V] in
private theorem looped_single {f : Fault} (hf : ∀ n kept, f ≠ .cut n kept) (σ : Sql.Store V) (x : Ans V × Sql.Store V) :
    looped f σ x = single f σ x := by
  cases f with
  | cut n kept => exact absurd rfl (hf n kept)
  | _ => rfl

omit [DecidableEq X] in
private theorem runManyOn_cases (ru : Rules) {f : Fault} (t : Table F) (hf : E.g.postgres = true → ∀ n kept, f ≠ .cut n kept)
    (rs : List (F → X)) (q : Res (Option (Txt × List V))) (σ : Sql.Store V) :
    runManyOn E ru f t rs q σ = runMany E ru t rs q σ ∨
      ∃ σ', runManyOn E ru f t rs q σ = (.failed, σ') ∧ (σ' = σ ∨ σ' = (runMany E ru t rs q σ).2) := by
  unfold runManyOn runMany
  rcases q with (_ | q) | _ | _
  · exact .inl rfl
  · cases hp : E.g.postgres with
    | true =>
      simp only [if_true, looped_single (hf hp)]
      rcases single_cases f σ (sendBulk E ru q σ) with h | ⟨σ', h, h'⟩
      · rw [h]; exact .inl rfl
      · exact .inr ⟨σ', by rw [h]; rfl, h'⟩
    | false =>
      simp only [Bool.false_eq_true, if_false]
      rcases single_cases f σ (sendBulk E ru q σ) with h | ⟨σ', h, h'⟩
      · rw [h]; exact .inl rfl
      · exact .inr ⟨σ', by rw [h]; rfl, h'⟩
  · exact .inl rfl
  · exact .inl rfl

omit [DecidableEq X] in
private theorem upsertOneOn_cases (ru : Rules) (f : Fault) (t : Table F) (w : Wish) (r : F → X) (σ : Sql.Store V) :
    upsertOneOn E ru f t w r σ = upsertOne E ru t w r σ ∨
      ∃ σ', upsertOneOn E ru f t w r σ = (.failed, σ') ∧ (σ' = σ ∨ σ' = (upsertOne E ru t w r σ).2) := by
  unfold upsertOneOn upsertOne
  generalize (if E.g.postgres = true then Helpers.upsertOnePg (mdl E t) { doNothing := w.keep, omitted := w.omitted } (vals E r)
    else Helpers.upsertOneMy (mdl E t) (!w.keep) w.omitted (vals E r)) = q
  rcases q with q | _ | _
  · simp only
    rcases single_cases f σ (sendBulk E ru q σ) with h | ⟨σ', h, h'⟩
    · rw [h]; exact .inl rfl
    · refine .inr ⟨σ', ?_, h'⟩
      rw [h]
      cases E.g.postgres <;> rfl
  · exact .inl rfl
  · exact .inl rfl

omit [DecidableEq F] [DecidableEq X] in
private theorem runStmtOn_cases {A : Type} {on : Sql.Store V → Ans V × Sql.Store V → Ans V × Sql.Store V} {f : Fault}
    (hon : ∀ σ x, on σ x = single f σ x) {get : Ans V → Ret A} (hget : get .refused = .failed) (s : Res (Verif.Stmt V))
    (σ : Sql.Store V) :
    runStmtOn E br K on get s σ = runStmt E br K get s σ ∨
      ∃ σ', runStmtOn E br K on get s σ = (.failed, σ') ∧ (σ' = σ ∨ σ' = (runStmt E br K get s σ).2) := by
  unfold runStmtOn runStmt
  cases s with
  | ok s =>
    simp only [hon]
    rcases single_cases f σ (sendWide E br K s σ) with h | ⟨σ', h, h'⟩
    · rw [h]; exact .inl rfl
    · exact .inr ⟨σ', by rw [h, hget], h'⟩
  | err => exact .inl rfl
  | panic => exact .inl rfl

omit [DecidableEq F] [DecidableEq X] [DecidableEq V] in
private theorem map_cases {A : Type} {f : A → Reply F X} {fail : A} {x y : A × Sql.Store V} {σ : Sql.Store V}
    (h : x = y ∨ ∃ σ', x = (fail, σ') ∧ (σ' = σ ∨ σ' = y.2)) :
    x.map f id = y.map f id ∨ ∃ σ', x.map f id = (f fail, σ') ∧ (σ' = σ ∨ σ' = (y.map f id).2) := by
  rcases h with rfl | ⟨σ', rfl, h⟩
  · exact .inl rfl
  · exact .inr ⟨σ', rfl, h⟩

omit [DecidableEq X] in
/-- A call over a connection is as without faults, or fails with the database as before or as after the call. -/
theorem callOn_cases (f : Fault) (t : Table F) (zero : F → X) (a : Call F X) (hw : Whole E.g f a) (σ : Sql.Store V) :
    callOn E br K f t zero a σ = Program.call E br K t zero a σ ∨
      ∃ σ', callOn E br K f t zero a σ = (failure a, σ') ∧ (σ' = σ ∨ σ' = (Program.call E br K t zero a σ).2) := by
  cases a with
  | one o => exact map_cases (performOn_cases f t o σ)
  | insert rs =>
    refine map_cases (runManyOn_cases _ t ?_ rs _ σ)
    rintro hp n kept rfl
    simp [Whole, hp] at hw
  | upsert w rs =>
    refine map_cases (runManyOn_cases _ t ?_ rs _ σ)
    rintro hp n kept rfl
    simp [Whole, hp] at hw
  | upsertOne w r => exact map_cases (upsertOneOn_cases _ f t w r σ)
  | query q =>
    refine map_cases (runStmtOn_cases (looped_single ?_) rfl _ σ)
    rintro n kept rfl
    exact hw
  | first q => exact map_cases (runStmtOn_cases (fun _ _ => rfl) rfl _ σ)
  | change u => exact map_cases (runStmtOn_cases (fun _ _ => rfl) rfl _ σ)
  | remove u => exact map_cases (runStmtOn_cases (fun _ _ => rfl) rfl _ σ)

omit [DecidableEq X] in
private theorem runManyOn_fine (ru : Rules) (t : Table F) (rs : List (F → X)) (q : Res (Option (Txt × List V))) (σ : Sql.Store V) :
    runManyOn E ru .fine t rs q σ = runMany E ru t rs q σ := by
  unfold runManyOn runMany
  rcases q with (_ | q) | _ | _
  · rfl
  · cases E.g.postgres <;> rfl
  · rfl
  · rfl

omit [DecidableEq X] in
/-- Without faults, a call is that of `Model/Program.lean`. -/
theorem callOn_fine (t : Table F) (zero : F → X) (a : Call F X) (σ : Sql.Store V) :
    callOn E br K .fine t zero a σ = Program.call E br K t zero a σ := by
  cases a with
  | one o => cases o <;> rfl
  | insert rs => simp only [callOn, Program.call, insertManyOn, insertMany, runManyOn_fine]
  | upsert w rs => simp only [callOn, Program.call, upsertManyOn, upsertMany, runManyOn_fine]
  | _ => rfl

omit [DecidableEq X] in
private theorem performOn_after (t : Table F) (o : Spec.Store.Op F X) (σ : Sql.Store V) :
    performOn E .after t o σ = (.failed, (perform E t o σ).2) := by
  cases o with
  | insert r =>
    simp only [performOn, performVia, perform, insertOne, insertVia]
    split
    · simp only [sendTo_single]
      cases E.g.postgres <;> cases t.autoCol <;> rfl
    · rfl
  | find r =>
    simp only [performOn, performVia, perform, findByPK, findVia]
    split
    · simp only [sendTo_single]; rfl
    · rfl
  | update r =>
    simp only [performOn, performVia, perform, updateByPK, updateVia]
    split
    · simp only [sendTo_single]; rfl
    · rfl
  | delete r =>
    simp only [performOn, performVia, perform, deleteByPK, deleteVia]
    split
    · simp only [sendTo_single]; rfl
    · rfl

omit [DecidableEq X] in
theorem callOn_after (t : Table F) (zero : F → X) (o : Spec.Store.Op F X) (σ : Sql.Store V) :
    callOn E br K .after t zero (.one o) σ = (.one .failed, (Program.call E br K t zero (.one o) σ).2) := by
  simp only [callOn, performOn_after]
  rfl

/-- C103, for one call. However the connection fails, short of an answer that is cut while a helper goes through its rows, the
call is done and tells so, or returns an error and is done or not done as a whole; other tables are as they were. -/
theorem C103_once_partial {O : Comp F X} {t : Table F} (hr : Ready E Ok K O t) (hg : Meant E.g br) (zero : F → X) (f : Fault)
    {a : Call F X} (ha : Sound E Ok br t a) (hw : Whole E.g f a) {m : Map F X} {σ : Sql.Store V} (hk : Keeps E Ok t m σ) :
    ∃ reply m' σ', callOn E br K f t zero a σ = (reply, σ') ∧ Tries E.g O t zero m a reply m' ∧ After E Ok t m' σ σ' := by
  obtain ⟨reply, m', σ', e, hd, h'⟩ := call_does hr hg zero ha hk
  rcases callOn_cases (br := br) (K := K) f t zero a hw σ with h | ⟨σ1, h, h1 | h1⟩
  · exact ⟨reply, m', σ', by rw [h, e], .does hd, h'⟩
  · exact ⟨_, m, σ, by rw [h, h1], .never, hk, fun _ _ => rfl⟩
  · exact ⟨_, m', σ', by rw [h, h1, e], .lost hd, h'⟩

section
variable {I C : Type} [DecidableEq I] [DecidableEq C] {O : I → Comp F X} {t : I → Table F} {zero : I → F → X}
  {clients : C → Client I F X}

omit [DecidableEq V] in
theorem comes_after {g : Cfg} {c : C} {h : Histories C F X} {M : I → Map F X} {i : I} {a : Call F X} {reply : Reply F X} {m : Map F X}
    (hcl : clients c (h c) = some (i, a)) (hd : Tries g (O i) (t i) (zero i) (M i) a reply m) {d : C} {j : I} {b : Call F X}
    (hb : Comes g O t zero clients (heard h c reply) (Spec.Program.change M i m) d j b) : Comes g O t zero clients h M d j b := by
  obtain ⟨cs, h', M', hr, e⟩ := hb
  exact ⟨c :: cs, h', M', .call hcl hd hr, e⟩

/-- C103, for clients that use the helpers at the same time over connections that fail: what they get is what they would get from
maps of records with calls that are done as a whole, or not at all and then with an error. -/
theorem C103_serial_partial (hg : Meant E.g br) (hr : ∀ i, Ready E Ok K (O i) (t i))
    (hd : ∀ i j, tableName E.D (t i) = tableName E.D (t j) → i = j)
    (cs : List (C × Fault)) (h : Histories C F X) (M : I → Map F X)
    (hc : ∀ c i a, Comes E.g O t zero clients h M c i a → Sound E Ok br (t i) a)
    (hw : ∀ x ∈ cs, ∀ i a, Comes E.g O t zero clients h M x.1 i a → Whole E.g x.2 a)
    (σ : Sql.Store V) (hk : ∀ i, Keeps E Ok (t i) (M i) σ) :
    ∃ M', Attempts E.g O t zero clients (cs.map (·.1)) h M (playOn E br K t zero clients cs h σ).1 M' ∧
      (∀ i, Keeps E Ok (t i) (M' i) (playOn E br K t zero clients cs h σ).2) ∧
      ∀ n, (∀ i, n ≠ tableName E.D (t i)) → (playOn E br K t zero clients cs h σ).2 n = σ n := by
  induction cs generalizing h M σ with
  | nil => exact ⟨M, .nil, hk, fun _ _ => rfl⟩
  | cons cf cs ih =>
    obtain ⟨c, f⟩ := cf
    cases hcl : clients c (h c) with
    | none =>
      obtain ⟨M', h1, h2, h3⟩ := ih h M hc (fun x hx => hw x (by simp [hx])) σ hk
      simp only [playOn, hcl]
      exact ⟨M', .idle hcl h1, h2, h3⟩
    | some ia =>
      obtain ⟨i, a⟩ := ia
      have hcome : Comes E.g O t zero clients h M c i a := ⟨[], h, M, .nil, hcl⟩
      obtain ⟨reply, m', σ', e, hdoes, hk', hn⟩ :=
        C103_once_partial (hr i) hg (zero i) f (hc c i a hcome) (hw (c, f) (by simp) i a hcome) (hk i)
      have hk2 : ∀ j, Keeps E Ok (t j) (change M i m' j) σ' := by
        intro j
        by_cases hj : j = i
        · subst hj
          simpa [Spec.Program.change] using hk'
        · obtain ⟨rows, hσ, hh⟩ := hk j
          simp only [Spec.Program.change, hj, if_false]
          exact ⟨rows, by rw [hn _ (fun e => hj (hd j i e)), hσ], hh⟩
      obtain ⟨M', h1, h2, h3⟩ := ih (heard h c reply) _ (fun d j b hb => hc d j b (comes_after hcl hdoes hb))
        (fun x hx j b hb => hw x (by simp [hx]) j b (comes_after hcl hdoes hb)) σ' hk2
      simp only [playOn, hcl, e]
      exact ⟨M', .call hcl hdoes h1, h2, fun n hne => by rw [h3 n hne, hn n (hne i)]⟩

end

end Verif.Props

import Verif.Model.Program
import Verif.Props.Bulk
import Verif.Props.Cond

/-!
# Property C98: programs of several clients on several models
-/

namespace Verif.Props

open Verif Verif.Gen Verif.Spec Verif.Spec.Gen Verif.Spec.Sql Verif.Spec.Store Verif.Store Verif.Spec.Program Verif.Program

variable {F X V : Type} [DecidableEq F] [DecidableEq X] [DecidableEq V]

/-- What is assumed of a model and the database: as in C90 to C92. -/
structure Ready (E : Env F X V) (Ok : F → X → Prop) (K : Compare V) (O : Comp F X) (t : Table F) : Prop where
  setup : FullSetup E t Ok
  agrees : Agrees K E.null E.enc Ok t O
  spelled : Spelled E.g E.D t
  fields : (t.columns.map (·.field)).Nodup
  auto : t.auto = none ∨ ∃ c, t.autoCol = some c ∧ pick t (insertPos t) ≠ [] ∧ MadeUp E t Ok c

/-- The generator was run for this database. -/
structure Meant (g : Cfg) (br : Brand) : Prop where
  postgres : g.postgres = decide (br = .postgres)
  style : g.style = if g.postgres then .numbered else .anon

/-- What batch helpers need: keys that the program gives, and names that they write (C91). -/
def Batch (E : Env F X V) (t : Table F) : Prop := t.auto = none ∧ HelperNames E.g E.D t

/-- Calls with good values and proper conditions, of the kinds that work with the database (C90, C91, C92). -/
def Sound (E : Env F X V) (Ok : F → X → Prop) (br : Brand) (t : Table F) : Call F X → Prop
  | .one o => Fine Ok t o
  | .insert rs => Batch E t ∧ ∀ r ∈ rs, Good Ok t r
  | .upsert w rs => Batch E t ∧ br ≠ .sqlite ∧ (w.keep = true ∨ replaced E.g t w ≠ []) ∧ rs ≠ [] ∧ ∀ r ∈ rs, Good Ok t r
  | .upsertOne w r => Batch E t ∧ br ≠ .sqlite ∧ (w.keep = true ∨ replaced E.g t w ≠ []) ∧
      (br = .postgres ∨ w.keep = true ∨ (pick t (keyPos t)).length = 1) ∧ Good Ok t r
  | .query q => ProperQuery Ok t q ∧ (q.select = [] ∨ q.select = t.columns) ∧ (q.offset = 0 ∨ q.limit ≠ 0 ∨ br = .postgres)
  | .first q => ProperQuery Ok t q ∧ (q.select = [] ∨ q.select = t.columns)
  | .change u => ProperChange Ok t u ∧ u.set ≠ [] ∧ (u.set.map (·.1)).Nodup ∧ (∀ p ∈ u.set, p.1 ∉ pick t (keyPos t)) ∧
      Allowed br u.orderBy u.limit
  | .remove u => ProperRemoval Ok t u ∧ Allowed br u.orderBy u.limit

variable {E : Env F X V} {Ok : F → X → Prop} {K : Compare V} {br : Brand}

omit [DecidableEq F] [DecidableEq X] [DecidableEq V] in
theorem meant_rules (hg : Meant E.g br) (hs : br ≠ .sqlite) : rules br = rulesOf E.g := by
  have := hg.postgres
  unfold rulesOf rules
  rw [this]
  cases br <;> simp at hs ⊢

omit [DecidableEq F] [DecidableEq X] [DecidableEq V] in
theorem meant_limit (hg : Meant E.g br) {o : List (GCol F × Bool)} {n : Nat} (h : Allowed br o n) : E.g.style = .numbered → n = 0 := by
  intro hst
  rcases h with rfl | h
  · have := hg.postgres
    rw [hg.style, this] at hst
    simp at hst
  · exact h.2

/-- Each call does what it is to do, and nothing to other tables. -/
theorem call_does {O : Comp F X} {t : Table F} (hr : Ready E Ok K O t) (hg : Meant E.g br) (zero : F → X) {a : Call F X}
    (ha : Sound E Ok br t a) {m : Map F X} {σ : Sql.Store V} (hk : Keeps E Ok t m σ) :
    ∃ reply m' σ', Program.call E br K t zero a σ = (reply, σ') ∧ Does E.g O t zero m a reply m' ∧ After E Ok t m' σ σ' := by
  have h := hr.setup
  have hpb : E.g.postgres = true ↔ br = .postgres := by rw [hg.postgres]; simp
  cases a with
  | one o =>
    have hstep : ∃ out m' σ', perform E t o σ = (out, σ') ∧ Act t o m out m' ∧ After E Ok t m' σ σ' := by
      by_cases hno : t.auto = none ∨ ∀ r, o ≠ .insert r
      · obtain ⟨σ', e, h'⟩ := perform_ok h.toSetup h.writable hno ha hk
        refine ⟨_, _, σ', e, ?_, h'⟩
        rcases hno with hn | hn
        · have : t.autoCol = none := by simp [Table.autoCol, hn]
          unfold Act
          rw [this]
          cases o <;> rfl
        · cases o with
          | insert r => exact absurd rfl (hn r)
          | find r => simp [Act]
          | update r => simp [Act]
          | delete r => simp [Act]
      · rw [not_or] at hno
        obtain ⟨c, hc, hi, hx⟩ := hr.auto.resolve_left hno.1
        obtain ⟨r, rfl⟩ : ∃ r, o = .insert r := by
          by_contra hne
          exact hno.2 fun r e => hne ⟨r, e⟩
        obtain ⟨rows, hσ, hh⟩ := hk
        exact insert_auto h.toSetup h.writable hc hr.fields hi hx hh hσ (r := r) ha.1
    obtain ⟨out, m', σ', e, h1, h2⟩ := hstep
    exact ⟨.one out, m', σ', by simp [Program.call, e], .one h1, h2⟩
  | insert rs =>
    obtain ⟨⟨hau, hn⟩, hgood⟩ := ha
    have hru : E.g.postgres = true → rules br = .onConflict := fun hp => by rw [hpb.1 hp]; rfl
    obtain ⟨h1, h2⟩ := C91_insert h hr.fields hn hg.style hau hru hk rs hgood
    by_cases hc : (rs.map (keyOf t)).Nodup ∧ ∀ r ∈ rs, m (keyOf t r) = none
    · obtain ⟨σ', e, h'⟩ := h1 hc
      exact ⟨_, _, σ', by simp [Program.call, e], .insert hc.1 hc.2, h'⟩
    · exact ⟨_, _, σ, by simp [Program.call, h2 hc], .taken hc, hk, fun _ _ => rfl⟩
  | upsert w rs =>
    obtain ⟨⟨hau, hn⟩, hsq, hw, hne, hgood⟩ := ha
    simp only [Program.call, meant_rules hg hsq]
    cases hkp : w.keep with
    | true =>
      obtain ⟨rs', σ', e, h1, h2⟩ := C91_upsert_keep_partial h hr.fields hn hg.style hau w hkp hk hne hgood
      exact ⟨_, _, σ', by simp [e], .keep hkp h1, h2⟩
    | false =>
      have hw' := hw.resolve_left (by simp [hkp])
      by_cases hd : (rs.map (keyOf t)).Nodup
      · obtain ⟨σ', e, h'⟩ := C91_upsert_replace h hr.fields hn hg.style hau w hkp hw' hk hne hgood hd
        exact ⟨_, _, σ', by rw [e]; rfl, .replace hkp hd, h'⟩
      · obtain ⟨h1, h2⟩ := C91_upsert_repeated h hr.fields hn hg.style hau w hkp hw' hk hgood hd
        cases hp : E.g.postgres with
        | true => exact ⟨_, _, σ, by simp [h1 hp], .refuse hkp hd hp, hk, fun _ _ => rfl⟩
        | false =>
          obtain ⟨m', ss, σ', h3, e, h4⟩ := h2 hp
          exact ⟨_, _, σ', by simp [e], .repeated hkp hd hp h3, h4⟩
  | upsertOne w r =>
    obtain ⟨⟨hau, hn⟩, hsq, hw, hkk, hgood⟩ := ha
    obtain ⟨h1, h2⟩ := C91_upsert_one h hr.fields hn hg.style hau w hw (by rw [hpb]; exact hkk) hk hgood
    simp only [Program.call, meant_rules hg hsq]
    by_cases hc : w.keep = true ∧ m (keyOf t r) ≠ none
    · obtain ⟨σ', e, h'⟩ := h1 hc
      exact ⟨_, _, σ', by simp [e], .keepOne hc.1 hc.2, h'⟩
    · obtain ⟨σ', e, h'⟩ := h2 hc
      exact ⟨_, _, σ', by rw [e]; rfl, .storeOne hc, h'⟩
  | query q =>
    obtain ⟨l, hl, e⟩ := C92_query_partial E t Ok K O br h.toSetup hr.agrees hr.spelled m σ hk q ha.1 ha.2.1 ha.2.2 zero
    exact ⟨_, _, σ, by simp [Program.call, e], .query hl, hk, fun _ _ => rfl⟩
  | first q =>
    obtain ⟨l, hl, e⟩ := C92_query_one_partial E t Ok K O br h.toSetup hr.agrees hr.spelled m σ hk q ha.1 ha.2 zero
    cases l with
    | nil => exact ⟨_, _, σ, by simp [Program.call, e], .none hl, hk, fun _ _ => rfl⟩
    | cons s l => exact ⟨_, _, σ, by simp [Program.call, e], .first hl, hk, fun _ _ => rfl⟩
  | change u =>
    obtain ⟨l, σ', hl, e, h1, h2⟩ := C92_update_partial E t Ok K O br h.toSetup hr.agrees hr.spelled hr.fields m σ hk u ha.1 ha.2.1
      ha.2.2.1 ha.2.2.2.1 (meant_limit hg ha.2.2.2.2) ha.2.2.2.2
    exact ⟨_, _, σ', by simp [Program.call, e], .change hl, h1, h2⟩
  | remove u =>
    obtain ⟨l, σ', hl, e, h1, h2⟩ := C92_delete_partial E t Ok K O br h.toSetup hr.agrees hr.spelled m σ hk u ha.1
      (meant_limit hg ha.2) ha.2
    exact ⟨_, _, σ', by simp [Program.call, e], .remove hl, h1, h2⟩

section
variable {I C : Type} [DecidableEq I] [DecidableEq C] {O : I → Comp F X} {t : I → Table F} {zero : I → F → X}
  {clients : C → Client I F X}

omit [DecidableEq V] in
theorem calls_after {g : Cfg} {c : C} {h : Histories C F X} {M : I → Map F X} {i : I} {a : Call F X} {reply : Reply F X} {m : Map F X}
    (hcl : clients c (h c) = some (i, a)) (hd : Does g (O i) (t i) (zero i) (M i) a reply m) {j : I} {b : Call F X}
    (hb : Calls g O t zero clients (heard h c reply) (Spec.Program.change M i m) j b) : Calls g O t zero clients h M j b := by
  obtain ⟨cs, d, h', M', hr, e⟩ := hb
  exact ⟨c :: cs, d, h', M', .call hcl hd hr, e⟩

/-- C98. Clients that use the helpers at the same time, on models with tables of different names: whatever the clients do next
after what they got, and whatever the order in which the calls come, what they get is what they would get from maps of records,
each call being done as a whole; the tables have the records of the maps afterwards, and other tables are as they were. -/
theorem C98_serial_partial (hg : Meant E.g br) (hr : ∀ i, Ready E Ok K (O i) (t i))
    (hd : ∀ i j, tableName E.D (t i) = tableName E.D (t j) → i = j)
    (cs : List C) (h : Histories C F X) (M : I → Map F X)
    (hc : ∀ i a, Calls E.g O t zero clients h M i a → Sound E Ok br (t i) a)
    (σ : Sql.Store V) (hk : ∀ i, Keeps E Ok (t i) (M i) σ) :
    ∃ M', Runs E.g O t zero clients cs h M (play E br K t zero clients cs h σ).1 M' ∧
      (∀ i, Keeps E Ok (t i) (M' i) (play E br K t zero clients cs h σ).2) ∧
      ∀ n, (∀ i, n ≠ tableName E.D (t i)) → (play E br K t zero clients cs h σ).2 n = σ n := by
  induction cs generalizing h M σ with
  | nil => exact ⟨M, .nil, hk, fun _ _ => rfl⟩
  | cons c cs ih =>
    cases hcl : clients c (h c) with
    | none =>
      obtain ⟨M', h1, h2, h3⟩ := ih h M hc σ hk
      simp only [play, hcl]
      exact ⟨M', .idle hcl h1, h2, h3⟩
    | some ia =>
      obtain ⟨i, a⟩ := ia
      obtain ⟨reply, m', σ', e, hdoes, hk', hn⟩ := call_does (hr i) hg (zero i) (hc i a ⟨[], c, h, M, .nil, hcl⟩) (hk i)
      have hk2 : ∀ j, Keeps E Ok (t j) (change M i m' j) σ' := by
        intro j
        by_cases hj : j = i
        · subst hj
          simpa [Spec.Program.change] using hk'
        · obtain ⟨rows, hσ, hh⟩ := hk j
          simp only [Spec.Program.change, hj, if_false]
          exact ⟨rows, by rw [hn _ (fun e => hj (hd j i e)), hσ], hh⟩
      obtain ⟨M', h1, h2, h3⟩ := ih (heard h c reply) _ (fun j b hb => hc j b (calls_after hcl hdoes hb)) σ' hk2
      simp only [play, hcl, e]
      exact ⟨M', .call hcl hdoes h1, h2, fun n hne => by rw [h3 n hne, hn n (hne i)]⟩

/-! ### Keys that are kept away from -/

omit [DecidableEq F] [DecidableEq I] [DecidableEq C] in
private theorem found_key {O : Comp F X} {t : Table F} {m : Map F X} {w : Option (Cond F X)} {o : List (GCol F × Bool)}
    {l : List (F → X)} (hl : Found O t m w o l) {k : List X} (hs : ∀ s, keyOf t s = k → ¬ Meets O w s) (n : Nat) :
    ((firstOf n l).map (keyOf t)).contains k = false := by
  rw [← Bool.not_eq_true, List.contains_iff_mem, List.mem_map]
  rintro ⟨s, hm, rfl⟩
  have : s ∈ l := by
    unfold firstOf at hm
    split at hm
    · exact hm
    · exact List.mem_of_mem_take hm
  exact hs s rfl ((hl.exactly s).1 this).2

omit [DecidableEq F] [DecidableEq I] [DecidableEq C] in
private theorem withKey_none {t : Table F} {rs : List (F → X)} {k : List X} (h : ∀ r ∈ rs, keyOf t r ≠ k) : withKey t rs k = none := by
  rw [withKey_mem, List.mem_map]
  rintro ⟨r, hr, e⟩
  exact h r hr e

omit [DecidableEq I] [DecidableEq C] in
private theorem storeAll_other {t : Table F} {e : Existing} {upd : List F} {rs : List (F → X)} {m m' : Map F X} {ss : List (F → X)}
    (h : storeAll t e upd rs m = some (m', ss)) {k : List X} (hk : ∀ r ∈ rs, keyOf t r ≠ k) : m' k = m k := by
  induction rs generalizing m ss with
  | nil => simp only [storeAll, Option.some.injEq, Prod.mk.injEq] at h; rw [h.1]
  | cons r rs ih =>
    simp only [storeAll, Option.bind_eq_some_iff, Option.map_eq_some_iff, Prod.mk.injEq] at h
    obtain ⟨⟨m1, s1⟩, h1, ⟨m2, ss2⟩, h2, h3, -⟩ := h
    have hne : k ≠ keyOf t r := fun e => hk r (by simp) e.symm
    simp only at h3
    subst h3
    rw [ih h2 fun r hr => hk r (by simp [hr])]
    unfold store at h1
    split at h1 <;> simp only [Option.some.injEq, Prod.mk.injEq, reduceCtorEq] at h1
    · rw [← h1.1]; simp [put, hne]
    · rw [h1.1]
    · rw [← h1.1]; simp [put, hne]

omit [DecidableEq I] [DecidableEq C] in
private theorem storeAll_stays {t : Table F} {e : Existing} {upd : List F} {rs : List (F → X)} {m m' : Map F X} {ss : List (F → X)}
    (h : storeAll t e upd rs m = some (m', ss)) {k : List X} (hk : m k ≠ none) : m' k ≠ none := by
  induction rs generalizing m ss with
  | nil => simp only [storeAll, Option.some.injEq, Prod.mk.injEq] at h; rwa [← h.1]
  | cons r rs ih =>
    simp only [storeAll, Option.bind_eq_some_iff, Option.map_eq_some_iff, Prod.mk.injEq] at h
    obtain ⟨⟨m1, s1⟩, h1, ⟨m2, ss2⟩, h2, h3, -⟩ := h
    simp only at h3
    subst h3
    refine ih h2 ?_
    unfold store at h1
    split at h1 <;> simp only [Option.some.injEq, Prod.mk.injEq, reduceCtorEq] at h1
    · rw [← h1.1]; simp only [put]; split <;> simp [hk]
    · rwa [← h1.1]
    · rw [← h1.1]; simp only [put]; split <;> simp [hk]

omit [DecidableEq I] [DecidableEq C] in
/-- A call that keeps away from a key leaves what is under it. -/
theorem does_spares {g : Cfg} {O : Comp F X} {t : Table F} {zero : F → X} {m m' : Map F X} {a : Call F X} {reply : Reply F X}
    (h : Does g O t zero m a reply m') {k : List X} (hs : Spares O t k a) (hk : m k ≠ none ∨ t.autoCol = none) : m' k = m k := by
  cases h with
  | @one o out _ h =>
    cases o with
    | insert r =>
      cases hac : t.autoCol with
      | some c =>
        simp only [Act, hac] at h
        obtain ⟨x, hx, e⟩ := h
        cases e
        have : k ≠ [x] := fun e => hk.elim (fun hk => hk (e ▸ hx)) fun hn => by simp [hac] at hn
        simp [put, this]
      | none =>
        unfold Act at h
        rw [hac] at h
        have hne : k ≠ keyOf t r := fun e => hs hac e.symm
        simp only [act] at h
        split at h <;> cases h
        · rfl
        · simp [put, hne]
    | find r =>
      simp only [Act, act] at h
      split at h <;> cases h <;> rfl
    | update r =>
      have hne : k ≠ keyOf t r := fun e => hs e.symm
      simp only [Act, act] at h
      split at h <;> cases h
      · simp [put, hne]
      · rfl
    | delete r =>
      have hne : k ≠ keyOf t r := fun e => hs e.symm
      simp only [Act, act] at h
      cases h
      simp [put, hne]
  | insert h1 h2 => simp [withKey_none hs]
  | taken h1 => rfl
  | replace h1 h2 => simp [withKey_none hs]
  | refuse => rfl
  | repeated h1 h2 h3 h4 => exact storeAll_other h4 hs
  | keep h1 h2 => simp [withKey_none hs]
  | keepOne h1 h2 => rfl
  | storeOne h1 =>
    have hne : k ≠ keyOf t _ := fun e => hs e.symm
    simp [put, hne]
  | query => rfl
  | none => rfl
  | first => rfl
  | change hl => simp only [setIn, found_key hl hs, Bool.false_eq_true, if_false, Option.map_id']
  | remove hl => simp only [removeFrom, found_key hl hs, Bool.false_eq_true, if_false]

omit [DecidableEq I] [DecidableEq C] in
/-- A call that does not remove what is under a key leaves something there. -/
theorem does_leaves {g : Cfg} {O : Comp F X} {t : Table F} {zero : F → X} {m m' : Map F X} {a : Call F X} {reply : Reply F X}
    (h : Does g O t zero m a reply m') {k : List X} (hs : Leaves O t k a) (hk : m k ≠ none) : m' k ≠ none := by
  have hput : ∀ (k' : List X) (s : F → X), put m k' (some s) k ≠ none := by
    intro k' s
    simp only [put]
    split <;> simp [hk]
  obtain ⟨s, hs'⟩ := Option.ne_none_iff_exists'.1 hk
  cases h with
  | @one o out _ h =>
    cases o with
    | insert r =>
      cases hac : t.autoCol with
      | some c =>
        simp only [Act, hac] at h
        obtain ⟨x, hx, e⟩ := h
        cases e
        exact hput _ _
      | none =>
        unfold Act at h
        rw [hac] at h
        simp only [act] at h
        split at h <;> cases h
        · exact hk
        · exact hput _ _
    | find r =>
      simp only [Act, act] at h
      split at h <;> cases h <;> exact hk
    | update r =>
      simp only [Act, act] at h
      split at h <;> cases h
      · exact hput _ _
      · exact hk
    | delete r =>
      have hne : k ≠ keyOf t r := fun e => hs e.symm
      simp only [Act, act] at h
      cases h
      simp [put, hne, hk]
  | insert h1 h2 => simp [hs']
  | taken h1 => exact hk
  | replace h1 h2 => simp [hs']
  | refuse => exact hk
  | repeated h1 h2 h3 h4 => exact storeAll_stays h4 hk
  | keep h1 h2 => simp [hs']
  | keepOne h1 h2 => exact hk
  | storeOne h1 => exact hput _ _
  | query => exact hk
  | none => exact hk
  | first => exact hk
  | change hl => simp [setIn, hs']
  | remove hl => simpa only [removeFrom, found_key hl hs, Bool.false_eq_true, if_false] using hk

theorem runs_spares {g : Cfg} {i : I} {k : List X} {cs : List C} {h h' : Histories C F X} {M M' : I → Map F X}
    (hr : Runs g O t zero clients cs h M h' M') (hs : ∀ a, Calls g O t zero clients h M i a → Spares (O i) (t i) k a) (hk : M i k ≠ none) :
    M' i k = M i k := by
  induction hr with
  | nil => rfl
  | idle _ _ ih => exact ih hs hk
  | @call c cs h M h' M' j a reply m hcl hdo _ ih =>
    have hstep : Spec.Program.change M j m i k = M i k := by
      by_cases hj : i = j
      · subst hj
        simpa [Spec.Program.change] using does_spares hdo (hs a ⟨[], c, h, M, .nil, hcl⟩) (.inl hk)
      · simp [Spec.Program.change, hj]
    rw [ih (fun b hb => hs b (calls_after hcl hdo hb)) (by rwa [hstep]), hstep]

/-- C98, for a record that nobody else writes or removes: whatever the clients do besides, `FindByPK` has what was stored. -/
theorem C98_undisturbed_partial (hg : Meant E.g br) (hr : ∀ i, Ready E Ok K (O i) (t i))
    (hd : ∀ i j, tableName E.D (t i) = tableName E.D (t j) → i = j)
    (cs : List C) (h : Histories C F X) (M : I → Map F X)
    (hc : ∀ i a, Calls E.g O t zero clients h M i a → Sound E Ok br (t i) a) (i : I) (r s : F → X) (hgood : Good Ok (t i) r)
    (hs : ∀ a, Calls E.g O t zero clients h M i a → Spares (O i) (t i) (keyOf (t i) r) a) (σ : Sql.Store V) (hk : ∀ i, Keeps E Ok (t i) (M i) σ) (hm : M i (keyOf (t i) r) = some s) :
    (findByPK E (t i) r (play E br K t zero clients cs h σ).2).1 = .ok (load (t i) s r) := by
  obtain ⟨M', h1, h2, -⟩ := C98_serial_partial (zero := zero) hg hr hd cs h M hc σ hk
  have h3 := runs_spares h1 hs (by simp [hm])
  obtain ⟨rows, hσ, hh⟩ := h2 i
  obtain ⟨h4, -⟩ := find_ok (hr i).setup.toSetup hh hσ (r := r) hgood
  rw [h4]
  simp [act, h3, hm]

/-! ### Inserts at the same time -/

omit [DecidableEq F] [DecidableEq X] [DecidableEq I] in
private theorem wins_heard {h : Histories C F X} {c : C} {reply : Reply F X} {i : I} {k : List X} {d : C} {n : Nat}
    (hw : Wins t clients (heard h c reply) i k d n) :
    Wins t clients h i k d n ∨ d = c ∧ n = (h c).length ∧ ∃ r a, clients c (h c) = some (i, .one (.insert r)) ∧
      keyOf (t i) r = k ∧ reply = .one (.ok a) := by
  obtain ⟨r, a, h1, h2, h3⟩ := hw
  by_cases hd : d = c
  · subst hd
    simp only [heard, if_true] at h1 h3
    by_cases hn : n < (h d).length
    · left
      rw [List.getElem?_append_left hn] at h3
      rw [List.take_append_of_le_length (Nat.le_of_lt hn)] at h1
      exact ⟨r, a, h1, h2, h3⟩
    · right
      have hlt : n < (h d ++ [reply]).length := by
        by_contra hge
        rw [List.getElem?_eq_none (by omega)] at h3
        cases h3
      simp only [List.length_append, List.length_cons, List.length_nil] at hlt
      have hn' : n = (h d).length := by omega
      subst hn'
      rw [List.getElem?_append_right (Nat.le_refl _)] at h3
      simp only [Nat.sub_self, List.getElem?_cons_zero, Option.some.injEq] at h3
      rw [List.take_append_of_le_length (Nat.le_refl _), List.take_length] at h1
      exact ⟨rfl, rfl, r, a, h1, h2, h3⟩
  · left
    simp only [heard, hd, if_false] at h1 h3
    exact ⟨r, a, h1, h2, h3⟩

private theorem one_winner {g : Cfg} {i : I} (ha : (t i).autoCol = none) {k : List X} {cs : List C}
    {h h' : Histories C F X} {M M' : I → Map F X} (hr : Runs g O t zero clients cs h M h' M')
    (hs : ∀ a, Calls g O t zero clients h M i a → Leaves (O i) (t i) k a)
    (h1 : ∀ c n, Wins t clients h i k c n → M i k ≠ none)
    (h2 : ∀ c n c' n', Wins t clients h i k c n → Wins t clients h i k c' n' → c = c' ∧ n = n') :
    ∀ c n c' n', Wins t clients h' i k c n → Wins t clients h' i k c' n' → c = c' ∧ n = n' := by
  induction hr with
  | nil => exact h2
  | idle _ _ ih => exact ih hs h1 h2
  | @call c cs h M h' M' j a reply m hcl hdo _ ih =>
    have hkeep : M i k ≠ none → Spec.Program.change M j m i k ≠ none := by
      intro hk
      by_cases hj : i = j
      · subst hj
        simpa [Spec.Program.change] using does_leaves hdo (hs a ⟨[], c, h, M, .nil, hcl⟩) hk
      · simpa [Spec.Program.change, hj] using hk
    have hnew : ∀ r x, a = .one (.insert r) → j = i → keyOf (t i) r = k → reply = .one (.ok x) →
        M i k = none ∧ Spec.Program.change M j m i k ≠ none := by
      rintro r x rfl rfl hkey rfl
      cases hdo with
      | one h =>
        unfold Act at h
        rw [ha] at h
        simp only [act, hkey] at h
        split at h
        · cases h
        · next hn =>
          cases h
          refine ⟨by simpa using hn, by simp [Spec.Program.change, put]⟩
    refine ih (fun b hb => hs b (calls_after hcl hdo hb)) ?_ ?_
    · intro d n hw
      rcases wins_heard hw with hw | ⟨rfl, rfl, r, x, hcl', hkey, hrep⟩
      · exact hkeep (h1 d n hw)
      · rw [hcl] at hcl'
        simp only [Option.some.injEq, Prod.mk.injEq] at hcl'
        exact (hnew r x hcl'.2 hcl'.1 hkey hrep).2
    · intro d n d' n' hw hw'
      rcases wins_heard hw with w1 | ⟨e1, e2, r, x, hcl', hkey, hrep⟩ <;>
        rcases wins_heard hw' with w2 | ⟨e3, e4, r', x', hcl'', hkey', hrep'⟩
      · exact h2 d n d' n' w1 w2
      · rw [hcl] at hcl''
        simp only [Option.some.injEq, Prod.mk.injEq] at hcl''
        exact absurd (hnew r' x' hcl''.2 hcl''.1 hkey' hrep').1 (h1 d n w1)
      · rw [hcl] at hcl'
        simp only [Option.some.injEq, Prod.mk.injEq] at hcl'
        exact absurd (hnew r x hcl'.2 hcl'.1 hkey hrep).1 (h1 d' n' w2)
      · exact ⟨e1.trans e3.symm, e2.trans e4.symm⟩

/-- C98, for several clients that insert a record under the same key, which nobody removes: at most one of these calls succeeds. -/
theorem C98_one_winner_partial (hg : Meant E.g br) (hr : ∀ i, Ready E Ok K (O i) (t i))
    (hd : ∀ i j, tableName E.D (t i) = tableName E.D (t j) → i = j)
    (cs : List C) (M : I → Map F X) (hc : ∀ i a, Calls E.g O t zero clients (fun _ => []) M i a → Sound E Ok br (t i) a)
    (i : I) (ha : (t i).auto = none) (k : List X)
    (hs : ∀ a, Calls E.g O t zero clients (fun _ => []) M i a → Leaves (O i) (t i) k a) (σ : Sql.Store V) (hk : ∀ i, Keeps E Ok (t i) (M i) σ) (c c' : C) (n n' : Nat)
    (hw : Wins t clients (play E br K t zero clients cs (fun _ => []) σ).1 i k c n)
    (hw' : Wins t clients (play E br K t zero clients cs (fun _ => []) σ).1 i k c' n') : c = c' ∧ n = n' := by
  obtain ⟨M', h1, -⟩ := C98_serial_partial (zero := zero) hg hr hd cs (fun _ => []) M hc σ hk
  refine one_winner (by simp [Table.autoCol, ha]) h1 hs ?_ ?_ c n c' n' hw hw'
  · rintro c n ⟨r, a, -, -, h⟩; simp at h
  · rintro c n c' n' ⟨r, a, -, -, h⟩; simp at h

omit [DecidableEq X] in
private theorem keyOf_set {t : Table F} {r a : F → X} {f : F} {x : X} (hf : ∀ c ∈ pick t (keyPos t), c.field ≠ f)
    (h : keyOf t a = keyOf t r) : keyOf t (fun f' => if f' = f then x else a f') = keyOf t r := by
  rw [← h]
  unfold keyOf
  exact List.map_congr_left fun c hc => by simp [hf c hc]

omit [DecidableEq X] in
private theorem keyOf_load {t : Table F} (hw : ∀ c ∈ pick t (keyPos t), c ∈ t.columns) (s r : F → X) : keyOf t (load t s r) = keyOf t s := by
  unfold keyOf
  exact List.map_congr_left fun c hc => by simp only [load, if_pos (List.mem_map_of_mem (f := (·.field)) (hw c hc))]

omit [DecidableEq X] [DecidableEq I] in
private theorem play_cons {c : C} {cs : List C} {h : Histories C F X} {σ σ' : Sql.Store V} {i : I} {a : Call F X} {reply : Reply F X}
    (hcl : clients c (h c) = some (i, a)) (e : Program.call E br K (t i) (zero i) a σ = (reply, σ')) :
    play E br K t zero clients (c :: cs) h σ = play E br K t zero clients cs (heard h c reply) σ' := by
  simp only [play, hcl, e]

omit [DecidableEq X] in
private theorem call_one {t : Table F} {zero : F → X} {o : Spec.Store.Op F X} {σ : Sql.Store V} :
    Program.call E br K t zero (.one o) σ = (.one (perform E t o σ).1, (perform E t o σ).2) := rfl

/-- What C98 does not give: two clients that find the same record, set different fields, and update it.  The calls of both succeed,
and what the first of them set is lost, though the second did not set that field: `UpdateByPK` writes all columns. -/
theorem C98_lost_update {t : Table F} {O : Comp F X} {zero : Unit → F → X} (hr : Ready E Ok K O t) (f f' : F) (hne : f ≠ f')
    (hf : ∀ c ∈ pick t (keyPos t), c.field ≠ f) (hf' : ∀ c ∈ pick t (keyPos t), c.field ≠ f') (hc : f ∈ t.columns.map (·.field))
    (hc' : f' ∈ t.columns.map (·.field)) (hu : pick t (updatePos t) ≠ []) (x y : X) (hx : Ok f x) (hy : Ok f' y) (r s : F → X)
    (hgood : Good Ok t r) (m : Map F X) (σ : Sql.Store V) (hk : Keeps E Ok t m σ) (hm : m (keyOf t r) = some s) :
    ∃ a b h' σ', play E br K (fun _ => t) zero (fun c : Bool => if c then edit () r f x else edit () r f' y) [true, false, true, false]
        (fun _ => []) σ = (h', σ') ∧
      h' true = [.one (.ok (load t s r)), .one (.ok a)] ∧ a f = x ∧ h' false = [.one (.ok (load t s r)), .one (.ok b)] ∧
      ∃ z, (findByPK E t r σ').1 = .ok z ∧ z f = s f ∧ z f' = y := by
  have h := hr.setup
  have hkc : ∀ c ∈ pick t (keyPos t), c ∈ t.columns := fun c hc => mem_of_pick hc
  obtain ⟨hks, hgs⟩ : keyOf t s = keyOf t r ∧ Good Ok t s := by
    obtain ⟨rows, -, hh⟩ := hk
    exact ⟨(hh.stored _ _ hm).1, (hh.stored _ _ hm).2.1⟩
  have hkl : keyOf t (load t s r) = keyOf t r := by rw [keyOf_load hkc, hks]
  have hset : ∀ (e : F) (w : X), Ok e w → Good Ok t (fun f'' => if f'' = e then w else load t s r f'') := by
    intro e w hw c hcc
    by_cases he : c.field = e
    · subst he; simpa using hw
    · simp only [he, if_false, load, if_pos (List.mem_map_of_mem (f := (·.field)) hcc)]
      exact hgs c hcc
  have hfind : act t (.find r) m = (.ok (load t s r), m) := by simp [act, hm]
  obtain ⟨σ1, e1, k1, -⟩ := perform_ok h.toSetup h.writable (o := .find r) (.inr (by simp)) ⟨hgood, by simp⟩ hk
  rw [hfind] at e1 k1
  obtain ⟨σ2, e2, k2, -⟩ := perform_ok h.toSetup h.writable (o := .find r) (.inr (by simp)) ⟨hgood, by simp⟩ k1
  rw [hfind] at e2 k2
  let a : F → X := fun f'' => if f'' = f then x else load t s r f''
  let b : F → X := fun f'' => if f'' = f' then y else load t s r f''
  have ka : keyOf t a = keyOf t r := keyOf_set hf hkl
  have kb : keyOf t b = keyOf t r := keyOf_set hf' hkl
  obtain ⟨σ3, e3, k3, -⟩ := perform_ok h.toSetup h.writable (o := .update a) (.inr (by simp)) ⟨hset f x hx, fun _ _ => hu⟩ k2
  obtain ⟨σ4, e4, k4, -⟩ := perform_ok h.toSetup h.writable (o := .update b) (.inr (by simp)) ⟨hset f' y hy, fun _ _ => hu⟩ k3
  obtain ⟨rows, hσ, hh⟩ := k4
  have hz := (find_ok h.toSetup hh hσ (r := r) hgood).1
  have hfin : (act t (.update b) (act t (.update a) m).2).2 (keyOf t r) = some b := by
    simp [act, ka, kb, hm, put]
  simp only [act] at e3 e4
  let cl : Bool → Client Unit F X := fun c => if c then edit () r f x else edit () r f' y
  have hplay : play E br K (fun _ : Unit => t) zero cl [true, false, true, false] (fun _ => []) σ =
      (heard (heard (heard (heard (fun _ => []) true (.one (.ok (load t s r)))) false (.one (.ok (load t s r)))) true (.one (.ok a)))
        false (.one (.ok b)), σ4) := by
    rw [play_cons (i := ()) (a := .one (.find r)) rfl (by rw [call_one, e1]), play_cons (i := ()) (a := .one (.find r)) rfl (by rw [call_one, e2]),
      play_cons (i := ()) (a := .one (.update a)) rfl (by rw [call_one, e3]), play_cons (i := ()) (a := .one (.update b)) rfl (by rw [call_one, e4])]
    rfl
  refine ⟨a, b, _, σ4, hplay, rfl, by simp [a], rfl, load t b r, ?_, ?_, ?_⟩
  · have : ∀ n : Map F X, n (keyOf t r) = some b → (act t (.find r) n).1 = .ok (load t b r) := fun n e => by simp [act, e]
    rw [hz, this _ hfin]
  · simp only [load, if_pos hc, b, if_neg hne]
  · simp only [load, if_pos hc', b, if_true]

end

/-! ### Two models, three clients -/

def progTable (b : Bool) : Table Nat := storeUser (if b then "people" else "items")

theorem progReady (b : Bool) : Ready (condEnv true) (fun _ _ => True) condOrd condComp (progTable b) := by
  have hc : (progTable b).columns = (storeUser "people").columns := rfl
  have hs := condSetup true
  have hA := condAgrees (condEnv true) rfl rfl
  cases b with
  | true =>
    exact ⟨⟨hs, storeWritten _ none⟩, hA, condSpelled _ rfl, by simp [progTable, storeUser], .inl rfl⟩
  | false =>
    have hn := storeNamed true "items" (by decide)
    refine ⟨⟨⟨storeWF _, rfl, ⟨hn.1, hn.2, hn.3⟩, ⟨fun _ => .inl rfl, fun _ _ => .inl ⟨rfl, by decide⟩⟩, ?_, by decide, by simp [progTable, storeUser], ?_, ?_⟩,
      storeWritten _ none⟩, ⟨hA.isNil, hA.eq, hA.lt, hA.like, hA.before⟩, fun _ _ => .inl rfl, by simp [progTable, storeUser], .inl rfl⟩
    · exact hs.plain
    · exact hs.back
    · exact hs.keyed

example : Meant (condEnv true).g .postgres := ⟨rfl, rfl⟩
example : ∀ i j, tableName condPg (progTable i) = tableName condPg (progTable j) → i = j := by decide

/-- The first stores a person; the second does so with the same number, and if that fails, looks who it is and changes the name
of everybody; the third stores items and lists them. -/
def progClients : Nat → Client Bool Nat Nat
  | 0, [] => some (true, .one (.insert (storeRec 7 1 2)))
  | 1, [] => some (true, .one (.insert (storeRec 7 3 4)))
  | 1, [.one (.ok _)] => none
  | 1, [_] => some (true, .one (.find (storeRec 7 0 0)))
  | 1, [_, _] => some (true, .change { set := [(condName, 9)], where_ := some (.cmp .ge condId 1) })
  | 2, [] => some (false, .upsert {} [storeRec 7 5 6, storeRec 1 5 6])
  | 2, [_] => some (false, .query { where_ := some (.cmp .eq condGroup 6), orderBy := [(condId, true)] })
  | _, _ => none

theorem progSound : ∀ c h i a, progClients c h = some (i, a) → Sound (condEnv true) (fun _ _ => True) .postgres (progTable i) a := by
  intro c h i a e
  unfold progClients at e
  have hb : ∀ i, Batch (condEnv true) (progTable i) := fun i => ⟨rfl, fun _ _ => .inl rfl, .inr rfl⟩
  have hg : ∀ t r, Good (fun (_ _ : Nat) => True) t r := fun _ _ _ _ => trivial
  have hm : ∀ i, ∀ c ∈ [condId, condName, condGroup], c ∈ (progTable i).columns := by
    intro i c hc
    simpa [progTable, storeUser, condId, condName, condGroup] using hc
  split at e <;> cases e
  · exact ⟨hg _ _, by simp⟩
  · exact ⟨hg _ _, by simp⟩
  · exact ⟨hg _ _, by simp⟩
  · refine ⟨⟨?_, ?_, by simp⟩, by simp, by simp, by simp [progTable, storeUser, pick, keyPos, condName], .inr ⟨rfl, rfl⟩⟩
    · intro p hp
      simp only [List.mem_cons, List.not_mem_nil, or_false] at hp
      subst hp
      exact ⟨hm _ _ (by simp), trivial⟩
    · rintro c e
      cases e
      exact ⟨hm _ _ (by simp), trivial⟩
  · exact ⟨hb _, by decide, .inr (by decide), by simp, fun _ _ => hg _ _⟩
  · refine ⟨⟨by simp, ?_, ?_⟩, .inl rfl, .inl rfl⟩
    · rintro c e
      cases e
      exact ⟨hm _ _ (by simp), trivial⟩
    · intro p hp
      simp only [List.mem_cons, List.not_mem_nil, or_false] at hp
      subst hp
      exact hm _ _ (by simp)

example (M : Bool → Map Nat Nat) : ∀ i a, Calls (condEnv true).g (fun _ => condComp) progTable (fun _ _ => 0) progClients (fun _ => []) M i a →
    Sound (condEnv true) (fun _ _ => True) .postgres (progTable i) a := by
  rintro i a ⟨_, c, h', _, _, e⟩
  exact progSound c (h' c) i a e

def progStart : Sql.Store (Option Nat) := fun n =>
  if n = "people".toList then some (Spec.Store.tableOf condPg (progTable true) [])
  else if n = "items".toList then some (Spec.Store.tableOf condPg (progTable false) []) else none

example : ∀ i, Keeps (condEnv true) (fun _ _ => True) (progTable i) (fun _ => none) progStart := by
  intro i
  cases i <;> exact C90_empty _ _ _ _ rfl

def progShow : Reply Nat Nat → Option (List (List Nat))
  | .one (.ok r) => some [(genAddrs (progTable true)).map r]
  | .many (.ok rs) => some (rs.map fun r => (genAddrs (progTable true)).map r)
  | .list (.ok rs) => some (rs.map fun r => (genAddrs (progTable true)).map r)
  | .record (.ok r) => some [(genAddrs (progTable true)).map r]
  | .done (.ok _) => some []
  | _ => none

/-- the replies to the clients, and who is there afterwards -/
def progSee (cs : List Nat) : List (List (Option (List (List Nat)))) × Option (List (List Nat)) :=
  let a := play (condEnv true) .postgres condOrd progTable (fun _ _ => 0) progClients cs (fun _ => []) progStart
  ([0, 1, 2].map fun c => (a.1 c).map progShow, condAll (condEnv true) .postgres {} a.2)

/-- the first client comes first -/
example : progSee [0, 2, 1, 1, 2, 1, 0, 2] =
    ([[some [[7, 1, 2]]], [none, some [[7, 1, 2]], some []], [some [[7, 5, 6], [1, 5, 6]], some [[1, 5, 6], [7, 5, 6]]]],
      some [[7, 9, 2]]) := by decide +kernel
/-- the second client comes first -/
example : progSee [2, 1, 0, 1, 2, 1] =
    ([[none], [some [[7, 3, 4]]], [some [[7, 5, 6], [1, 5, 6]], some [[1, 5, 6], [7, 5, 6]]]], some [[7, 3, 4]]) := by decide +kernel
/-- nobody removes person 7 -/
example : ∀ c h a, progClients c h = some (true, a) → Leaves condComp (progTable true) [7] a := by
  intro c h a e
  unfold progClients at e
  split at e <;> cases e <;> trivial
/-- nobody writes the item 2 -/
example : ∀ c h a, progClients c h = some (false, a) → Spares condComp (progTable false) [2] a := by
  intro c h a e
  unfold progClients at e
  split at e <;> cases e
  · show ∀ r ∈ [storeRec 7 5 6, storeRec 1 5 6], keyOf (progTable false) r ≠ [2]
    intro r hr
    simp only [List.mem_cons, List.not_mem_nil, or_false] at hr
    rcases hr with rfl | rfl <;> decide
  · trivial
/-- one client sets the name of person 7 to 9, the other the group to 8: the name is as before -/
example :
    let a := play (condEnv true) .postgres condOrd (fun _ : Unit => progTable true) (fun _ _ => 0)
      (fun c : Bool => if c then edit () (storeRec 7 0 0) condName.field 9 else edit () (storeRec 7 0 0) condGroup.field 8)
      [true, false, true, false] (fun _ => []) (Program.call (condEnv true) .postgres condOrd (progTable true) (fun _ => 0)
        (.one (.insert (storeRec 7 1 2))) progStart).2
    ([true, false].map fun c => (a.1 c).map progShow, condAll (condEnv true) .postgres {} a.2) =
      ([[some [[7, 1, 2]], some [[7, 9, 2]]], [some [[7, 1, 2]], some [[7, 1, 8]]]], some [[7, 1, 8]]) := by decide +kernel
example : condName.field ≠ condGroup.field ∧ (∀ c ∈ pick (progTable true) (keyPos (progTable true)), c.field ≠ condName.field) ∧
    (∀ c ∈ pick (progTable true) (keyPos (progTable true)), c.field ≠ condGroup.field) ∧
    pick (progTable true) (updatePos (progTable true)) ≠ [] := by decide

end Verif.Props

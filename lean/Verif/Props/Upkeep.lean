import Verif.Lemmas.Upkeep
import Verif.Props.Store
import Mathlib.Data.List.Perm.Subperm

/-!
# Property C97: columns that the database fills in
-/

namespace Verif.Props

open Verif Verif.Gen Verif.Spec Verif.Spec.Gen Verif.Spec.Sql Verif.Spec.Store Verif.Store Verif.Spec.Upkeep Verif.Upkeep

variable {F X V : Type} [DecidableEq F] [DecidableEq X] [DecidableEq V]

variable {E : Store.Env F X V} {t : Table F} {Ok : F → X → Prop} {K : Keeper V} {u : Care F X}

/-- C97, except for updates of models with one key in databases with numbered parameters: whatever the sequence of inserts,
finds, updates and deletes, every call gives what it would on a map from keys to records of which the fields that are only
read are left to the database; the table has the records of the map afterwards, and no other table has changed. -/
theorem C97_upkeep_partial (h : Setup E t Ok) (hk : Kept t) (hc : Cares E.enc E.null E.D Ok K u t)
    (ha : ∀ c, t.autoCol = some c → pick t (insertPos t) ≠ [] ∧ MadeUp E t Ok c) (ops : List (Store.Op F X))
    (hl : (∃ r, Store.Op.update r ∈ ops) →
      2 ≤ (pick t (keyPos t)).length ∨ E.g.style = .anon ∨ t.columns.length = (updatePos t).length + 1)
    (hf : ∀ o ∈ ops, Fine Ok t o) (now : Nat) (m : Map F X) (σ : Sql.Store V) (hm : Keeps E Ok t m σ) :
    ∃ m', Spec.Upkeep.Acts E.g.postgres t u now ops m (Upkeep.performs E K t now ops σ).1 m' ∧
      Keeps E Ok t m' (Upkeep.performs E K t now ops σ).2 ∧
      ∀ n, n ≠ tableName E.D t → (Upkeep.performs E K t now ops σ).2 n = σ n := by
  induction ops generalizing now m σ with
  | nil => exact ⟨m, .nil, hm, fun _ _ => rfl⟩
  | cons o os ih =>
    obtain ⟨out, m', σ', e, hact, hm', hn⟩ := perform_run h hk hc ha
      (fun ⟨r, e⟩ => hl ⟨r, by simp [e]⟩) (hf o (by simp)) now hm
    obtain ⟨m'', h1, h2, h3⟩ := ih (fun ⟨r, hr⟩ => hl ⟨r, by simp [hr]⟩) (fun o ho => hf o (by simp [ho])) (now + 1) m' σ' hm'
    simp only [Upkeep.performs, e]
    exact ⟨m'', .cons hact h1, h2, fun n hne => by rw [h3 n hne, hn n hne]⟩

private theorem short (h : Setup E t Ok) (hk : Kept t) {c : GCol F} (hc : c ∈ t.columns) (hr : c.readonly = true) :
    t.columns.length ≠ (updatePos t).length + 1 := by
  obtain ⟨i, hi⟩ := List.getElem?_of_mem hc
  have hlt : i < t.columns.length := (List.getElem?_eq_some_iff.1 hi).1
  obtain ⟨j, l, ej⟩ := List.exists_cons_of_ne_nil (keyPos_ne h)
  have hjm : j ∈ keyPos t := by simp [ej]
  have hjlt : j < t.columns.length := keyPos_lt h j hjm
  have hij : i ≠ j := by
    rintro rfl
    have := hk.keys c (mem_pick.2 ⟨i, hjm, hi⟩)
    rw [this] at hr
    simp at hr
  have hsub : i :: j :: updatePos t ⊆ List.range t.columns.length := by
    intro k hkm
    simp only [List.mem_cons] at hkm
    rcases hkm with rfl | rfl | hkm
    · simpa using hlt
    · simpa using hjlt
    · exact (List.mem_filter.1 hkm).1
  have hi' : i ∉ updatePos t := by
    intro hm
    have := update_written hm hi
    rw [this] at hr
    simp at hr
  have hj' : j ∉ updatePos t := by
    intro hm
    simp only [updatePos, List.mem_filter, Bool.and_eq_true] at hm
    unfold keyPos at hjm
    cases e : t.auto with
    | none => rw [e] at hjm; simp [hjm] at hm
    | some k =>
      rw [e] at hjm hm
      have : j = k := by simpa using hjm
      simp [this] at hm
  have hnd : (i :: j :: updatePos t).Nodup := by simp [hij, hi', hj', updatePos_nodup]
  have := (List.Nodup.subperm hnd hsub).length_le
  simp only [List.length_cons, List.length_range] at this
  omega

/-- C97, refuted for updates in databases with numbered parameters: a model with one key and a column that is only read can
never be updated by key, whatever the database, the record and the rows. -/
theorem C97_update_never (h : Setup E t Ok) (hk : Kept t) (hst : E.g.style = .numbered) (hone : (pick t (keyPos t)).length = 1)
    {c : GCol F} (hc : c ∈ t.columns) (hr : c.readonly = true) (db : Runs V) (r : F → X) (σ : Sql.Store V) :
    updateVia E db t r σ = (.failed, σ) := by
  obtain ⟨d, hd⟩ := List.length_eq_one_iff.1 hone
  obtain ⟨text, fs, e, hb⟩ := C22_update_rejected E.g t h.wf (templatesOk h.plain) hst d hd (short h hk hc hr)
  have := hb V fun f => E.enc f (r f)
  simp only [updateVia, e, sendTo, args]
  rw [this]
  rfl

/-- C97, for one record inserted under a new key: after `InsertOne`, the record has what is stored in PostgreSQL, and what it
had before in other databases; `FindByPK` has what is stored. -/
theorem C97_insert_then_find (h : Setup E t Ok) (hk : Kept t) (hc : Cares E.enc E.null E.D Ok K u t) (ha : t.autoCol = none)
    (now : Nat) (m : Map F X) (σ : Sql.Store V) (hm : Keeps E Ok t m σ) (r r' : F → X) (hr : Good Ok t r) (hr' : Good Ok t r')
    (hkey : keyOf t r' = keyOf t r) (hnew : m (keyOf t r) = none) :
    ∃ a σ₁, insertVia E (run E.null E.gen K now) t r σ = (.ok a, σ₁) ∧
      (∀ f ∈ t.columns.map (·.field), a f = if E.g.postgres then u now none r f else r f) ∧
      findVia E (run E.null E.gen K (now + 1)) t r' σ₁ = (.ok (load t (u now none r) r'), σ₁) := by
  obtain ⟨rows, hσ, hh⟩ := hm
  obtain ⟨σ', h1, ⟨rows', hσ', hh'⟩, -⟩ := insert_keyed h hk hc ha hh hσ now hr
  obtain ⟨h2, -⟩ := find_ok h hh' hσ' (r := r') hr'
  simp only [Spec.Upkeep.act, hnew, Option.isSome_none, Bool.false_eq_true, if_false] at h1 h2
  refine ⟨_, σ', h1, ?_, ?_⟩
  · intro f hf
    split
    · simp only [load, hf, if_true]
    · rfl
  · rw [find_run h, h2]
    simp [Store.act, hkey, put]

/-- C97, refuted for records after inserts in databases other than PostgreSQL: if the database fills in a column that is only
read, the record does not have its value, although it is in the table. -/
theorem C97_insert_stale (h : Setup E t Ok) (hk : Kept t) (hc : Cares E.enc E.null E.D Ok K u t) (ha : t.autoCol = none)
    (hpg : E.g.postgres = false) (now : Nat) (m : Map F X) (σ : Sql.Store V) (hm : Keeps E Ok t m σ) (r : F → X)
    (hr : Good Ok t r) (hnew : m (keyOf t r) = none) (f : F) (hf : f ∈ readFields t) (hfill : u now none r f ≠ r f) :
    ∃ a b σ₁, insertVia E (run E.null E.gen K now) t r σ = (.ok a, σ₁) ∧
      findVia E (run E.null E.gen K (now + 1)) t a σ₁ = (.ok b, σ₁) ∧ a f ≠ b f := by
  obtain ⟨rows, hσ, hh⟩ := hm
  obtain ⟨σ', h1, ⟨rows', hσ', hh'⟩, -⟩ := insert_keyed h hk hc ha hh hσ now hr
  obtain ⟨h2, -⟩ := find_ok h hh' hσ' (r := r) hr
  simp only [Spec.Upkeep.act, hnew, Option.isSome_none, Bool.false_eq_true, if_false, hpg] at h1 h2
  have hff : f ∈ t.columns.map (·.field) := by
    obtain ⟨c, hcm, e⟩ := List.mem_map.1 hf
    exact List.mem_map.2 ⟨c, (List.mem_filter.1 hcm).1, e⟩
  refine ⟨r, load t (u now none r) r, σ', h1, ?_, ?_⟩
  · rw [find_run h, h2]
    simp [Store.act, put]
  · simp only [load, hff, if_true]
    exact hfill.symm

/-- What is only read stays what it was, if the database sets it only on inserts. -/
private theorem acts_kept {back : Bool} {f : F} (hset : ∀ now s r, u now (some s) (keep t s r) f = s f)
    {now : Nat} {ops : List (Store.Op F X)} {m m' : Map F X} {outs : List (Out (F → X))}
    (hacts : Spec.Upkeep.Acts back t u now ops m outs m') {k : List X} {s : F → X}
    (hd : ∀ r, Store.Op.delete r ∈ ops → keyOf t r ≠ k) (hs : m k = some s) :
    ∃ s', m' k = some s' ∧ s' f = s f := by
  have insert_kept : ∀ {now m r out m' s}, (out, m') = Spec.Upkeep.act back t u now (.insert r) m → m k = some s →
      m' k = some s := by
    intro now m r out m' s e hs
    simp only [Spec.Upkeep.act] at e
    split at e
    · cases e; exact hs
    · next hn =>
      cases e
      have : k ≠ keyOf t r := by
        rintro rfl
        rw [hs] at hn
        simp at hn
      simp [put, this, hs]
  induction hacts generalizing s with
  | nil => exact ⟨s, hs, rfl⟩
  | @cons now o os m out m₁ outs m₂ hact _ ih =>
    have hstep : ∃ s₁, m₁ k = some s₁ ∧ s₁ f = s f := by
      cases o with
      | insert r =>
        cases hac : t.autoCol with
        | some c =>
          simp only [Spec.Upkeep.Act, hac] at hact
          obtain ⟨x, -, e⟩ := hact
          exact ⟨s, insert_kept e hs, rfl⟩
        | none =>
          unfold Spec.Upkeep.Act at hact
          rw [hac] at hact
          exact ⟨s, insert_kept hact hs, rfl⟩
      | find r =>
        simp only [Spec.Upkeep.Act, Spec.Upkeep.act, Store.act] at hact
        split at hact <;> cases hact <;> exact ⟨s, hs, rfl⟩
      | update r =>
        simp only [Spec.Upkeep.Act, Spec.Upkeep.act] at hact
        split at hact
        · next s0 hs0 =>
          cases hact
          by_cases hkr : k = keyOf t r
          · subst hkr
            rw [hs] at hs0
            cases hs0
            exact ⟨_, if_pos rfl, hset now s _⟩
          · exact ⟨s, by simp [put, hkr, hs], rfl⟩
        · cases hact; exact ⟨s, hs, rfl⟩
      | delete r =>
        simp only [Spec.Upkeep.Act, Spec.Upkeep.act, Store.act] at hact
        cases hact
        have : k ≠ keyOf t r := fun e => hd r (by simp) e.symm
        exact ⟨s, by simp [put, this, hs], rfl⟩
    obtain ⟨s₁, h1, h2⟩ := hstep
    obtain ⟨s₂, h3, h4⟩ := ih (fun r hr => hd r (by simp [hr])) h1
    exact ⟨s₂, h3, by rw [h4, h2]⟩

/-- C97, for a column that the database sets when a row is inserted (such as the time) and never changes: whatever the program
does, except for deleting the record, and whatever it has in this field, `FindByPK` has the value of the beginning. -/
theorem C97_never_overwritten_partial (h : Setup E t Ok) (hk : Kept t) (hc : Cares E.enc E.null E.D Ok K u t)
    (ha : ∀ c, t.autoCol = some c → pick t (insertPos t) ≠ [] ∧ MadeUp E t Ok c) (ops : List (Store.Op F X))
    (hl : (∃ r, Store.Op.update r ∈ ops) →
      2 ≤ (pick t (keyPos t)).length ∨ E.g.style = .anon ∨ t.columns.length = (updatePos t).length + 1)
    (f : F) (hfr : f ∈ readFields t) (hset : ∀ now s r, u now (some s) (keep t s r) f = s f)
    (hf : ∀ o ∈ ops, Fine Ok t o) (now : Nat) (m : Map F X) (σ : Sql.Store V) (hm : Keeps E Ok t m σ)
    (s r : F → X) (hr : Good Ok t r) (hs : m (keyOf t r) = some s)
    (hd : ∀ r', Store.Op.delete r' ∈ ops → keyOf t r' ≠ keyOf t r) :
    ∃ a, (findByPK E t r (Upkeep.performs E K t now ops σ).2).1 = .ok a ∧ a f = s f := by
  obtain ⟨m', h1, ⟨rows, hσ, hh⟩, -⟩ := C97_upkeep_partial h hk hc ha ops hl hf now m σ hm
  obtain ⟨s', h2, h3⟩ := acts_kept hset h1 hd hs
  obtain ⟨h4, -⟩ := find_ok h hh hσ (r := r) hr
  refine ⟨load t s' r, by rw [h4]; simp [Store.act, h2], ?_⟩
  have hff : f ∈ t.columns.map (·.field) := by
    obtain ⟨c, hcm, e⟩ := List.mem_map.1 hfr
    exact List.mem_map.2 ⟨c, (List.mem_filter.1 hcm).1, e⟩
  simp only [load, hff, if_true]
  exact h3

/-! A model of which the database counts the versions and has the time of the insert. -/

def upTable (keys : List Nat) (auto : Option Nat) : Table Nat :=
  { name := "people", keys := keys, auto := auto,
    columns := [⟨"id", 10, 0, false, none, none⟩, ⟨"org", 11, 1, false, none, none⟩, ⟨"name", 13, 2, false, none, none⟩,
      ⟨"version", 14, 3, true, none, none⟩, ⟨"created", 15, 4, true, none, none⟩] }

/-- Neither column can be assigned; one is the number of changes, the other the time of the insert. -/
def upKeeper : Keeper (Option Nat) where
  guarded _ n := n = "version".toList ∨ n = "created".toList
  touch _ now old row n :=
    if n = "version".toList then (match old with | none => some 1 | some o => (o n).map (· + 1))
    else if n = "created".toList then (match old with | none => some now | some o => o n)
    else row n

def upCare : Care Nat Nat := fun now s r f =>
  if f = 14 then (match s with | none => 1 | some s => s f + 1)
  else if f = 15 then (match s with | none => now | some s => s f)
  else r f

def upEnv (style : Style) (pg : Bool) : Store.Env Nat Nat (Option Nat) :=
  { storeEnv false with g := { storeCfg false with style := style, postgres := pg } }

private theorem upCols {P : GCol Nat → Prop} {keys : List Nat} {auto : Option Nat}
    (h : P ⟨"id", 10, 0, false, none, none⟩ ∧ P ⟨"org", 11, 1, false, none, none⟩ ∧ P ⟨"name", 13, 2, false, none, none⟩ ∧
      P ⟨"version", 14, 3, true, none, none⟩ ∧ P ⟨"created", 15, 4, true, none, none⟩) :
    ∀ c ∈ (upTable keys auto).columns, P c := by
  intro c hc
  simp only [upTable, List.mem_cons, List.not_mem_nil, or_false] at hc
  obtain ⟨h1, h2, h3, h4, h5⟩ := h
  rcases hc with rfl | rfl | rfl | rfl | rfl <;> assumption

theorem upSetup (style : Style) (pg : Bool) (keys : List Nat) (auto : Option Nat)
    (hk : (keys, auto) ∈ [([0], none), ([0, 1], none), ([], some 0)]) :
    Setup (upEnv style pg) (upTable keys auto) (fun _ _ => True) := by
  have hb : Bare storePg "people" ∧ Bare storePg "id" ∧ Bare storePg "org" :=
    ⟨⟨⟨by decide, by decide, by decide, by decide⟩, by decide⟩, ⟨⟨by decide, by decide, by decide, by decide⟩, by decide⟩,
      ⟨⟨by decide, by decide, by decide, by decide⟩, by decide⟩⟩
  have hq : ∀ s : String, s ≠ "" → '"' ∉ s.toList → Quoted (upEnv style pg).g storePg s := by
    intro s h0 h1
    refine ⟨?_, h1, h0⟩
    simp [upEnv, storeCfg, storePg]
  have hwf : WF (upTable keys auto) := by
    refine ⟨by simp [upTable], ?_, ?_, ?_, ?_⟩
    · intro i c h
      match i, h with
      | 0, h => simp [upTable] at h; subst h; rfl
      | 1, h => simp [upTable] at h; subst h; rfl
      | 2, h => simp [upTable] at h; subst h; rfl
      | 3, h => simp [upTable] at h; subst h; rfl
      | 4, h => simp [upTable] at h; subst h; rfl
      | n + 5, h => simp [upTable] at h
    all_goals
      simp only [List.mem_cons, List.not_mem_nil, or_false, Prod.mk.injEq] at hk
      rcases hk with ⟨rfl, rfl⟩ | ⟨rfl, rfl⟩ | ⟨rfl, rfl⟩ <;> simp [upTable]
  have hn : Named (upEnv style pg).g storePg (upTable keys auto) :=
    ⟨.inr rfl, hq _ (by simp [upTable]) (by simp [upTable]),
      upCols ⟨hq _ (by decide) (by decide), hq _ (by decide) (by decide), hq _ (by decide) (by decide),
        hq _ (by decide) (by decide), hq _ (by decide) (by decide)⟩⟩
  refine ⟨hwf, ?_, hn, ⟨fun _ => .inr hb.1, ?_⟩, upCols (by simp), ?_, ?_, fun _ _ _ _ _ => rfl, fun _ _ _ _ => by simp [upEnv, storeEnv]⟩
  · simp only [List.mem_cons, List.not_mem_nil, or_false, Prod.mk.injEq] at hk
    rcases hk with ⟨rfl, rfl⟩ | ⟨rfl, rfl⟩ | ⟨rfl, rfl⟩ <;> rfl
  · simp only [List.mem_cons, List.not_mem_nil, or_false, Prod.mk.injEq] at hk
    rcases hk with ⟨rfl, rfl⟩ | ⟨rfl, rfl⟩ | ⟨rfl, rfl⟩ <;> intro c hc <;> simp [upTable, pick, keyPos] at hc
    · subst hc; exact .inr hb.2.1
    · rcases hc with rfl | rfl
      · exact .inr hb.2.1
      · exact .inr hb.2.2
    · subst hc; exact .inr hb.2.1
  · change ((upTable keys auto).columns.map (colName storePg)).Nodup
    simp only [upTable]
    decide
  · simp only [List.mem_cons, List.not_mem_nil, or_false, Prod.mk.injEq] at hk
    rcases hk with ⟨rfl, rfl⟩ | ⟨rfl, rfl⟩ | ⟨rfl, rfl⟩ <;> simp [upTable]

theorem upKept (keys : List Nat) (auto : Option Nat) (hk : (keys, auto) ∈ [([0], none), ([0, 1], none), ([], some 0)]) :
    Kept (upTable keys auto) := by
  refine ⟨by simp [upTable], ?_⟩
  simp only [List.mem_cons, List.not_mem_nil, or_false, Prod.mk.injEq] at hk
  rcases hk with ⟨rfl, rfl⟩ | ⟨rfl, rfl⟩ | ⟨rfl, rfl⟩ <;> simp [upTable, pick, keyPos]

theorem upCares (style : Style) (pg : Bool) (keys : List Nat) (auto : Option Nat) :
    Cares (upEnv style pg).enc (upEnv style pg).null (upEnv style pg).D (fun _ _ => True) upKeeper upCare
      (upTable keys auto) := by
  have hf : readFields (upTable keys auto) = [14, 15] := by simp [readFields, upTable]
  have other : ∀ (T : Name) (now : Nat) (old : Option (Row (Option Nat))) (row : Row (Option Nat)) (n : Name),
      n ≠ "version".toList → n ≠ "created".toList → upKeeper.touch T now old row n = row n := by
    intro T now old row n h1 h2
    simp only [upKeeper, if_neg h1, if_neg h2]
  refine ⟨upCols ⟨fun _ => (by decide : upKeeper.guarded [] "id".toList = false), fun _ => (by decide : upKeeper.guarded [] "org".toList = false),
    fun _ => (by decide : upKeeper.guarded [] "name".toList = false), by simp, by simp⟩, ?_, fun _ _ _ _ _ _ _ => trivial,
    ?_, ?_⟩
  · intro now s r f hff
    rw [hf] at hff
    simp only [List.mem_cons, List.not_mem_nil, or_false, not_or] at hff
    simp [upCare, hff.1, hff.2]
  · intro now r row _ hrow
    have hid := hrow ⟨"id", 10, 0, false, none, none⟩ (by simp [upTable])
    have horg := hrow ⟨"org", 11, 1, false, none, none⟩ (by simp [upTable])
    have hname := hrow ⟨"name", 13, 2, false, none, none⟩ (by simp [upTable])
    refine upCols ⟨?_, ?_, ?_, ?_, ?_⟩
    · exact (other _ _ _ _ "id".toList (by decide) (by decide)).trans hid
    · exact (other _ _ _ _ "org".toList (by decide) (by decide)).trans horg
    · exact (other _ _ _ _ "name".toList (by decide) (by decide)).trans hname
    · rfl
    · rfl
  · intro now s r old row _ _ hold hrow
    refine upCols ⟨?_, ?_, ?_, ?_, ?_⟩
    · exact (other _ _ _ _ "id".toList (by decide) (by decide)).trans (hrow ⟨"id", 10, 0, false, none, none⟩ (by simp [upTable]))
    · exact (other _ _ _ _ "org".toList (by decide) (by decide)).trans (hrow ⟨"org", 11, 1, false, none, none⟩ (by simp [upTable]))
    · exact (other _ _ _ _ "name".toList (by decide) (by decide)).trans (hrow ⟨"name", 13, 2, false, none, none⟩ (by simp [upTable]))
    · have h1 : old "version".toList = some (s 14) := hold ⟨"version", 14, 3, true, none, none⟩ (by simp [upTable])
      change (old "version".toList).map (· + 1) = some (s 14 + 1)
      rw [h1]
      rfl
    · exact hold ⟨"created", 15, 4, true, none, none⟩ (by simp [upTable])

def upShow (style : Style) (pg : Bool) (t : Table Nat) (ops : List (Store.Op Nat Nat)) : List (Option (List Nat)) :=
  (Upkeep.performs (upEnv style pg) upKeeper t 100 ops (storeOnly t)).1.map fun
    | .ok r => some ((genAddrs t).map r)
    | _ => none

def upRec (a b c d e : Nat) : Nat → Nat := fun f => if f = 10 then a else if f = 11 then b else if f = 13 then c else
  if f = 14 then d else e

example (keys : List Nat) (auto : Option Nat) : Keeps (upEnv .anon false) (fun _ _ => True) (upTable keys auto) (fun _ => none)
    (storeOnly (upTable keys auto)) := C90_empty _ _ _ _ (if_pos rfl)
example (o : Store.Op Nat Nat) : Fine (fun _ _ => True) (upTable [0] none) o := ⟨fun _ _ => trivial, fun _ _ => by decide⟩
/-- MySQL: what the program has in the last two fields is ignored; they are current only after `FindByPK`. -/
example : upShow .anon false (upTable [0] none) [.insert (upRec 7 1 2 88 99), .update (upRec 7 3 4 88 99), .find (upRec 7 0 0 0 0)] =
    [some [7, 1, 2, 88, 99], some [7, 3, 4, 88, 99], some [7, 3, 4, 2, 100]] := by decide +kernel
/-- PostgreSQL, with one key: the record is current after the insert, and cannot be updated. -/
example : upShow .numbered true (upTable [0] none) [.insert (upRec 7 1 2 88 99), .update (upRec 7 3 4 88 99), .find (upRec 7 0 0 0 0)] =
    [some [7, 1, 2, 1, 100], none, some [7, 1, 2, 1, 100]] := by decide +kernel
/-- PostgreSQL, with two keys. -/
example : upShow .numbered true (upTable [0, 1] none) [.insert (upRec 7 1 2 88 99), .update (upRec 7 1 4 88 99),
    .find (upRec 7 1 0 0 0)] = [some [7, 1, 2, 1, 100], some [7, 1, 4, 88, 99], some [7, 1, 4, 2, 100]] := by decide +kernel
/-- Keys made up by the database. -/
example : upShow .anon false (upTable [] (some 0)) [.insert (upRec 0 1 2 88 99), .insert (upRec 0 3 4 88 99), .find (upRec 2 0 0 0 0)] =
    [some [1, 1, 2, 88, 99], some [2, 3, 4, 88, 99], some [2, 3, 4, 1, 101]] := by decide +kernel
/-- The database fills in what the record does not have. -/
example : 15 ∈ readFields (upTable [0] none) ∧ upCare 100 none (upRec 7 1 2 88 99) 15 ≠ upRec 7 1 2 88 99 15 := by decide
/-- The time of the insert is never changed by an update. -/
example (now : Nat) (s r : Nat → Nat) : upCare now (some s) (keep (upTable [0] none) s r) 15 = s 15 := by simp [upCare]

end Verif.Props

import Verif.Props.Custom

/-!
# Property C104: keys, batches, conditions, pages and programs on records with types that have methods
-/

namespace Verif.Props

open Verif Verif.Typed Verif.Custom Verif.Spec Verif.Spec.Custom
open Verif.Gen Verif.Store Verif.Spec.Store Verif.Spec.Gen

variable {F U : Type}

section

variable {W : Custom.World F U} {K : Spec.Sql.Compare Custom.Cell} {low : Bool} {g : Cfg} {S : Spec.Sql.Dialect}
  {gen : Spec.Sql.Tbl Custom.Cell → Custom.Cell} {auto : Typed.Kind} {t : Gen.Table F} {other : Spec.Store.Comp F (Val U)}

variable [DecidableEq F] [DecidableEq U]

/-! ## C104: records by key -/

/-- C104: records of fields of the types of C101 and of types with methods that belong together.
Whatever the sequence of inserts, finds, updates and deletes: every call gives what it would on a map from keys to records, the table has
the records of the map afterwards, and no other table has changed. -/
theorem C104_store_partial (hW : Spec.Document.Behaves W.base) (hs : Spec.Typed.Shape g S t)
    (hk : ∀ c ∈ keyCols t, Spec.Custom.Keyed W c.field) (hw : AllWritten t) (ha : t.auto = none)
    (ops : List (Spec.Store.Op F (Val U))) (hf : ∀ o ∈ ops, Fine (Spec.Custom.Stores W) t o) (m : Map F (Val U))
    (σ : Spec.Sql.Store Custom.Cell) (hm : Store.Keeps (W.env g S gen auto) (Spec.Custom.Stores W) t m σ) :
    (performs (W.env g S gen auto) t ops σ).1 = (acts t ops m).1 ∧
      Store.Keeps (W.env g S gen auto) (Spec.Custom.Stores W) t (acts t ops m).2 (performs (W.env g S gen auto) t ops σ).2 ∧
      ∀ n, n ≠ tableName S t → (performs (W.env g S gen auto) t ops σ).2 n = σ n :=
  C90_keyed_store (custom_setup hk hW hs) hw ha ops hf m σ hm

/-- C104, for one record: what `InsertOne` stored is found by `FindByPK`, whatever is done with other keys in between, and whatever is in
the record that it is read into. -/
theorem C104_reads_back_partial (hW : Spec.Document.Behaves W.base) (hs : Spec.Typed.Shape g S t)
    (hk : ∀ c ∈ keyCols t, Spec.Custom.Keyed W c.field) (hw : AllWritten t) (ha : t.auto = none) (m : Map F (Val U))
    (σ : Spec.Sql.Store Custom.Cell) (hm : Store.Keeps (W.env g S gen auto) (Spec.Custom.Stores W) t m σ) (r r' : F → Val U)
    (hr : Good (Spec.Custom.Stores W) t r) (hr' : Good (Spec.Custom.Stores W) t r') (hkey : keyOf t r' = keyOf t r)
    (ops : List (Spec.Store.Op F (Val U))) (hf : ∀ o ∈ ops, Fine (Spec.Custom.Stores W) t o)
    (ho : ∀ o ∈ ops, keyOf t o.record ≠ keyOf t r) (σ₁ : Spec.Sql.Store Custom.Cell)
    (hin : insertOne (W.env g S gen auto) t r σ = (.ok r, σ₁)) :
    (findByPK (W.env g S gen auto) t r' (performs (W.env g S gen auto) t ops σ₁).2).1 = .ok (load t r r') :=
  C90_reads_back (custom_setup hk hW hs) hw ha m σ hm r r' hr hr' hkey ops hf ho σ₁ hin

/-! ## C104: batches -/

section Batches
variable (hW : Spec.Document.Behaves W.base) (hs : Spec.Typed.Shape g S t) (hk : ∀ c ∈ keyCols t, Spec.Custom.Keyed W c.field) (hw : AllWritten t)
  (ha : t.auto = none) (hf : (t.columns.map (·.field)).Nodup) (hn : HelperNames g S t)
  (hst : g.style = if g.postgres then .numbered else .anon)
include hW hs hk hw ha hf hn hst

/-- C104, batches: records with new keys are stored, all of them as they are; if one of the keys is taken or occurs twice, nothing
is. -/
theorem C104_insert_partial {ru : Spec.Sql.Rules} (hru : g.postgres = true → ru = .onConflict) {m : Map F (Val U)}
    {σ : Spec.Sql.Store Custom.Cell} (hm : Store.Keeps (W.env g S gen auto) (Spec.Custom.Stores W) t m σ) (rs : List (F → Val U))
    (hr : ∀ r ∈ rs, Good (Spec.Custom.Stores W) t r) :
    (((rs.map (keyOf t)).Nodup ∧ ∀ r ∈ rs, m (keyOf t r) = none) → ∃ σ', insertMany (W.env g S gen auto) ru t rs σ = (.ok rs, σ') ∧
      After (W.env g S gen auto) (Spec.Custom.Stores W) t (fun k => (withKey t rs k).or (m k)) σ σ') ∧
    (¬ ((rs.map (keyOf t)).Nodup ∧ ∀ r ∈ rs, m (keyOf t r) = none) →
      insertMany (W.env g S gen auto) ru t rs σ = (.duplicate, σ)) :=
  C91_insert ⟨custom_setup hk hW hs, hw⟩ hf hn hst ha hru hm rs hr

/-- C104, upserts with override: the fields of records with taken keys are replaced, the other records are new. -/
theorem C104_upsert_partial (w : Wish) (hkp : w.keep = false) (hre : replaced g t w ≠ []) {m : Map F (Val U)}
    {σ : Spec.Sql.Store Custom.Cell} (hm : Store.Keeps (W.env g S gen auto) (Spec.Custom.Stores W) t m σ) {rs : List (F → Val U)}
    (hne : rs ≠ []) (hr : ∀ r ∈ rs, Good (Spec.Custom.Stores W) t r) (hd : (rs.map (keyOf t)).Nodup) :
    ∃ σ', upsertMany (W.env g S gen auto) (rulesOf g) t w rs σ = (.ok (if g.postgres then
        rs.map fun r => load t (storedFor t ((replaced g t w).map (·.field)) m r) r else rs), σ') ∧
      After (W.env g S gen auto) (Spec.Custom.Stores W) t
        (fun k => ((withKey t rs k).map (storedFor t ((replaced g t w).map (·.field)) m)).or (m k)) σ σ' :=
  C91_upsert_replace ⟨custom_setup hk hW hs, hw⟩ hf hn hst ha w hkp hre hm hne hr hd

/-- C104, upserts that keep what is there: only records with new keys are stored. -/
theorem C104_upsert_keep_partial (w : Wish) (hkp : w.keep = true) {m : Map F (Val U)} {σ : Spec.Sql.Store Custom.Cell}
    (hm : Store.Keeps (W.env g S gen auto) (Spec.Custom.Stores W) t m σ) {rs : List (F → Val U)} (hne : rs ≠ [])
    (hr : ∀ r ∈ rs, Good (Spec.Custom.Stores W) t r) :
    ∃ rs' σ', upsertMany (W.env g S gen auto) (rulesOf g) t w rs σ = (.ok rs', σ') ∧ (g.postgres = false → rs' = rs) ∧
      After (W.env g S gen auto) (Spec.Custom.Stores W) t (fun k => (m k).or (withKey t rs k)) σ σ' :=
  C91_upsert_keep_partial ⟨custom_setup hk hW hs, hw⟩ hf hn hst ha w hkp hm hne hr

end Batches

/-- C104, with columns that are only read and filled in by the database, as times of creation are. -/
theorem C104_upkeep_partial {Kp : Spec.Upkeep.Keeper Custom.Cell} {u : Spec.Upkeep.Care F (Val U)} (hW : Spec.Document.Behaves W.base)
    (hs : Spec.Typed.Shape g S t) (hk : ∀ c ∈ keyCols t, Spec.Custom.Keyed W c.field) (hr : Spec.Upkeep.Kept t)
    (hc : Spec.Upkeep.Cares (W.env g S gen auto).enc Custom.null S (Spec.Custom.Stores W) Kp u t) (ha : t.auto = none)
    (ops : List (Spec.Store.Op F (Val U))) (hl : (∃ r, Spec.Store.Op.update r ∈ ops) →
      2 ≤ (pick t (keyPos t)).length ∨ g.style = .anon ∨ t.columns.length = (updatePos t).length + 1)
    (hf : ∀ o ∈ ops, Fine (Spec.Custom.Stores W) t o) (now : Nat) (m : Map F (Val U)) (σ : Spec.Sql.Store Custom.Cell)
    (hm : Store.Keeps (W.env g S gen auto) (Spec.Custom.Stores W) t m σ) :
    ∃ m', Spec.Upkeep.Acts g.postgres t u now ops m (Upkeep.performs (W.env g S gen auto) Kp t now ops σ).1 m' ∧
      Store.Keeps (W.env g S gen auto) (Spec.Custom.Stores W) t m' (Upkeep.performs (W.env g S gen auto) Kp t now ops σ).2 ∧
      ∀ n, n ≠ tableName S t → (Upkeep.performs (W.env g S gen auto) Kp t now ops σ).2 n = σ n :=
  C97_upkeep_partial (custom_setup hk hW hs) hr hc (fun c h => by simp [Table.autoCol, ha] at h) ops hl hf now m σ hm

/-! ## C104: conditions and pages -/

/-- C104, queries: conditions compare values as in C101, and those of types with methods as the database compares what is in their columns; what is
found is what is stored. -/
theorem C104_query_partial (hW : Spec.Document.Behaves W.base) (hs : Spec.Typed.Shape g S t) (hn : Spelled g S t)
    (hk : ∀ c ∈ keyCols t, Spec.Custom.Keyed W c.field) (hK : Spec.Custom.Compares W K low other) (br : Spec.Sql.Brand)
    (m : Map F (Val U)) (σ : Spec.Sql.Store Custom.Cell) (hm : Store.Keeps (W.env g S gen auto) (Spec.Custom.Stores W) t m σ)
    (q : Query F (Val U)) (hq : ProperQuery (Spec.Custom.Stores W) t q) (hsel : q.select = [] ∨ q.select = t.columns)
    (ho : q.offset = 0 ∨ q.limit ≠ 0 ∨ br = .postgres) (zero : F → Val U) :
    ∃ l, Found (Spec.Custom.order W low other) t m q.where_ q.orderBy l ∧
      queryAll (W.env g S gen auto) br K t zero q σ =
        (.ok ((firstOf q.limit (l.drop q.offset)).map fun s => load t s zero), σ) :=
  C92_query_partial _ _ _ _ _ _ (custom_setup hk hW hs) (custom_agrees hW hK) hn m σ hm q hq hsel ho zero

/-- C104, updates with conditions. -/
theorem C104_update_partial (hW : Spec.Document.Behaves W.base) (hs : Spec.Typed.Shape g S t) (hn : Spelled g S t)
    (hk : ∀ c ∈ keyCols t, Spec.Custom.Keyed W c.field) (hK : Spec.Custom.Compares W K low other) (br : Spec.Sql.Brand)
    (hf : (t.columns.map (·.field)).Nodup) (m : Map F (Val U)) (σ : Spec.Sql.Store Custom.Cell)
    (hm : Store.Keeps (W.env g S gen auto) (Spec.Custom.Stores W) t m σ) (u : Change F (Val U))
    (hu : ProperChange (Spec.Custom.Stores W) t u) (hne : u.set ≠ []) (hd : (u.set.map (·.1)).Nodup)
    (hkey : ∀ p ∈ u.set, p.1 ∉ pick t (keyPos t)) (hst : g.style = .numbered → u.limit = 0) (ha : Allowed br u.orderBy u.limit) :
    ∃ l σ', Found (Spec.Custom.order W low other) t m u.where_ u.orderBy l ∧ updateAll (W.env g S gen auto) br K t u σ = (.ok (), σ') ∧
      Store.Keeps (W.env g S gen auto) (Spec.Custom.Stores W) t (setIn t u.set (firstOf u.limit l) m) σ' ∧
      ∀ n, n ≠ tableName S t → σ' n = σ n :=
  C92_update_partial _ _ _ _ _ _ (custom_setup hk hW hs) (custom_agrees hW hK) hn hf m σ hm u hu hne hd hkey hst ha

/-- C104, deletes with conditions. -/
theorem C104_delete_partial (hW : Spec.Document.Behaves W.base) (hs : Spec.Typed.Shape g S t) (hn : Spelled g S t)
    (hk : ∀ c ∈ keyCols t, Spec.Custom.Keyed W c.field) (hK : Spec.Custom.Compares W K low other) (br : Spec.Sql.Brand)
    (m : Map F (Val U)) (σ : Spec.Sql.Store Custom.Cell) (hm : Store.Keeps (W.env g S gen auto) (Spec.Custom.Stores W) t m σ)
    (u : Removal F (Val U)) (hu : ProperRemoval (Spec.Custom.Stores W) t u) (hst : g.style = .numbered → u.limit = 0)
    (ha : Allowed br u.orderBy u.limit) :
    ∃ l σ', Found (Spec.Custom.order W low other) t m u.where_ u.orderBy l ∧ deleteAll (W.env g S gen auto) br K t u σ = (.ok (), σ') ∧
      Store.Keeps (W.env g S gen auto) (Spec.Custom.Stores W) t (removeFrom t (firstOf u.limit l) m) σ' ∧
      ∀ n, n ≠ tableName S t → σ' n = σ n :=
  C92_delete_partial _ _ _ _ _ _ (custom_setup hk hW hs) (custom_agrees hW hK) hn m σ hm u hu hst ha

/-- C104, pages: from a stored record on, the pages together are the stored records from that one on, each once, in the order of the
keys; keys may be of types with methods. -/
theorem C104_pages_partial (hW : Spec.Document.Behaves W.base) (hs : Spec.Typed.Shape g S t) (hn : Spelled g S t)
    (hk : ∀ c ∈ keyCols t, Spec.Custom.Keyed W c.field) (hK : Spec.Custom.Compares W K low other) (br : Spec.Sql.Brand)
    (hbr : (keyCols t).length = 1 ∨ br = .postgres)
    (hrk : ∀ c ∈ keyCols t, W.own c.field = true → Ranked W other c.field) (d : Pager.Dir) (p : Paging F (Val U))
    (hw : p.where_ = none) (ho : p.orderBy = [])
    (hlim : p.limit ≠ 65535) (zero : F → Val U) (σ : Spec.Sql.Store Custom.Cell) (m : Map F (Val U))
    (hm : Store.Keeps (W.env g S gen auto) (Spec.Custom.Stores W) t m σ) (c : F → Val U) (hc : Good (Spec.Custom.Stores W) t c)
    (hin : m (keyOf t c) ≠ none) :
    ∃ l, Listed (Spec.Custom.order W low other) t (upOf d) m (From (Spec.Custom.order W low other) t (upOf d) c) l ∧
      ∀ fuel, l.length < fuel → ∃ pages : List (List (F → Val U)),
        paginate (W.env g S gen auto) br K t zero d p ⟨fun _ => σ, fun _ => σ⟩ (fun _ => true) fuel (some c) =
          ⟨pages.map fun page => Pager.Ev.page (page.map fun s => load t s zero), .finished⟩ ∧
        pages.flatten = l ∧ (∀ page ∈ pages, page.length ≤ pageSize p.limit) ∧
        ∀ page ∈ pages.dropLast, page.length = pageSize p.limit :=
  C93_static_partial _ _ _ _ _ _ (custom_setup hk hW hs) (custom_agrees hW hK) (custom_ordered hk hrk) hn hbr d p hw ho hlim zero σ m hm c hc
    hin

/-! ## C104: programs -/

omit [DecidableEq F] in
/-- C104, programs: clients that use the helpers on several models at the same time get what they would get from maps of records
(C98). -/
theorem C104_programs_partial [DecidableEq F] {I C : Type} [DecidableEq I] [DecidableEq C] {br : Spec.Sql.Brand} {t : I → Gen.Table F}
    {zero : I → F → Val U} {clients : C → Spec.Program.Client I F (Val U)} (hW : Spec.Document.Behaves W.base)
    (hs : ∀ i, Spec.Typed.Shape g S (t i)) (hn : ∀ i, Spelled g S (t i)) (hk : ∀ i, ∀ c ∈ keyCols (t i), Spec.Custom.Keyed W c.field)
    (hw : ∀ i, AllWritten (t i)) (ha : ∀ i, (t i).auto = none) (hf : ∀ i, ((t i).columns.map (·.field)).Nodup)
    (hK : Spec.Custom.Compares W K low other) (hg : Meant g br)
    (hd : ∀ i j, tableName S (t i) = tableName S (t j) → i = j) (cs : List C) (h : Spec.Program.Histories C F (Val U))
    (M : I → Map F (Val U))
    (hc : ∀ i a, Spec.Program.Calls g (fun _ => Spec.Custom.order W low other) t zero clients h M i a →
      Sound (W.env g S gen auto) (Spec.Custom.Stores W) br (t i) a)
    (σ : Spec.Sql.Store Custom.Cell) (hm : ∀ i, Store.Keeps (W.env g S gen auto) (Spec.Custom.Stores W) (t i) (M i) σ) :
    ∃ M', Spec.Program.Runs g (fun _ => Spec.Custom.order W low other) t zero clients cs h M
        (Program.play (W.env g S gen auto) br K t zero clients cs h σ).1 M' ∧
      (∀ i, Store.Keeps (W.env g S gen auto) (Spec.Custom.Stores W) (t i) (M' i)
        (Program.play (W.env g S gen auto) br K t zero clients cs h σ).2) ∧
      ∀ n, (∀ i, n ≠ tableName S (t i)) → (Program.play (W.env g S gen auto) br K t zero clients cs h σ).2 n = σ n :=
  C98_serial_partial (E := W.env g S gen auto) (O := fun _ => Spec.Custom.order W low other) hg
    (fun i => ⟨⟨custom_setup (hk i) hW (hs i), hw i⟩, custom_agrees hW hK, hn i, hf i, .inl (ha i)⟩) hd cs h M hc σ hm

end

end Verif.Props

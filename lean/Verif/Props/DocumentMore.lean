import Verif.Props.Document

/-!
# Property C101: keys, batches, conditions, pages and programs on records with documents
-/

namespace Verif.Props

open Verif Verif.Typed Verif.Document Verif.Spec Verif.Spec.Document
open Verif.Gen Verif.Store Verif.Spec.Store Verif.Spec.Gen

variable {F : Type}

section

variable {W : Document.World F} {K : Spec.Sql.Compare Document.Cell} {low : Bool} {g : Cfg} {S : Spec.Sql.Dialect}
  {gen : Spec.Sql.Tbl Document.Cell → Document.Cell} {auto : Typed.Kind} {t : Gen.Table F} {other : Spec.Store.Comp F Document.Val}

variable [DecidableEq F]

/-! ## C101: records by key -/

/-- C101: records of fields of the types of C99 and of documents, in the columns declared for them, of which every value fits its column.
Whatever the sequence of inserts, finds, updates and deletes: every call gives what it would on a map from keys to records, the table has
the records of the map afterwards, and no other table has changed. -/
theorem C101_store_partial (hW : Spec.Document.Behaves W) (hs : Spec.Typed.Shape g S t)
    (hk : ∀ c ∈ keyCols t, Spec.Document.Keyed W c.field) (hw : AllWritten t) (ha : t.auto = none)
    (ops : List (Spec.Store.Op F Document.Val)) (hf : ∀ o ∈ ops, Fine (Spec.Document.Stores W) t o) (m : Map F Document.Val)
    (σ : Spec.Sql.Store Document.Cell) (hm : Store.Keeps (W.env g S gen auto) (Spec.Document.Stores W) t m σ) :
    (performs (W.env g S gen auto) t ops σ).1 = (acts t ops m).1 ∧
      Store.Keeps (W.env g S gen auto) (Spec.Document.Stores W) t (acts t ops m).2 (performs (W.env g S gen auto) t ops σ).2 ∧
      ∀ n, n ≠ tableName S t → (performs (W.env g S gen auto) t ops σ).2 n = σ n :=
  C90_keyed_store (doc_setup hk hW hs) hw ha ops hf m σ hm

/-- C101, for one record: what `InsertOne` stored is found by `FindByPK`, whatever is done with other keys in between, and whatever is in
the record that it is read into. -/
theorem C101_reads_back_partial (hW : Spec.Document.Behaves W) (hs : Spec.Typed.Shape g S t)
    (hk : ∀ c ∈ keyCols t, Spec.Document.Keyed W c.field) (hw : AllWritten t) (ha : t.auto = none) (m : Map F Document.Val)
    (σ : Spec.Sql.Store Document.Cell) (hm : Store.Keeps (W.env g S gen auto) (Spec.Document.Stores W) t m σ) (r r' : F → Document.Val)
    (hr : Good (Spec.Document.Stores W) t r) (hr' : Good (Spec.Document.Stores W) t r') (hkey : keyOf t r' = keyOf t r)
    (ops : List (Spec.Store.Op F Document.Val)) (hf : ∀ o ∈ ops, Fine (Spec.Document.Stores W) t o)
    (ho : ∀ o ∈ ops, keyOf t o.record ≠ keyOf t r) (σ₁ : Spec.Sql.Store Document.Cell)
    (hin : insertOne (W.env g S gen auto) t r σ = (.ok r, σ₁)) :
    (findByPK (W.env g S gen auto) t r' (performs (W.env g S gen auto) t ops σ₁).2).1 = .ok (load t r r') :=
  C90_reads_back (doc_setup hk hW hs) hw ha m σ hm r r' hr hr' hkey ops hf ho σ₁ hin

/-! ## C101: batches -/

section Batches
variable (hW : Spec.Document.Behaves W) (hs : Spec.Typed.Shape g S t) (hk : ∀ c ∈ keyCols t, Spec.Document.Keyed W c.field) (hw : AllWritten t)
  (ha : t.auto = none) (hf : (t.columns.map (·.field)).Nodup) (hn : HelperNames g S t)
  (hst : g.style = if g.postgres then .numbered else .anon)
include hW hs hk hw ha hf hn hst

/-- C101, batches: records with new keys are stored, all of them as they are; if one of the keys is taken or occurs twice, nothing
is. -/
theorem C101_insert_partial {ru : Spec.Sql.Rules} (hru : g.postgres = true → ru = .onConflict) {m : Map F Document.Val}
    {σ : Spec.Sql.Store Document.Cell} (hm : Store.Keeps (W.env g S gen auto) (Spec.Document.Stores W) t m σ) (rs : List (F → Document.Val))
    (hr : ∀ r ∈ rs, Good (Spec.Document.Stores W) t r) :
    (((rs.map (keyOf t)).Nodup ∧ ∀ r ∈ rs, m (keyOf t r) = none) → ∃ σ', insertMany (W.env g S gen auto) ru t rs σ = (.ok rs, σ') ∧
      After (W.env g S gen auto) (Spec.Document.Stores W) t (fun k => (withKey t rs k).or (m k)) σ σ') ∧
    (¬ ((rs.map (keyOf t)).Nodup ∧ ∀ r ∈ rs, m (keyOf t r) = none) →
      insertMany (W.env g S gen auto) ru t rs σ = (.duplicate, σ)) :=
  C91_insert ⟨doc_setup hk hW hs, hw⟩ hf hn hst ha hru hm rs hr

/-- C101, upserts with override: the fields of records with taken keys are replaced, the other records are new. -/
theorem C101_upsert_partial (w : Wish) (hkp : w.keep = false) (hre : replaced g t w ≠ []) {m : Map F Document.Val}
    {σ : Spec.Sql.Store Document.Cell} (hm : Store.Keeps (W.env g S gen auto) (Spec.Document.Stores W) t m σ) {rs : List (F → Document.Val)}
    (hne : rs ≠ []) (hr : ∀ r ∈ rs, Good (Spec.Document.Stores W) t r) (hd : (rs.map (keyOf t)).Nodup) :
    ∃ σ', upsertMany (W.env g S gen auto) (rulesOf g) t w rs σ = (.ok (if g.postgres then
        rs.map fun r => load t (storedFor t ((replaced g t w).map (·.field)) m r) r else rs), σ') ∧
      After (W.env g S gen auto) (Spec.Document.Stores W) t
        (fun k => ((withKey t rs k).map (storedFor t ((replaced g t w).map (·.field)) m)).or (m k)) σ σ' :=
  C91_upsert_replace ⟨doc_setup hk hW hs, hw⟩ hf hn hst ha w hkp hre hm hne hr hd

/-- C101, upserts that keep what is there: only records with new keys are stored. -/
theorem C101_upsert_keep_partial (w : Wish) (hkp : w.keep = true) {m : Map F Document.Val} {σ : Spec.Sql.Store Document.Cell}
    (hm : Store.Keeps (W.env g S gen auto) (Spec.Document.Stores W) t m σ) {rs : List (F → Document.Val)} (hne : rs ≠ [])
    (hr : ∀ r ∈ rs, Good (Spec.Document.Stores W) t r) :
    ∃ rs' σ', upsertMany (W.env g S gen auto) (rulesOf g) t w rs σ = (.ok rs', σ') ∧ (g.postgres = false → rs' = rs) ∧
      After (W.env g S gen auto) (Spec.Document.Stores W) t (fun k => (m k).or (withKey t rs k)) σ σ' :=
  C91_upsert_keep_partial ⟨doc_setup hk hW hs, hw⟩ hf hn hst ha w hkp hm hne hr

end Batches

/-- C101, with columns that are only read and filled in by the database, as times of creation are. -/
theorem C101_upkeep_partial {Kp : Spec.Upkeep.Keeper Document.Cell} {u : Spec.Upkeep.Care F Document.Val} (hW : Spec.Document.Behaves W)
    (hs : Spec.Typed.Shape g S t) (hk : ∀ c ∈ keyCols t, Spec.Document.Keyed W c.field) (hr : Spec.Upkeep.Kept t)
    (hc : Spec.Upkeep.Cares (W.env g S gen auto).enc (.base (.base .null)) S (Spec.Document.Stores W) Kp u t) (ha : t.auto = none)
    (ops : List (Spec.Store.Op F Document.Val)) (hl : (∃ r, Spec.Store.Op.update r ∈ ops) →
      2 ≤ (pick t (keyPos t)).length ∨ g.style = .anon ∨ t.columns.length = (updatePos t).length + 1)
    (hf : ∀ o ∈ ops, Fine (Spec.Document.Stores W) t o) (now : Nat) (m : Map F Document.Val) (σ : Spec.Sql.Store Document.Cell)
    (hm : Store.Keeps (W.env g S gen auto) (Spec.Document.Stores W) t m σ) :
    ∃ m', Spec.Upkeep.Acts g.postgres t u now ops m (Upkeep.performs (W.env g S gen auto) Kp t now ops σ).1 m' ∧
      Store.Keeps (W.env g S gen auto) (Spec.Document.Stores W) t m' (Upkeep.performs (W.env g S gen auto) Kp t now ops σ).2 ∧
      ∀ n, n ≠ tableName S t → (Upkeep.performs (W.env g S gen auto) Kp t now ops σ).2 n = σ n :=
  C97_upkeep_partial (doc_setup hk hW hs) hr hc (fun c h => by simp [Table.autoCol, ha] at h) ops hl hf now m σ hm

/-! ## C101: conditions and pages -/

/-- C101, queries: conditions compare values as Go does, times by their order; what is found is what is stored. -/
theorem C101_query_partial (hW : Spec.Document.Behaves W) (hs : Spec.Typed.Shape g S t) (hn : Spelled g S t)
    (hk : ∀ c ∈ keyCols t, Spec.Document.Keyed W c.field) (hK : Compares W K low other) (br : Spec.Sql.Brand)
    (m : Map F Document.Val) (σ : Spec.Sql.Store Document.Cell) (hm : Store.Keeps (W.env g S gen auto) (Spec.Document.Stores W) t m σ)
    (q : Query F Document.Val) (hq : ProperQuery (Spec.Document.Stores W) t q) (hsel : q.select = [] ∨ q.select = t.columns)
    (ho : q.offset = 0 ∨ q.limit ≠ 0 ∨ br = .postgres) (zero : F → Document.Val) :
    ∃ l, Found (Spec.Document.order W low other) t m q.where_ q.orderBy l ∧
      queryAll (W.env g S gen auto) br K t zero q σ =
        (.ok ((firstOf q.limit (l.drop q.offset)).map fun s => load t s zero), σ) :=
  C92_query_partial _ _ _ _ _ _ (doc_setup hk hW hs) (doc_agrees hW hK) hn m σ hm q hq hsel ho zero

/-- C101, updates with conditions. -/
theorem C101_update_partial (hW : Spec.Document.Behaves W) (hs : Spec.Typed.Shape g S t) (hn : Spelled g S t)
    (hk : ∀ c ∈ keyCols t, Spec.Document.Keyed W c.field) (hK : Compares W K low other) (br : Spec.Sql.Brand)
    (hf : (t.columns.map (·.field)).Nodup) (m : Map F Document.Val) (σ : Spec.Sql.Store Document.Cell)
    (hm : Store.Keeps (W.env g S gen auto) (Spec.Document.Stores W) t m σ) (u : Change F Document.Val)
    (hu : ProperChange (Spec.Document.Stores W) t u) (hne : u.set ≠ []) (hd : (u.set.map (·.1)).Nodup)
    (hkey : ∀ p ∈ u.set, p.1 ∉ pick t (keyPos t)) (hst : g.style = .numbered → u.limit = 0) (ha : Allowed br u.orderBy u.limit) :
    ∃ l σ', Found (Spec.Document.order W low other) t m u.where_ u.orderBy l ∧ updateAll (W.env g S gen auto) br K t u σ = (.ok (), σ') ∧
      Store.Keeps (W.env g S gen auto) (Spec.Document.Stores W) t (setIn t u.set (firstOf u.limit l) m) σ' ∧
      ∀ n, n ≠ tableName S t → σ' n = σ n :=
  C92_update_partial _ _ _ _ _ _ (doc_setup hk hW hs) (doc_agrees hW hK) hn hf m σ hm u hu hne hd hkey hst ha

/-- C101, deletes with conditions. -/
theorem C101_delete_partial (hW : Spec.Document.Behaves W) (hs : Spec.Typed.Shape g S t) (hn : Spelled g S t)
    (hk : ∀ c ∈ keyCols t, Spec.Document.Keyed W c.field) (hK : Compares W K low other) (br : Spec.Sql.Brand)
    (m : Map F Document.Val) (σ : Spec.Sql.Store Document.Cell) (hm : Store.Keeps (W.env g S gen auto) (Spec.Document.Stores W) t m σ)
    (u : Removal F Document.Val) (hu : ProperRemoval (Spec.Document.Stores W) t u) (hst : g.style = .numbered → u.limit = 0)
    (ha : Allowed br u.orderBy u.limit) :
    ∃ l σ', Found (Spec.Document.order W low other) t m u.where_ u.orderBy l ∧ deleteAll (W.env g S gen auto) br K t u σ = (.ok (), σ') ∧
      Store.Keeps (W.env g S gen auto) (Spec.Document.Stores W) t (removeFrom t (firstOf u.limit l) m) σ' ∧
      ∀ n, n ≠ tableName S t → σ' n = σ n :=
  C92_delete_partial _ _ _ _ _ _ (doc_setup hk hW hs) (doc_agrees hW hK) hn m σ hm u hu hst ha

/-- C101, pages: from a stored record on, the pages together are the stored records from that one on, each once, in the order of the
keys; keys may have times in them. -/
theorem C101_pages_partial (hW : Spec.Document.Behaves W) (hs : Spec.Typed.Shape g S t) (hn : Spelled g S t)
    (hk : ∀ c ∈ keyCols t, Spec.Document.Keyed W c.field) (hK : Compares W K low other) (br : Spec.Sql.Brand)
    (hbr : (keyCols t).length = 1 ∨ br = .postgres) (d : Pager.Dir) (p : Paging F Document.Val) (hw : p.where_ = none) (ho : p.orderBy = [])
    (hlim : p.limit ≠ 65535) (zero : F → Document.Val) (σ : Spec.Sql.Store Document.Cell) (m : Map F Document.Val)
    (hm : Store.Keeps (W.env g S gen auto) (Spec.Document.Stores W) t m σ) (c : F → Document.Val) (hc : Good (Spec.Document.Stores W) t c)
    (hin : m (keyOf t c) ≠ none) :
    ∃ l, Listed (Spec.Document.order W low other) t (upOf d) m (From (Spec.Document.order W low other) t (upOf d) c) l ∧
      ∀ fuel, l.length < fuel → ∃ pages : List (List (F → Document.Val)),
        paginate (W.env g S gen auto) br K t zero d p ⟨fun _ => σ, fun _ => σ⟩ (fun _ => true) fuel (some c) =
          ⟨pages.map fun page => Pager.Ev.page (page.map fun s => load t s zero), .finished⟩ ∧
        pages.flatten = l ∧ (∀ page ∈ pages, page.length ≤ pageSize p.limit) ∧
        ∀ page ∈ pages.dropLast, page.length = pageSize p.limit :=
  C93_static_partial _ _ _ _ _ _ (doc_setup hk hW hs) (doc_agrees hW hK) (doc_ordered hk) hn hbr d p hw ho hlim zero σ m hm c hc
    hin

/-! ## C101: programs -/

omit [DecidableEq F] in
/-- C101, programs: clients that use the helpers on several models at the same time get what they would get from maps of records
(C98). -/
theorem C101_programs_partial [DecidableEq F] {I C : Type} [DecidableEq I] [DecidableEq C] {br : Spec.Sql.Brand} {t : I → Gen.Table F}
    {zero : I → F → Document.Val} {clients : C → Spec.Program.Client I F Document.Val} (hW : Spec.Document.Behaves W)
    (hs : ∀ i, Spec.Typed.Shape g S (t i)) (hn : ∀ i, Spelled g S (t i)) (hk : ∀ i, ∀ c ∈ keyCols (t i), Spec.Document.Keyed W c.field)
    (hw : ∀ i, AllWritten (t i)) (ha : ∀ i, (t i).auto = none) (hf : ∀ i, ((t i).columns.map (·.field)).Nodup)
    (hK : Compares W K low other) (hg : Meant g br)
    (hd : ∀ i j, tableName S (t i) = tableName S (t j) → i = j) (cs : List C) (h : Spec.Program.Histories C F Document.Val)
    (M : I → Map F Document.Val)
    (hc : ∀ i a, Spec.Program.Calls g (fun _ => Spec.Document.order W low other) t zero clients h M i a →
      Sound (W.env g S gen auto) (Spec.Document.Stores W) br (t i) a)
    (σ : Spec.Sql.Store Document.Cell) (hm : ∀ i, Store.Keeps (W.env g S gen auto) (Spec.Document.Stores W) (t i) (M i) σ) :
    ∃ M', Spec.Program.Runs g (fun _ => Spec.Document.order W low other) t zero clients cs h M
        (Program.play (W.env g S gen auto) br K t zero clients cs h σ).1 M' ∧
      (∀ i, Store.Keeps (W.env g S gen auto) (Spec.Document.Stores W) (t i) (M' i)
        (Program.play (W.env g S gen auto) br K t zero clients cs h σ).2) ∧
      ∀ n, (∀ i, n ≠ tableName S (t i)) → (Program.play (W.env g S gen auto) br K t zero clients cs h σ).2 n = σ n :=
  C98_serial_partial (E := W.env g S gen auto) (O := fun _ => Spec.Document.order W low other) hg
    (fun i => ⟨⟨doc_setup (hk i) hW (hs i), hw i⟩, doc_agrees hW hK, hn i, hf i, .inl (ha i)⟩) hd cs h M hc σ hm

end

end Verif.Props

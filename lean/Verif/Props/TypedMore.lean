import Verif.Props.TypedOrder
import Verif.Props.Bulk
import Verif.Props.Upkeep
import Verif.Props.Program

/-!
# Batches, read-only columns, pages under changes and programs, on records of Go types (C96)
-/

namespace Verif.Props

open Verif Verif.Dispatch Verif.Typed Verif.ColumnType Verif.Spec.Float Verif.Spec.Columns Verif.Scan Verif.Spec.Typed Verif.Float Verif.Spec.Scan
open Verif.Gen Verif.Store Verif.Spec.Store Verif.Spec.Gen

variable {F : Type} [DecidableEq F] {W : World F} {g : Cfg} {S : Spec.Sql.Dialect} {t : Table F} {gen : Spec.Sql.Tbl Cell → Cell}
  {auto : Kind}

/-! ## Batches -/

section Batches
variable (hW : Behaves W) (hs : Shape g S t) (hk : ∀ c ∈ pick t (keyPos t), isPtr (W.ty c.field) = false) (hw : AllWritten t)
  (ha : t.auto = none) (hf : (t.columns.map (·.field)).Nodup) (hn : HelperNames g S t)
  (hst : g.style = if g.postgres then .numbered else .anon)
include hW hs hk hw ha hf hn hst

/-- C96, batches: records with new keys are stored, all of them as they are; if one of the keys is taken or occurs twice, nothing
is. -/
theorem C96_insert_partial {ru : Spec.Sql.Rules} (hru : g.postgres = true → ru = .onConflict) {m : Map F Val} {σ : Spec.Sql.Store Cell}
    (hm : Store.Keeps (W.env g S gen auto) (Stores W) t m σ) (rs : List (F → Val)) (hr : ∀ r ∈ rs, Good (Stores W) t r) :
    (((rs.map (keyOf t)).Nodup ∧ ∀ r ∈ rs, m (keyOf t r) = none) → ∃ σ', insertMany (W.env g S gen auto) ru t rs σ = (.ok rs, σ') ∧
      After (W.env g S gen auto) (Stores W) t (fun k => (withKey t rs k).or (m k)) σ σ') ∧
    (¬ ((rs.map (keyOf t)).Nodup ∧ ∀ r ∈ rs, m (keyOf t r) = none) →
      insertMany (W.env g S gen auto) ru t rs σ = (.duplicate, σ)) :=
  C91_insert ⟨typed_setup hW hs hk, hw⟩ hf hn hst ha hru hm rs hr

/-- C96, upserts with override: the fields of records with taken keys are replaced, the other records are new. -/
theorem C96_upsert_partial (w : Wish) (hkp : w.keep = false) (hre : replaced g t w ≠ []) {m : Map F Val} {σ : Spec.Sql.Store Cell}
    (hm : Store.Keeps (W.env g S gen auto) (Stores W) t m σ) {rs : List (F → Val)} (hne : rs ≠ [])
    (hr : ∀ r ∈ rs, Good (Stores W) t r) (hd : (rs.map (keyOf t)).Nodup) :
    ∃ σ', upsertMany (W.env g S gen auto) (rulesOf g) t w rs σ = (.ok (if g.postgres then
        rs.map fun r => load t (storedFor t ((replaced g t w).map (·.field)) m r) r else rs), σ') ∧
      After (W.env g S gen auto) (Stores W) t
        (fun k => ((withKey t rs k).map (storedFor t ((replaced g t w).map (·.field)) m)).or (m k)) σ σ' :=
  C91_upsert_replace ⟨typed_setup hW hs hk, hw⟩ hf hn hst ha w hkp hre hm hne hr hd

/-- C96, upserts that keep what is there: only records with new keys are stored. -/
theorem C96_upsert_keep_partial (w : Wish) (hkp : w.keep = true) {m : Map F Val} {σ : Spec.Sql.Store Cell}
    (hm : Store.Keeps (W.env g S gen auto) (Stores W) t m σ) {rs : List (F → Val)} (hne : rs ≠ [])
    (hr : ∀ r ∈ rs, Good (Stores W) t r) :
    ∃ rs' σ', upsertMany (W.env g S gen auto) (rulesOf g) t w rs σ = (.ok rs', σ') ∧ (g.postgres = false → rs' = rs) ∧
      After (W.env g S gen auto) (Stores W) t (fun k => (m k).or (withKey t rs k)) σ σ' :=
  C91_upsert_keep_partial ⟨typed_setup hW hs hk, hw⟩ hf hn hst ha w hkp hm hne hr

end Batches

/-! ## Columns that are only read -/

/-- C96, with columns that are only read and filled in by the database: as on a map of records whose read-only fields are left to
the database. -/
theorem C96_upkeep_partial {K : Spec.Upkeep.Keeper Cell} {u : Spec.Upkeep.Care F Val} (hW : Behaves W) (hs : Shape g S t)
    (hk : ∀ c ∈ pick t (keyPos t), isPtr (W.ty c.field) = false) (hr : Spec.Upkeep.Kept t)
    (hc : Spec.Upkeep.Cares (W.env g S gen auto).enc .null S (Stores W) K u t) (ha : t.auto = none)
    (ops : List (Spec.Store.Op F Val)) (hl : (∃ r, Spec.Store.Op.update r ∈ ops) →
      2 ≤ (pick t (keyPos t)).length ∨ g.style = .anon ∨ t.columns.length = (updatePos t).length + 1)
    (hf : ∀ o ∈ ops, Fine (Stores W) t o) (now : Nat) (m : Map F Val) (σ : Spec.Sql.Store Cell)
    (hm : Store.Keeps (W.env g S gen auto) (Stores W) t m σ) :
    ∃ m', Spec.Upkeep.Acts g.postgres t u now ops m (Upkeep.performs (W.env g S gen auto) K t now ops σ).1 m' ∧
      Store.Keeps (W.env g S gen auto) (Stores W) t m' (Upkeep.performs (W.env g S gen auto) K t now ops σ).2 ∧
      ∀ n, n ≠ tableName S t → (Upkeep.performs (W.env g S gen auto) K t now ops σ).2 n = σ n :=
  C97_upkeep_partial (typed_setup hW hs hk) hr hc (fun c h => by simp [Table.autoCol, ha] at h) ops hl hf now m σ hm

/-! ## Pages -/

/-- C96, pages while others change the table between any two statements: what is delivered was stored when it was read, in the order
in which Go compares the keys, no key twice; and what was there all the time is not left out (see `Tour`). -/
theorem C96_pages_changing_partial {K : Spec.Sql.Compare Cell} {low : Bool} {like : F → Val → Val → Bool} (hW : Behaves W)
    (hs : Shape g S t) (hn : Spelled g S t) (hk : ∀ c ∈ keyCols t, isPtr (W.ty c.field) = false) (hK : Sorts K low)
    (hl : Likes W K like) (br : Spec.Sql.Brand) (hbr : (keyCols t).length = 1 ∨ br = .postgres) (d : Pager.Dir) (p : Paging F Val)
    (hw : p.where_ = none) (ho : p.orderBy = []) (hlim : p.limit ≠ 65535) (zero : F → Val) (w : Course Cell) (mF mQ : Nat → Map F Val)
    (hF : ∀ j, Store.Keeps (W.env g S gen auto) (Stores W) t (mF j) (w.find j))
    (hQ : ∀ j, Store.Keeps (W.env g S gen auto) (Stores W) t (mQ j) (w.query j)) (fuel : Nat) (c : F → Val)
    (hc : Good (Stores W) t c) :
    ∃ pages lost more,
      paginate (W.env g S gen auto) br K t zero d p w (fun _ => true) fuel (some c) =
        ⟨pages.map (fun page => Pager.Ev.page (page.map fun s => load t s zero)) ++ (if lost then [Pager.Ev.error] else []),
          if more then .running else .finished⟩ ∧
      (more = true → pages.length = fuel) ∧
      Tour (order W low like) t (upOf d) (pageSize p.limit) mF mQ c pages lost more :=
  C93_pages_partial _ _ _ _ _ _ (typed_setup hW hs hk) (typed_agrees hW hK hl) (typed_ordered hk) hn hbr d p hw ho hlim zero w mF mQ hF
    hQ fuel c hc

/-! ## Programs -/

/-- C96, programs: clients that use the helpers on several models at the same time get what they would get from maps of records
(C98). -/
theorem C96_programs_partial {I C : Type} [DecidableEq I] [DecidableEq C] {K : Spec.Sql.Compare Cell} {low : Bool}
    {like : F → Val → Val → Bool} {br : Spec.Sql.Brand} {t : I → Table F} {zero : I → F → Val}
    {clients : C → Spec.Program.Client I F Val} (hW : Behaves W) (hs : ∀ i, Shape g S (t i)) (hn : ∀ i, Spelled g S (t i))
    (hk : ∀ i, ∀ c ∈ keyCols (t i), isPtr (W.ty c.field) = false) (hw : ∀ i, AllWritten (t i)) (ha : ∀ i, (t i).auto = none)
    (hf : ∀ i, ((t i).columns.map (·.field)).Nodup) (hK : Sorts K low) (hl : Likes W K like) (hg : Meant g br)
    (hd : ∀ i j, tableName S (t i) = tableName S (t j) → i = j)
    (cs : List C) (h : Spec.Program.Histories C F Val) (M : I → Map F Val)
    (hc : ∀ i a, Spec.Program.Calls g (fun _ => order W low like) t zero clients h M i a → Sound (W.env g S gen auto) (Stores W) br (t i) a)
    (σ : Spec.Sql.Store Cell)
    (hm : ∀ i, Store.Keeps (W.env g S gen auto) (Stores W) (t i) (M i) σ) :
    ∃ M', Spec.Program.Runs g (fun _ => order W low like) t zero clients cs h M
        (Program.play (W.env g S gen auto) br K t zero clients cs h σ).1 M' ∧
      (∀ i, Store.Keeps (W.env g S gen auto) (Stores W) (t i) (M' i) (Program.play (W.env g S gen auto) br K t zero clients cs h σ).2) ∧
      ∀ n, (∀ i, n ≠ tableName S (t i)) → (Program.play (W.env g S gen auto) br K t zero clients cs h σ).2 n = σ n :=
  C98_serial_partial (E := W.env g S gen auto) (O := fun _ => order W low like) hg
    (fun i => ⟨⟨typed_setup hW (hs i) (hk i), hw i⟩, typed_agrees hW hK hl, hn i, hf i, .inl (ha i)⟩) hd cs h M hc σ hm

/-! ### On PostgreSQL -/

example : AllWritten (storeUser "people") ∧ (storeUser "people").auto = none ∧
    ((storeUser "people").columns.map (·.field)).Nodup ∧ HelperNames (storeCfg true) storePg (storeUser "people") ∧
    (storeCfg true).style = .numbered := by
  refine ⟨by simp [AllWritten, storeUser], rfl, by simp [storeUser], ⟨fun _ _ => .inl rfl, .inr rfl⟩, rfl⟩

def typedAll (a : Out (List (Nat → Val)) × Spec.Sql.Store Cell) (ks : List Int) :
    Option (List (List Val)) × List (Option (List Val)) :=
  (match a.1 with
    | .ok rs => some (rs.map fun r => (genAddrs (storeUser "people")).map r)
    | _ => none,
  ks.map fun k => match (findByPK typedEnv (storeUser "people") (typedRec k (.num false 0) none) a.2).1 with
    | .ok r => some ((genAddrs (storeUser "people")).map r)
    | _ => none)

/-- a new one and one that is there already: with `UpsertMany` the second is replaced, except for the name -/
example : typedAll (upsertMany typedEnv .onConflict (storeUser "people") { omitted := ["\"group\""] }
    [typedRec (-3) (.num true 5) (some "Ben"), typedRec 9 (.num false 1) (some "X")] typedThree) [-3, 9] =
    (some [[.int (-3), .flt (.num true 5), .str "Ben".toUTF8.toList], [.int 9, .flt (.num false 1), .str "Zoë".toUTF8.toList]],
      [some [.int (-3), .flt (.num true 5), .str "Ben".toUTF8.toList],
        some [.int 9, .flt (.num false 1), .str "Zoë".toUTF8.toList]]) := by decide +kernel
/-- with `Insert` none of them is stored -/
example : typedAll (insertMany typedEnv .onConflict (storeUser "people")
    [typedRec (-3) (.num true 5) (some "Ben"), typedRec 9 (.num false 1) (some "X")] typedThree) [-3] = (none, [none]) := by
  decide +kernel

/-- The third column is filled in by the database. -/
def typedKept : Table Nat :=
  { storeUser "people" with
    columns := [⟨"id", 10, 0, false, none, none⟩, ⟨"name", 13, 1, false, none, none⟩, ⟨"group", 15, 2, true, none, none⟩] }

def typedKeeper : Spec.Upkeep.Keeper Cell where
  guarded _ n := n = "group".toList
  touch _ _ old row n := if n = "group".toList then (match old with | none => .text "new".toUTF8.toList | some o => o n) else row n

def typedCare : Spec.Upkeep.Care Nat Val := fun _ s r f =>
  if f = 15 then (match s with | none => .str "new".toUTF8.toList | some s => s f) else r f

private theorem keptCols {P : GCol Nat → Prop}
    (h : P ⟨"id", 10, 0, false, none, none⟩ ∧ P ⟨"name", 13, 1, false, none, none⟩ ∧ P ⟨"group", 15, 2, true, none, none⟩) :
    ∀ c ∈ typedKept.columns, P c := by
  intro c hc
  simp only [typedKept, List.mem_cons, List.not_mem_nil, or_false] at hc
  obtain ⟨h1, h2, h3⟩ := h
  rcases hc with rfl | rfl | rfl <;> assumption

example : Shape (storeCfg true) storePg typedKept ∧ Spec.Upkeep.Kept typedKept ∧
    (∀ c ∈ pick typedKept (keyPos typedKept), isPtr (typedWorld.ty c.field) = false) := by
  have h := typedShape true
  refine ⟨⟨⟨by simp [typedKept], ?_, by simp [typedKept, storeUser], by simp [typedKept, storeUser], by simp [typedKept, storeUser]⟩, rfl,
    ⟨.inr rfl, h.named.table, keptCols ⟨h.named.cols ⟨"id", 10, 0, false, none, none⟩ (by simp [storeUser]),
      h.named.cols ⟨"name", 13, 1, false, none, none⟩ (by simp [storeUser]),
      h.named.cols ⟨"group", 15, 2, false, none, none⟩ (by simp [storeUser])⟩⟩,
    ⟨h.bare.table, ?_⟩, keptCols (by simp), by decide, by simp [typedKept, storeUser]⟩,
    ⟨by simp [typedKept], by decide +kernel⟩, by decide +kernel⟩
  · intro i c h
    match i, h with
    | 0, h => simp [typedKept] at h; subst h; rfl
    | 1, h => simp [typedKept] at h; subst h; rfl
    | 2, h => simp [typedKept] at h; subst h; rfl
    | n + 3, h => simp [typedKept] at h
  · exact h.bare.keys

example : Spec.Upkeep.Cares typedEnv.enc .null storePg (Stores typedWorld) typedKeeper typedCare typedKept := by
  have hf : Spec.Upkeep.readFields typedKept = [15] := by simp [Spec.Upkeep.readFields, typedKept]
  have other : ∀ (T : Spec.Sql.Name) (now : Nat) (old : Option (Spec.Sql.Row Cell)) (row : Spec.Sql.Row Cell) (n : Spec.Sql.Name),
      n ≠ "group".toList → typedKeeper.touch T now old row n = row n := by
    intro T now old row n h
    simp only [typedKeeper, if_neg h]
  refine ⟨keptCols ⟨fun _ => (by decide : typedKeeper.guarded [] "id".toList = false),
    fun _ => (by decide : typedKeeper.guarded [] "name".toList = false), by simp⟩, ?_, ?_, ?_, ?_⟩
  · intro now s r f hff
    rw [hf] at hff
    simp only [List.mem_cons, List.not_mem_nil, or_false] at hff
    simp [typedCare, hff]
  · intro now s r hs hr
    refine keptCols ⟨hr _ (by simp [typedKept]), hr _ (by simp [typedKept]), ?_⟩
    cases s with
    | none =>
      exact ⟨_, _, typedCols.2.2 15 (by decide) (by decide), .inr (.string ⟨"new".toList, by decide +kernel, by decide, by decide⟩)⟩
    | some s' => exact hs s' rfl ⟨"group", 15, 2, true, none, none⟩ (by simp [typedKept])
  · intro now r row _ hrow
    refine keptCols ⟨?_, ?_, ?_⟩
    · exact (other _ _ _ _ "id".toList (by decide)).trans (hrow ⟨"id", 10, 0, false, none, none⟩ (by simp [typedKept]))
    · exact (other _ _ _ _ "name".toList (by decide)).trans (hrow ⟨"name", 13, 1, false, none, none⟩ (by simp [typedKept]))
    · have : typedEnv.enc 15 (.str "new".toUTF8.toList) = .text "new".toUTF8.toList := by decide +kernel
      exact this.symm
  · intro now s r old row _ _ hold hrow
    refine keptCols ⟨?_, ?_, ?_⟩
    · exact (other _ _ _ _ "id".toList (by decide)).trans (hrow ⟨"id", 10, 0, false, none, none⟩ (by simp [typedKept]))
    · exact (other _ _ _ _ "name".toList (by decide)).trans (hrow ⟨"name", 13, 1, false, none, none⟩ (by simp [typedKept]))
    · exact hold ⟨"group", 15, 2, true, none, none⟩ (by simp [typedKept])

/-- what the program has in the field is ignored -/
example : ((Upkeep.performs typedEnv typedKeeper typedKept 0 [.insert (typedRec 7 (.num true 5) none), .find (typedRec 7 (.num true 1) none)]
    fun n => if n = "people".toList then some (Spec.Store.tableOf storePg typedKept []) else none).1.map fun
      | .ok r => some ((genAddrs typedKept).map r)
      | _ => none) = [some [.int 7, .flt (.num true 5), .str "new".toUTF8.toList], some [.int 7, .flt (.num true 5), .str "new".toUTF8.toList]] := by
  decide +kernel

end Verif.Props

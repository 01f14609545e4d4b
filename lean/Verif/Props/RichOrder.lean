import Verif.Props.Rich
import Verif.Props.TypedMore

/-!
# Batches, conditions, pages and programs on records with lists, byte strings and times (C99)
-/

namespace Verif.Props

open Verif Verif.Dispatch Verif.Typed Verif.Rich Verif.ColumnType Verif.Scan Verif.Float Verif.Spec
open Verif.Spec.Rich Verif.Spec.Float Verif.Spec.Scan
open Verif.Gen Verif.Store Verif.Spec.Store Verif.Spec.Gen

variable {F : Type}

/-! ## What the columns keep -/

/-- What is in the column of a field of the form `k`. -/
inductive Seen (e f : Format) : Form → Rich.Val → Rich.Cell → Prop
  | nil {k} : Seen e f k (.base .nil) (.base .null)
  | base {k v c} : Shows e f v c → Seen e f (.scalar k) (.base v) (.base c)
  | bytes {s} : Seen e f .bytes (.bytes s) (.blob s)
  | time {i} : Seen e f .time (.time i) (.time i)
  | list {k v c} : ListOf k v → c ≠ .base .null → Seen e f (.list k) v c

def richFormat : Spec.Rich.Col → Format
  | .base c => colFormat c
  | _ => double

theorem list_of_fits {k : Typed.Kind} {col : Spec.Rich.Col} {v : Rich.Val} (h : Spec.Rich.Fits (.list k) col v) : ListOf k v := by
  cases h with
  | bools => exact .bools
  | ints h =>
    refine .ints fun n hn => ?_
    have := (fits_ints _ _ n).1 (h n hn)
    exact ⟨this.1, this.2.1⟩
  | strs h => exact .strs h
  | text h => exact h

theorem seen_of {W : Rich.World F} (hW : Spec.Rich.Behaves W) {f : F} {k : Form} {col : Spec.Rich.Col}
    (hc : Spec.Rich.HasCol W f k col) {v : Rich.Val} (h : v = .base .nil ∧ MayBeNil W f k ∨ Spec.Rich.Fits k col v) :
    Seen (Spec.Typed.formatOf W.decls (W.ty f)) (richFormat col) k v
      (W.keep f (Rich.write W.dialect W.decls W.facts (W.ty f) v)) := by
  by_cases hs : ∃ e, k = .scalar e
  · obtain ⟨e, rfl⟩ := hs
    have hsc := has_scalar hc.1
    obtain ⟨c, hcm⟩ := scalar_meaning W.dialect (W.size f) hsc
    have hcc : col = .base c := by
      have h2 := hc.2
      simp only [Spec.Rich.meaning, Rich.declared, hcm] at h2
      exact (Option.some.inj h2).symm
    subst hcc
    have hcol : Spec.Typed.HasCol (baseWorld W) f e c := ⟨hsc, hcm⟩
    obtain ⟨u, rfl, hu⟩ : ∃ u, v = .base u ∧ (u = .nil ∧ isPtr (W.ty f) = true ∨ Columns.Fits (Spec.Typed.goOf e) c u) := by
      rcases h with ⟨rfl, hn⟩ | hf
      · refine ⟨.nil, rfl, .inl ⟨rfl, ?_⟩⟩
        rcases hn with h | ⟨-, ⟨e, h⟩ | h⟩
        · exact h
        · cases h
        · cases h
      · cases hf with
        | base hf => exact ⟨_, rfl, .inr hf⟩
    rw [base_keep hW hcol hu]
    exact .base (shows_of (base_behaves hW) hcol hu)
  · have hk : ∀ e, k ≠ .scalar e := fun e he => hs ⟨e, he⟩
    rcases h with ⟨rfl, hn⟩ | hf
    · obtain ⟨h1, -⟩ := nil_write hk hc.1 hn
      rw [h1]
      rw [kept_nil (hW.keeps f k col hc .nil _ .null (fun _ => hn))]
      exact .nil
    · obtain ⟨⟨x, hx⟩, hne⟩ := fits_written hc hf
      have hkp := hW.keeps f k col hc _ x hx (fun h => absurd h hne)
      cases k with
      | scalar e => exact absurd rfl (hk e)
      | list e => exact .list (list_of_fits hf) fun h => hne (keeps_null (h ▸ hkp))
      | bytes =>
        cases hf with
        | @bytes limit s hl =>
          obtain ⟨-, hw, -⟩ := bytes_both W.dialect hc.1
          have hwr : Rich.write W.dialect W.decls W.facts (W.ty f) (.bytes s) = .bytes s := by
            unfold Rich.write
            rw [hw]
            simp only [Rich.value, if_true]
          rw [hwr] at hkp ⊢
          generalize W.keep f (.bytes s) = c at hkp
          cases hkp
          exact .bytes
      | time =>
        cases hf with
        | @time u lo hi i h1 h2 h3 =>
          obtain ⟨hw, -⟩ := time_both W.dialect hc.1
          have hwr : Rich.write W.dialect W.decls W.facts (W.ty f) (.time i) = .time (tag i) := by
            unfold Rich.write
            rw [hw]
          rw [hwr] at hkp ⊢
          generalize W.keep f (.time (tag i)) = c at hkp
          generalize hj : tag i = j at hkp
          cases hkp
          rw [← tag_inj hj]
          exact .time

section

variable {W : Rich.World F} {K : Spec.Sql.Compare Rich.Cell} {low : Bool}

/-- Values of one field are all of the same form. -/
theorem rich_pair {f : F} {x y : Rich.Val} (hx : Spec.Rich.Stores W f x) (hy : Spec.Rich.Stores W f y) :
    ∃ k col, Spec.Rich.HasCol W f k col ∧ (x = .base .nil ∧ MayBeNil W f k ∨ Spec.Rich.Fits k col x) ∧
      (y = .base .nil ∧ MayBeNil W f k ∨ Spec.Rich.Fits k col y) := by
  obtain ⟨k, col, hc, h⟩ := hx
  obtain ⟨k', col', hc', h'⟩ := hy
  obtain rfl := form_unique hc.1 hc'.1
  obtain rfl : col = col' := Option.some.inj (hc.2.symm.trans hc'.2)
  exact ⟨k, col, hc, h, h'⟩

theorem rich_compares (hK : Spec.Rich.Sorts K low) {e f : Format} {k : Form} {col : Spec.Rich.Col} {x y : Rich.Val} {c d : Rich.Cell}
    (hx : Seen e f k x c) (hy : Seen e f k y d) (fx : x = .base .nil ∨ Spec.Rich.Fits k col x)
    (fy : y = .base .nil ∨ Spec.Rich.Fits k col y) (oe ol ob : Rich.Val → Rich.Val → Bool)
    (ho : ∀ e, k = .list e → x ≠ .base .nil → y ≠ .base .nil → K.eq c d = oe x y ∧ K.lt c d = ol x y ∧ K.before c d = ob x y) :
    K.eq c d = Spec.Rich.equal e oe x y ∧ K.lt c d = Spec.Rich.less e ol x y ∧
      K.before c d = (if x = .base .nil then low && decide (y ≠ .base .nil) else if y = .base .nil then !low
        else Spec.Rich.less e ob x y) := by
  cases hx with
  | nil => exact ⟨(hK.null _).1.1.trans (by cases y <;> rfl), (hK.null _).1.2.1.trans (by cases y <;> rfl), by
      rw [if_pos rfl, (hK.null _).1.2.2]
      congr 1
      cases hy with
      | nil => rfl
      | base h => cases h <;> rfl
      | list h hn => cases h <;> simp [hn]
      | _ => rfl⟩
  | @base k v c hv =>
    cases hy with
    | nil =>
      refine ⟨(hK.null _).2.1.trans (by cases v <;> rfl), (hK.null _).2.2.1.trans (by cases v <;> rfl), ?_⟩
      rw [(hK.null _).2.2.2]
      cases hv <;> cases low <;> rfl
    | @base _ w d hw =>
      have fv : v = .nil ∨ ∃ c, Columns.Fits (Spec.Typed.goOf k) c v ∧ col = .base c := by
        rcases fx with fx | fx
        · cases fx; exact .inl rfl
        · cases fx with
          | base h => exact .inr ⟨_, h, rfl⟩
      have fw : w = .nil ∨ ∃ c, Columns.Fits (Spec.Typed.goOf k) c w ∧ col = .base c := by
        rcases fy with fy | fy
        · cases fy; exact .inl rfl
        · cases fy with
          | base h => exact .inr ⟨_, h, rfl⟩
      generalize Spec.Typed.goOf k = G at fv fw
      cases hv <;> cases hw
      all_goals first
        | exact ⟨(hK.null _).1.1, (hK.null _).1.2.1, by rw [(hK.null _).1.2.2]; rfl⟩
        | (refine ⟨(hK.null _).2.1, (hK.null _).2.2.1, ?_⟩; rw [(hK.null _).2.2.2]; cases low <;> rfl)
        | exact ⟨(hK.bool _ _).1, (hK.bool _ _).2.1, (hK.bool _ _).2.2⟩
        | exact ⟨(hK.num _ _).1, (hK.num _ _).2.1, (hK.num _ _).2.2⟩
        | exact ⟨(hK.text _ _).1, (hK.text _ _).2.1, (hK.text _ _).2.2⟩
        | skip
      case flt.flt a _ n _ h2 h3 _ b _ n' _ h5 h6 _ =>
        have := hK.flt f (.num a n) (.num b n') h2 h5
        rw [number_eq h3, number_eq h6] at this
        exact ⟨this.1, this.2.1, this.2.2⟩
      all_goals
        exfalso
        rcases fv with fv | ⟨c, fv, -⟩ <;> rcases fw with fw | ⟨d, fw, -⟩ <;> first | cases fv; done | cases fw; done | (cases fv <;> cases fw)
  | @bytes s =>
    cases hy with
    | nil =>
      refine ⟨(hK.null _).2.1, (hK.null _).2.2.1, ?_⟩
      rw [(hK.null _).2.2.2]
      cases low <;> rfl
    | bytes => exact ⟨(hK.blob _ _).1, (hK.blob _ _).2.1, (hK.blob _ _).2.2⟩
  | @time i =>
    cases hy with
    | nil =>
      refine ⟨(hK.null _).2.1, (hK.null _).2.2.1, ?_⟩
      rw [(hK.null _).2.2.2]
      cases low <;> rfl
    | time => exact ⟨(hK.time _ _).1, (hK.time _ _).2.1, (hK.time _ _).2.2⟩
  | @list k v c hv hn =>
    cases hy with
    | nil =>
      refine ⟨(hK.null _).2.1.trans (by cases hv <;> rfl), (hK.null _).2.2.1.trans (by cases hv <;> rfl), ?_⟩
      rw [(hK.null _).2.2.2]
      cases hv <;> cases low <;> simp [hn]
    | @list _ w d hw hm =>
      have h1 : x ≠ .base .nil := by cases hv <;> simp
      have h2 : y ≠ .base .nil := by cases hw <;> simp
      rw [if_neg h1, if_neg h2]
      have := ho k rfl h1 h2
      cases hv <;> cases hw <;> exact this

variable {g : Cfg} {S : Spec.Sql.Dialect} {gen : Spec.Sql.Tbl Rich.Cell → Rich.Cell} {auto : Typed.Kind} {t : Gen.Table F}
  {other : Spec.Store.Comp F Rich.Val}

theorem rich_agrees (hW : Spec.Rich.Behaves W) (hK : Spec.Rich.Sorts K low) (hl : Spec.Rich.Others W K other) :
    Agrees K (W.env g S gen auto).null (W.env g S gen auto).enc (Spec.Rich.Stores W) t (Spec.Rich.order W low other) := by
  have key : ∀ f x y, Spec.Rich.Stores W f x → Spec.Rich.Stores W f y →
      K.eq ((W.env g S gen auto).enc f x) ((W.env g S gen auto).enc f y) = (Spec.Rich.order W low other).eq f x y ∧
      K.lt ((W.env g S gen auto).enc f x) ((W.env g S gen auto).enc f y) = (Spec.Rich.order W low other).lt f x y ∧
      K.before ((W.env g S gen auto).enc f x) ((W.env g S gen auto).enc f y) = (Spec.Rich.order W low other).before f x y := by
    intro f x y hx hy
    obtain ⟨k, col, hc, h1, h2⟩ := rich_pair hx hy
    exact rich_compares hK (seen_of hW hc h1) (seen_of hW hc h2) (h1.imp (·.1) id) (h2.imp (·.1) id) (other.eq f) (other.lt f) (other.before f)
      (fun e he n1 n2 => hl.lists f e x y (he ▸ hc.1) hx hy n1 n2)
  refine ⟨?_, fun c _ x y hx hy => (key _ _ _ hx hy).1, fun c _ x y hx hy => (key _ _ _ hx hy).2.1,
    fun c _ x y hx hy => hl.like c.field x y hx hy, fun c _ x y hx hy => (key _ _ _ hx hy).2.2⟩
  intro c _ x hx
  obtain ⟨k, col, hc, h⟩ := hx
  have := seen_of hW hc h
  show W.keep c.field (Rich.write W.dialect W.decls W.facts (W.ty c.field) x) = .base .null ↔ decide (x = .base .nil) = true
  clear h
  generalize W.keep c.field _ = d at this
  cases this with
  | base h => cases h <;> simp
  | list h hn => cases h <;> simp [hn]
  | _ => simp

theorem rich_ordered (hk : ∀ c ∈ keyCols t, Keyed W c.field) : Ordered (Spec.Rich.order W low other) (Spec.Rich.Stores W) t := by
  have key : ∀ c ∈ keyCols t, ∀ x y z, Spec.Rich.Stores W c.field x → Spec.Rich.Stores W c.field y → Spec.Rich.Stores W c.field z →
      ∃ k col, (∀ e, k ≠ .list e) ∧ Spec.Rich.Fits k col x ∧ Spec.Rich.Fits k col y ∧ Spec.Rich.Fits k col z := by
    intro c hc x y z hx hy hz
    obtain ⟨k, col, h, h1, h2⟩ := rich_pair hx hy
    obtain ⟨k', col', h', h3, h4⟩ := rich_pair hy hz
    obtain rfl := form_unique h.1 h'.1
    obtain rfl : col = col' := Option.some.inj (h.2.symm.trans h'.2)
    obtain ⟨n1, n2⟩ := hk c hc k h.1
    exact ⟨k, col, n2, h1.resolve_left fun h => n1 h.2, h2.resolve_left fun h => n1 h.2, h4.resolve_left fun h => n1 h.2⟩
  have main : ∀ {k : Form} {col x y} {f : Format} {oe ol}, (∀ e, k ≠ .list e) → Spec.Rich.Fits k col x → Spec.Rich.Fits k col y →
      x ≠ .base .nil ∧ (Spec.Rich.equal f oe x y = true ↔ x = y) ∧ Spec.Rich.less f ol x x = false ∧
      (x = y ∨ Spec.Rich.less f ol x y = true ∨ Spec.Rich.less f ol y x = true) ∧ (∀ ol', Spec.Rich.less f ol' x y = Spec.Rich.less f ol x y) ∧
      ∀ z, Spec.Rich.Fits k col z → Spec.Rich.less f ol x y = true → Spec.Rich.less f ol y z = true → Spec.Rich.less f ol x z = true := by
    intro k col x y f oe ol hn hx hy
    cases hx with
    | @base _ c u hu =>
      cases hy with
      | @base _ _ w hw =>
        obtain ⟨h1, h2, h3, h4⟩ := less_order (e := f) hu hw
        refine ⟨?_, by simpa [Spec.Rich.equal] using h1, h2, by simpa [Spec.Rich.less] using h3, fun _ => rfl, ?_⟩
        · generalize Spec.Typed.goOf _ = G at hu
          cases hu <;> simp
        · intro z hz
          cases hz with
          | base hz => exact h4 _ hz
    | bytes =>
      cases hy with
      | bytes =>
        refine ⟨by simp, by simp [Spec.Rich.equal], by simp [Spec.Rich.less, List.lt_irrefl], ?_, fun _ => rfl, ?_⟩
        · rename_i a _ b _
          simp only [Spec.Rich.less, decide_eq_true_eq, Rich.Val.bytes.injEq]
          by_cases h : a < b
          · exact .inr (.inl h)
          · by_cases h' : b < a
            · exact .inr (.inr h')
            · exact .inl (List.le_antisymm h' h)
        · intro z hz
          cases hz
          simp only [Spec.Rich.less, decide_eq_true_eq]
          exact List.lt_trans
    | time =>
      cases hy with
      | time =>
        refine ⟨by simp, by simp [Spec.Rich.equal], by simp [Spec.Rich.less], ?_, fun _ => rfl, ?_⟩
        · simp only [Spec.Rich.less, decide_eq_true_eq, Rich.Val.time.injEq]; omega
        · intro z hz
          cases hz
          simp only [Spec.Rich.less, decide_eq_true_eq]; omega
    | _ => exact absurd rfl (hn _)
  refine ⟨?_, ?_, ?_, ?_, ?_⟩
  · intro c hc x y hx hy
    obtain ⟨k, col, hn, h1, h2, -⟩ := key c hc x y y hx hy hy
    exact (main (ol := other.lt c.field) hn h1 h2).2.1
  · intro c hc x y hx hy
    obtain ⟨k, col, hn, h1, h2, -⟩ := key c hc x y y hx hy hy
    show (if x = .base .nil then _ else if y = .base .nil then _ else _) = _
    rw [if_neg (main (f := double) (oe := other.eq c.field) (ol := other.lt c.field) hn h1 h2).1,
      if_neg (main (f := double) (oe := other.eq c.field) (ol := other.lt c.field) hn h2 h1).1]
    exact (main (oe := other.eq c.field) hn h1 h2).2.2.2.2.1 _
  · intro c hc x hx
    obtain ⟨k, col, hn, h1, h2, -⟩ := key c hc x x x hx hx hx
    exact (main (oe := other.eq c.field) hn h1 h2).2.2.1
  · intro c hc x y z hx hy hz
    obtain ⟨k, col, hn, h1, h2, h3⟩ := key c hc x y z hx hy hz
    exact (main (oe := other.eq c.field) hn h1 h2).2.2.2.2.2 z h3
  · intro c hc x y hx hy
    obtain ⟨k, col, hn, h1, h2, -⟩ := key c hc x y y hx hy hy
    exact (main (oe := other.eq c.field) hn h1 h2).2.2.2.1

/-- Keys are not NULL. -/
theorem rich_key {f : F} (hk : Keyed W f) (hW : Spec.Rich.Behaves W) {v : Rich.Val} (hv : Spec.Rich.Stores W f v) :
    W.keep f (Rich.write W.dialect W.decls W.facts (W.ty f) v) ≠ .base .null := by
  intro he
  obtain ⟨k, col, hcol, h⟩ := hv
  rcases h with ⟨-, hn⟩ | hf
  · exact (hk k hcol.1).1 hn
  · obtain ⟨⟨x, hx⟩, hne⟩ := fits_written hcol hf
    have h1 := hW.keeps _ k col hcol _ _ hx (fun h => absurd h hne)
    rw [he] at h1
    exact hne (keeps_null h1)

theorem keyed_setup (hk : ∀ c ∈ keyCols t, Keyed W c.field) (hW : Spec.Rich.Behaves W) (hs : Spec.Typed.Shape g S t) :
    Setup (W.env g S gen auto) t (Spec.Rich.Stores W) where
  wf := hs.wf
  key := hs.key
  named := hs.named
  bare := hs.bare
  plain := hs.plain
  names := hs.names
  single := hs.single
  back := fun _ _ _ old h => C99_field hW h old
  keyed := fun c hc _ hv => rich_key (hk c hc) hW hv

variable [DecidableEq F]

/-! ## C99: batches -/

section Batches
variable (hW : Spec.Rich.Behaves W) (hs : Spec.Typed.Shape g S t) (hk : ∀ c ∈ keyCols t, Keyed W c.field) (hw : AllWritten t)
  (ha : t.auto = none) (hf : (t.columns.map (·.field)).Nodup) (hn : HelperNames g S t)
  (hst : g.style = if g.postgres then .numbered else .anon)
include hW hs hk hw ha hf hn hst

/-- C99, batches: records with new keys are stored, all of them as they are; if one of the keys is taken or occurs twice, nothing
is. -/
theorem C99_insert_partial {ru : Spec.Sql.Rules} (hru : g.postgres = true → ru = .onConflict) {m : Map F Rich.Val}
    {σ : Spec.Sql.Store Rich.Cell} (hm : Store.Keeps (W.env g S gen auto) (Spec.Rich.Stores W) t m σ) (rs : List (F → Rich.Val))
    (hr : ∀ r ∈ rs, Good (Spec.Rich.Stores W) t r) :
    (((rs.map (keyOf t)).Nodup ∧ ∀ r ∈ rs, m (keyOf t r) = none) → ∃ σ', insertMany (W.env g S gen auto) ru t rs σ = (.ok rs, σ') ∧
      After (W.env g S gen auto) (Spec.Rich.Stores W) t (fun k => (withKey t rs k).or (m k)) σ σ') ∧
    (¬ ((rs.map (keyOf t)).Nodup ∧ ∀ r ∈ rs, m (keyOf t r) = none) →
      insertMany (W.env g S gen auto) ru t rs σ = (.duplicate, σ)) :=
  C91_insert ⟨keyed_setup hk hW hs, hw⟩ hf hn hst ha hru hm rs hr

/-- C99, upserts with override: the fields of records with taken keys are replaced, the other records are new. -/
theorem C99_upsert_partial (w : Wish) (hkp : w.keep = false) (hre : replaced g t w ≠ []) {m : Map F Rich.Val}
    {σ : Spec.Sql.Store Rich.Cell} (hm : Store.Keeps (W.env g S gen auto) (Spec.Rich.Stores W) t m σ) {rs : List (F → Rich.Val)}
    (hne : rs ≠ []) (hr : ∀ r ∈ rs, Good (Spec.Rich.Stores W) t r) (hd : (rs.map (keyOf t)).Nodup) :
    ∃ σ', upsertMany (W.env g S gen auto) (rulesOf g) t w rs σ = (.ok (if g.postgres then
        rs.map fun r => load t (storedFor t ((replaced g t w).map (·.field)) m r) r else rs), σ') ∧
      After (W.env g S gen auto) (Spec.Rich.Stores W) t
        (fun k => ((withKey t rs k).map (storedFor t ((replaced g t w).map (·.field)) m)).or (m k)) σ σ' :=
  C91_upsert_replace ⟨keyed_setup hk hW hs, hw⟩ hf hn hst ha w hkp hre hm hne hr hd

/-- C99, upserts that keep what is there: only records with new keys are stored. -/
theorem C99_upsert_keep_partial (w : Wish) (hkp : w.keep = true) {m : Map F Rich.Val} {σ : Spec.Sql.Store Rich.Cell}
    (hm : Store.Keeps (W.env g S gen auto) (Spec.Rich.Stores W) t m σ) {rs : List (F → Rich.Val)} (hne : rs ≠ [])
    (hr : ∀ r ∈ rs, Good (Spec.Rich.Stores W) t r) :
    ∃ rs' σ', upsertMany (W.env g S gen auto) (rulesOf g) t w rs σ = (.ok rs', σ') ∧ (g.postgres = false → rs' = rs) ∧
      After (W.env g S gen auto) (Spec.Rich.Stores W) t (fun k => (m k).or (withKey t rs k)) σ σ' :=
  C91_upsert_keep_partial ⟨keyed_setup hk hW hs, hw⟩ hf hn hst ha w hkp hm hne hr

end Batches

/-- C99, with columns that are only read and filled in by the database, as times of creation are. -/
theorem C99_upkeep_partial {Kp : Spec.Upkeep.Keeper Rich.Cell} {u : Spec.Upkeep.Care F Rich.Val} (hW : Spec.Rich.Behaves W)
    (hs : Spec.Typed.Shape g S t) (hk : ∀ c ∈ keyCols t, Keyed W c.field) (hr : Spec.Upkeep.Kept t)
    (hc : Spec.Upkeep.Cares (W.env g S gen auto).enc (.base .null) S (Spec.Rich.Stores W) Kp u t) (ha : t.auto = none)
    (ops : List (Spec.Store.Op F Rich.Val)) (hl : (∃ r, Spec.Store.Op.update r ∈ ops) →
      2 ≤ (pick t (keyPos t)).length ∨ g.style = .anon ∨ t.columns.length = (updatePos t).length + 1)
    (hf : ∀ o ∈ ops, Fine (Spec.Rich.Stores W) t o) (now : Nat) (m : Map F Rich.Val) (σ : Spec.Sql.Store Rich.Cell)
    (hm : Store.Keeps (W.env g S gen auto) (Spec.Rich.Stores W) t m σ) :
    ∃ m', Spec.Upkeep.Acts g.postgres t u now ops m (Upkeep.performs (W.env g S gen auto) Kp t now ops σ).1 m' ∧
      Store.Keeps (W.env g S gen auto) (Spec.Rich.Stores W) t m' (Upkeep.performs (W.env g S gen auto) Kp t now ops σ).2 ∧
      ∀ n, n ≠ tableName S t → (Upkeep.performs (W.env g S gen auto) Kp t now ops σ).2 n = σ n :=
  C97_upkeep_partial (keyed_setup hk hW hs) hr hc (fun c h => by simp [Table.autoCol, ha] at h) ops hl hf now m σ hm

/-! ## C99: conditions and pages -/

/-- C99, queries: conditions compare values as Go does, times by their order; what is found is what is stored. -/
theorem C99_query_partial (hW : Spec.Rich.Behaves W) (hs : Spec.Typed.Shape g S t) (hn : Spelled g S t)
    (hk : ∀ c ∈ keyCols t, Keyed W c.field) (hK : Spec.Rich.Sorts K low) (hl : Spec.Rich.Others W K other) (br : Spec.Sql.Brand)
    (m : Map F Rich.Val) (σ : Spec.Sql.Store Rich.Cell) (hm : Store.Keeps (W.env g S gen auto) (Spec.Rich.Stores W) t m σ)
    (q : Query F Rich.Val) (hq : ProperQuery (Spec.Rich.Stores W) t q) (hsel : q.select = [] ∨ q.select = t.columns)
    (ho : q.offset = 0 ∨ q.limit ≠ 0 ∨ br = .postgres) (zero : F → Rich.Val) :
    ∃ l, Found (Spec.Rich.order W low other) t m q.where_ q.orderBy l ∧
      queryAll (W.env g S gen auto) br K t zero q σ =
        (.ok ((firstOf q.limit (l.drop q.offset)).map fun s => load t s zero), σ) :=
  C92_query_partial _ _ _ _ _ _ (keyed_setup hk hW hs) (rich_agrees hW hK hl) hn m σ hm q hq hsel ho zero

/-- C99, updates with conditions. -/
theorem C99_update_partial (hW : Spec.Rich.Behaves W) (hs : Spec.Typed.Shape g S t) (hn : Spelled g S t)
    (hk : ∀ c ∈ keyCols t, Keyed W c.field) (hK : Spec.Rich.Sorts K low) (hl : Spec.Rich.Others W K other) (br : Spec.Sql.Brand)
    (hf : (t.columns.map (·.field)).Nodup) (m : Map F Rich.Val) (σ : Spec.Sql.Store Rich.Cell)
    (hm : Store.Keeps (W.env g S gen auto) (Spec.Rich.Stores W) t m σ) (u : Change F Rich.Val)
    (hu : ProperChange (Spec.Rich.Stores W) t u) (hne : u.set ≠ []) (hd : (u.set.map (·.1)).Nodup)
    (hkey : ∀ p ∈ u.set, p.1 ∉ pick t (keyPos t)) (hst : g.style = .numbered → u.limit = 0) (ha : Allowed br u.orderBy u.limit) :
    ∃ l σ', Found (Spec.Rich.order W low other) t m u.where_ u.orderBy l ∧ updateAll (W.env g S gen auto) br K t u σ = (.ok (), σ') ∧
      Store.Keeps (W.env g S gen auto) (Spec.Rich.Stores W) t (setIn t u.set (firstOf u.limit l) m) σ' ∧
      ∀ n, n ≠ tableName S t → σ' n = σ n :=
  C92_update_partial _ _ _ _ _ _ (keyed_setup hk hW hs) (rich_agrees hW hK hl) hn hf m σ hm u hu hne hd hkey hst ha

/-- C99, deletes with conditions. -/
theorem C99_delete_partial (hW : Spec.Rich.Behaves W) (hs : Spec.Typed.Shape g S t) (hn : Spelled g S t)
    (hk : ∀ c ∈ keyCols t, Keyed W c.field) (hK : Spec.Rich.Sorts K low) (hl : Spec.Rich.Others W K other) (br : Spec.Sql.Brand)
    (m : Map F Rich.Val) (σ : Spec.Sql.Store Rich.Cell) (hm : Store.Keeps (W.env g S gen auto) (Spec.Rich.Stores W) t m σ)
    (u : Removal F Rich.Val) (hu : ProperRemoval (Spec.Rich.Stores W) t u) (hst : g.style = .numbered → u.limit = 0)
    (ha : Allowed br u.orderBy u.limit) :
    ∃ l σ', Found (Spec.Rich.order W low other) t m u.where_ u.orderBy l ∧ deleteAll (W.env g S gen auto) br K t u σ = (.ok (), σ') ∧
      Store.Keeps (W.env g S gen auto) (Spec.Rich.Stores W) t (removeFrom t (firstOf u.limit l) m) σ' ∧
      ∀ n, n ≠ tableName S t → σ' n = σ n :=
  C92_delete_partial _ _ _ _ _ _ (keyed_setup hk hW hs) (rich_agrees hW hK hl) hn m σ hm u hu hst ha

/-- C99, pages: from a stored record on, the pages together are the stored records from that one on, each once, in the order of the
keys; keys may have times in them. -/
theorem C99_pages_partial (hW : Spec.Rich.Behaves W) (hs : Spec.Typed.Shape g S t) (hn : Spelled g S t)
    (hk : ∀ c ∈ keyCols t, Keyed W c.field) (hK : Spec.Rich.Sorts K low) (hl : Spec.Rich.Others W K other) (br : Spec.Sql.Brand)
    (hbr : (keyCols t).length = 1 ∨ br = .postgres) (d : Pager.Dir) (p : Paging F Rich.Val) (hw : p.where_ = none) (ho : p.orderBy = [])
    (hlim : p.limit ≠ 65535) (zero : F → Rich.Val) (σ : Spec.Sql.Store Rich.Cell) (m : Map F Rich.Val)
    (hm : Store.Keeps (W.env g S gen auto) (Spec.Rich.Stores W) t m σ) (c : F → Rich.Val) (hc : Good (Spec.Rich.Stores W) t c)
    (hin : m (keyOf t c) ≠ none) :
    ∃ l, Listed (Spec.Rich.order W low other) t (upOf d) m (From (Spec.Rich.order W low other) t (upOf d) c) l ∧
      ∀ fuel, l.length < fuel → ∃ pages : List (List (F → Rich.Val)),
        paginate (W.env g S gen auto) br K t zero d p ⟨fun _ => σ, fun _ => σ⟩ (fun _ => true) fuel (some c) =
          ⟨pages.map fun page => Pager.Ev.page (page.map fun s => load t s zero), .finished⟩ ∧
        pages.flatten = l ∧ (∀ page ∈ pages, page.length ≤ pageSize p.limit) ∧
        ∀ page ∈ pages.dropLast, page.length = pageSize p.limit :=
  C93_static_partial _ _ _ _ _ _ (keyed_setup hk hW hs) (rich_agrees hW hK hl) (rich_ordered hk) hn hbr d p hw ho hlim zero σ m hm c hc
    hin

/-! ## C99: programs -/

omit [DecidableEq F] in
/-- C99, programs: clients that use the helpers on several models at the same time get what they would get from maps of records
(C98). -/
theorem C99_programs_partial [DecidableEq F] {I C : Type} [DecidableEq I] [DecidableEq C] {br : Spec.Sql.Brand} {t : I → Gen.Table F}
    {zero : I → F → Rich.Val} {clients : C → Spec.Program.Client I F Rich.Val} (hW : Spec.Rich.Behaves W)
    (hs : ∀ i, Spec.Typed.Shape g S (t i)) (hn : ∀ i, Spelled g S (t i)) (hk : ∀ i, ∀ c ∈ keyCols (t i), Keyed W c.field)
    (hw : ∀ i, AllWritten (t i)) (ha : ∀ i, (t i).auto = none) (hf : ∀ i, ((t i).columns.map (·.field)).Nodup)
    (hK : Spec.Rich.Sorts K low) (hl : Spec.Rich.Others W K other) (hg : Meant g br)
    (hd : ∀ i j, tableName S (t i) = tableName S (t j) → i = j) (cs : List C) (h : Spec.Program.Histories C F Rich.Val)
    (M : I → Map F Rich.Val)
    (hc : ∀ i a, Spec.Program.Calls g (fun _ => Spec.Rich.order W low other) t zero clients h M i a →
      Sound (W.env g S gen auto) (Spec.Rich.Stores W) br (t i) a)
    (σ : Spec.Sql.Store Rich.Cell) (hm : ∀ i, Store.Keeps (W.env g S gen auto) (Spec.Rich.Stores W) (t i) (M i) σ) :
    ∃ M', Spec.Program.Runs g (fun _ => Spec.Rich.order W low other) t zero clients cs h M
        (Program.play (W.env g S gen auto) br K t zero clients cs h σ).1 M' ∧
      (∀ i, Store.Keeps (W.env g S gen auto) (Spec.Rich.Stores W) (t i) (M' i)
        (Program.play (W.env g S gen auto) br K t zero clients cs h σ).2) ∧
      ∀ n, (∀ i, n ≠ tableName S (t i)) → (Program.play (W.env g S gen auto) br K t zero clients cs h σ).2 n = σ n :=
  C98_serial_partial (E := W.env g S gen auto) (O := fun _ => Spec.Rich.order W low other) hg
    (fun i => ⟨⟨keyed_setup (hk i) hW (hs i), hw i⟩, rich_agrees hW hK hl, hn i, hf i, .inl (ha i)⟩) hd cs h M hc σ hm

end

end Verif.Props

import Verif.Props.Typed
import Verif.Props.Cond
import Verif.Props.Page
import Verif.Props.Time

/-!
# Conditions and pages on records of Go types (C96)
-/

namespace Verif.Props

open Verif Verif.Dispatch Verif.Typed Verif.ColumnType Verif.Spec.Float Verif.Spec.Columns Verif.Scan Verif.Spec.Typed Verif.Float Verif.Spec.Scan
open Verif.Gen Verif.Store Verif.Spec.Store Verif.Spec.Gen

variable {F : Type}

/-! ## What the columns keep -/

theorem scalar_kind {D : Decls} {fs : Facts} {ty : Ty} {k : Kind} (h : Scalar D fs ty k) : kindOfTy D ty = some k := by
  cases h with
  | basic h _ => exact h
  | named hu h _ _ => simp only [kindOfTy, hu, h]
  | ptr h _ _ => exact h

/-- What is in a column of numbers of the format `f` for a value of a field of the format `e`. -/
inductive Shows (e f : Format) : Val → Cell → Prop
  | nil : Shows e f .nil .null
  | bool {b} : Shows e f (.bool b) (.bool b)
  | int {n} : Shows e f (.int n) (.num n)
  | flt {neg m n} : m < e.inf → n < f.inf → val f n = val e m → Common neg m → Shows e f (.flt (.num neg m)) (.flt (.num neg n))
  | str {s} : Shows e f (.str s) (.text s)

def colFormat : Spec.Columns.Col → Format
  | .float f => f
  | _ => double

theorem shows_of {W : World F} (hW : Behaves W) {f : F} {k : Kind} {col : Spec.Columns.Col} (hc : HasCol W f k col) {v : Val}
    (h : v = .nil ∧ isPtr (W.ty f) = true ∨ Fits (goOf k) col v) :
    Shows (formatOf W.decls (W.ty f)) (colFormat col) v (W.keep f (Typed.write W.dialect W.decls W.facts (W.ty f) v)) := by
  have hbyte := scalar_byte hc.1
  rcases h with ⟨rfl, hp⟩ | hf
  · have hwr : Typed.write W.dialect W.decls W.facts (W.ty f) .nil = .nil := by
      unfold Typed.write; rw [if_pos ⟨hp, rfl⟩]
    rw [hwr]
    have h1 := hW.keeps f k col hc _ _ Keeps.null fun _ => hp
    generalize W.keep f .nil = c at h1
    cases h1
    exact .nil
  · obtain ⟨⟨⟨c, hk⟩, -⟩, hsame, hnil⟩ := back_kind hbyte hc.2 hf
    have hwr : Typed.write W.dialect W.decls W.facts (W.ty f) v = value W.dialect k v := by
      rcases (write_read hc.1 W.dialect W.lib).1 with hw | ⟨hp, hw⟩
      · exact hw v (.inr hnil)
      · rw [hw v (.inr hnil), hsame hp]
    rw [hwr]
    have h1 := hW.keeps f k col hc _ _ hk fun e => absurd e (value_ne_nil _ _ _)
    generalize W.keep f (value W.dialect k v) = c' at h1
    have hfmt : ∀ w, k = .float w → formatOf W.decls (W.ty f) = fmt w := by
      rintro w rfl
      rw [formatOf, scalar_kind hc.1]
    cases k with
    | bool =>
      cases hf
      cases h1
      exact .bool
    | string =>
      cases hf
      cases h1
      exact .str
    | int k =>
      have hcase : ∃ w n, col = .int w ∧ v = .int n := by
        generalize hg : goOf (.int k) = T at hf
        cases hf with
        | int => exact ⟨_, _, rfl, rfl⟩
        | uint => exact ⟨_, _, rfl, rfl⟩
        | _ => cases k <;> cases hg
      obtain ⟨w, n, rfl, rfl⟩ := hcase
      rw [kept_int hc.2 hf (fun e => hbyte (e ▸ rfl)) h1]
      exact .int
    | float w =>
      rw [hfmt w rfl]
      cases hf with
      | @float _ g neg n hn hz hg =>
        obtain ⟨k', hk', hv⟩ := wide_val w hn
        have hconv : conv (fmt w) double (.num neg n) = .num neg k' := conv_exact (by decide) neg hn hk' hv
        have hw : value W.dialect (.float w) (.flt (.num neg n)) = .float (bits double (.num neg k')) := by
          rw [value, Float.write, hconv]
        rw [hw] at h1
        obtain ⟨y, rfl, ⟨j, hj, rfl⟩, hfin⟩ := keeps_float hk' h1
        obtain ⟨i, hi, hiv⟩ : ∃ i, i < g.inf ∧ val g i = val double k' := by
          rcases hg with rfl | rfl
          · exact ⟨n, hn, hv.symm⟩
          · exact ⟨k', hk', rfl⟩
        obtain rfl := nearest_unique hj (hiv ▸ nearest_val g i)
        rw [Nat.min_eq_left (Nat.le_of_lt hi)]
        exact .flt hn hi (hiv.trans hv) hz

theorem number_eq {e f : Format} {neg : Bool} {m n : Nat} (h : val f n = val e m) :
    (Flt.num neg n).number f = (Flt.num neg m).number e := by
  simp only [Flt.number, h]

section

variable {W : World F} {K : Spec.Sql.Compare Cell} {low : Bool}

/-- Values of one field are all of the same sort. -/
theorem stores_pair {f : F} {x y : Val} (hx : Stores W f x) (hy : Stores W f y) :
    ∃ k col, HasCol W f k col ∧ (x = .nil ∧ isPtr (W.ty f) = true ∨ Fits (goOf k) col x) ∧
      (y = .nil ∧ isPtr (W.ty f) = true ∨ Fits (goOf k) col y) := by
  obtain ⟨k, col, hc, h⟩ := hx
  obtain ⟨k', col', hc', h'⟩ := hy
  obtain rfl : k = k' := Option.some.inj ((scalar_kind hc.1).symm.trans (scalar_kind hc'.1))
  obtain rfl : col = col' := Option.some.inj (hc.2.symm.trans hc'.2)
  exact ⟨k, col, hc, h, h'⟩

theorem compares (hK : Sorts K low) {e f : Format} {G : Go} {col : Spec.Columns.Col} {x y : Val} {c d : Cell} (hx : Shows e f x c)
    (hy : Shows e f y d) (fx : x = .nil ∨ Fits G col x) (fy : y = .nil ∨ Fits G col y) :
    K.eq c d = equal e x y ∧ K.lt c d = less e x y ∧
      K.before c d = (if x = .nil then low && decide (y ≠ .nil) else if y = .nil then !low else less e x y) := by
  cases hx <;> cases hy
  all_goals first
    | exact ⟨(hK.null _).1.1, (hK.null _).1.2.1, by rw [(hK.null _).1.2.2]; rfl⟩
    | (refine ⟨(hK.null _).2.1, (hK.null _).2.2.1, ?_⟩; rw [(hK.null _).2.2.2]; cases low <;> rfl)
    | exact ⟨(hK.bool _ _).1, (hK.bool _ _).2.1, (hK.bool _ _).2.2⟩
    | exact ⟨(hK.num _ _).1, (hK.num _ _).2.1, (hK.num _ _).2.2⟩
    | exact ⟨(hK.text _ _).1, (hK.text _ _).2.1, (hK.text _ _).2.2⟩
    | skip
  case flt.flt a _ n _ h2 h3 _ b _ n' _ h5 h6 _ =>
    have := hK.flt f (.num a n) (.num b n') h2 h5
    rw [number_eq h3, number_eq h6] at this
    exact ⟨this.1, this.2.1, this.2.2⟩
  all_goals
    exfalso
    rcases fx with fx | fx <;> rcases fy with fy | fy <;> first | cases fx; done | cases fy; done | (cases fx <;> cases fy)

variable {g : Cfg} {S : Spec.Sql.Dialect} {gen : Spec.Sql.Tbl Cell → Cell} {auto : Kind} {t : Gen.Table F}
  {like : F → Val → Val → Bool}

/-- What the database does for `LIKE` is not said. -/
def Likes (W : World F) (K : Spec.Sql.Compare Cell) (like : F → Val → Val → Bool) : Prop :=
  ∀ f x y, Stores W f x → Stores W f y →
    K.like (W.keep f (Typed.write W.dialect W.decls W.facts (W.ty f) x)) (W.keep f (Typed.write W.dialect W.decls W.facts (W.ty f) y)) =
      like f x y

theorem typed_agrees (hW : Behaves W) (hK : Sorts K low) (hl : Likes W K like) :
    Agrees K (W.env g S gen auto).null (W.env g S gen auto).enc (Stores W) t (order W low like) where
  isNil := by
    intro c _ x hx
    obtain ⟨k, col, hc, h⟩ := hx
    have := shows_of hW hc h
    show W.keep c.field (Typed.write W.dialect W.decls W.facts (W.ty c.field) x) = .null ↔ decide (x = .nil) = true
    generalize W.keep c.field _ = d at this
    cases this <;> simp
  eq := by
    intro c _ x y hx hy
    obtain ⟨k, col, hc, h1, h2⟩ := stores_pair hx hy
    exact (compares hK (shows_of hW hc h1) (shows_of hW hc h2) (h1.imp (·.1) id) (h2.imp (·.1) id)).1
  lt := by
    intro c _ x y hx hy
    obtain ⟨k, col, hc, h1, h2⟩ := stores_pair hx hy
    exact (compares hK (shows_of hW hc h1) (shows_of hW hc h2) (h1.imp (·.1) id) (h2.imp (·.1) id)).2.1
  like := fun c _ x y hx hy => hl c.field x y hx hy
  before := by
    intro c _ x y hx hy
    obtain ⟨k, col, hc, h1, h2⟩ := stores_pair hx hy
    exact (compares hK (shows_of hW hc h1) (shows_of hW hc h2) (h1.imp (·.1) id) (h2.imp (·.1) id)).2.2

theorem signed_inj {f : Format} {a b : Bool} {m n : Nat} (ha : Common a m) (hb : Common b n)
    (h : (Flt.num a m).number f = (Flt.num b n).number f) : Flt.num a m = Flt.num b n := by
  have h0 : val f 0 = 0 := by rw [val, if_pos (Nat.zero_div _)]; simp
  have pos : ∀ n, 0 < n → 0 < val f n := fun n hn => h0 ▸ val_strictMono f hn
  have nn : ∀ n, 0 ≤ val f n := fun n => h0 ▸ (val_strictMono f).monotone (Nat.zero_le n)
  simp only [Flt.number, signed] at h
  cases a <;> cases b <;> simp only [Bool.false_eq_true, if_true, if_false] at h
  · rw [(val_strictMono f).injective h]
  · exfalso
    have := pos n (Nat.pos_of_ne_zero fun e => hb ⟨rfl, e⟩)
    have := nn m
    linarith
  · exfalso
    have := pos m (Nat.pos_of_ne_zero fun e => ha ⟨rfl, e⟩)
    have := nn n
    linarith
  · rw [(val_strictMono f).injective (neg_injective h)]

theorem less_order {e : Format} {G : Go} {col : Spec.Columns.Col} {x y : Val} (hx : Fits G col x) (hy : Fits G col y) :
    (equal e x y = true ↔ x = y) ∧ less e x x = false ∧ (x = y ∨ less e x y = true ∨ less e y x = true) ∧
      ∀ z, Fits G col z → less e x y = true → less e y z = true → less e x z = true := by
  cases hx with
  | @bool a =>
    cases hy with
    | @bool b =>
      refine ⟨by simp [equal], by simp [less], by cases a <;> cases b <;> simp [less], ?_⟩
      rintro _ (@⟨c⟩)
      cases a <;> cases b <;> cases c <;> simp [less]
  | @int w c a h1 h2 =>
    cases hy with
    | @int _ _ b h3 h4 =>
      refine ⟨by simp [equal], by simp [less], ?_, ?_⟩
      · simp only [less, decide_eq_true_eq, Val.int.injEq]; omega
      · intro z hz
        cases hz
        simp only [less, decide_eq_true_eq]; omega
  | @uint w c a h1 h2 =>
    cases hy with
    | @uint _ _ b h3 h4 =>
      refine ⟨by simp [equal], by simp [less], ?_, ?_⟩
      · simp only [less, decide_eq_true_eq, Val.int.injEq]; omega
      · intro z hz
        cases hz
        simp only [less, decide_eq_true_eq]; omega
  | @float w f a m h1 h2 h3 =>
    cases hy with
    | @float _ _ b n h4 h5 h6 =>
      refine ⟨?_, by simp [less], ?_, ?_⟩
      · simp only [equal, decide_eq_true_eq, Val.flt.injEq]
        exact ⟨signed_inj h2 h5, fun h => by rw [h]⟩
      · simp only [less, decide_eq_true_eq, Val.flt.injEq]
        rcases lt_trichotomy ((Flt.num a m).number e) ((Flt.num b n).number e) with h | h | h
        · exact .inr (.inl h)
        · exact .inl (signed_inj h2 h5 h)
        · exact .inr (.inr h)
      · intro z hz
        cases hz
        simp only [less, decide_eq_true_eq]
        exact lt_trans
  | @string l a h1 =>
    cases hy with
    | @string _ b h2 =>
      refine ⟨by simp [equal], by simp [less, List.lt_irrefl], ?_, ?_⟩
      · simp only [less, decide_eq_true_eq, Val.str.injEq]
        by_cases h : a < b
        · exact .inr (.inl h)
        · by_cases h' : b < a
          · exact .inr (.inr h')
          · exact .inl (List.le_antisymm h' h)
      · intro z hz
        cases hz
        simp only [less, decide_eq_true_eq]
        exact List.lt_trans

theorem typed_ordered (hk : ∀ c ∈ keyCols t, isPtr (W.ty c.field) = false) : Ordered (order W low like) (Stores W) t := by
  have key : ∀ c ∈ keyCols t, ∀ x y, Stores W c.field x → Stores W c.field y →
      ∃ k col, HasCol W c.field k col ∧ Fits (goOf k) col x ∧ Fits (goOf k) col y := by
    intro c hc x y hx hy
    obtain ⟨k, col, h, h1, h2⟩ := stores_pair hx hy
    have hp := hk c hc
    exact ⟨k, col, h, h1.resolve_left (by simp [hp]), h2.resolve_left (by simp [hp])⟩
  have nn : ∀ {G col v}, Fits G col v → v ≠ Val.nil := by
    intro G col v h; cases h <;> simp
  refine ⟨?_, ?_, ?_, ?_, ?_⟩
  · intro c hc x y hx hy
    obtain ⟨k, col, h, h1, h2⟩ := key c hc x y hx hy
    exact (less_order h1 h2).1
  · intro c hc x y hx hy
    obtain ⟨k, col, h, h1, h2⟩ := key c hc x y hx hy
    show (if x = .nil then _ else if y = .nil then _ else _) = _
    rw [if_neg (nn h1), if_neg (nn h2)]
    rfl
  · intro c hc x hx
    obtain ⟨k, col, h, h1, h2⟩ := key c hc x x hx hx
    exact (less_order h1 h2).2.1
  · intro c hc x y z hx hy hz
    obtain ⟨k, col, h, h1, h2⟩ := key c hc x y hx hy
    obtain ⟨k', col', h', h3, h4⟩ := key c hc y z hy hz
    obtain rfl : k = k' := Option.some.inj ((scalar_kind h.1).symm.trans (scalar_kind h'.1))
    obtain rfl : col = col' := Option.some.inj (h.2.symm.trans h'.2)
    exact (less_order h1 h2).2.2.2 z h4
  · intro c hc x y hx hy
    obtain ⟨k, col, h, h1, h2⟩ := key c hc x y hx hy
    exact (less_order h1 h2).2.2.1

/-! ## C96 -/

variable [DecidableEq F]

/-- C96, queries: on records of such fields, conditions compare values as Go does, and what is found is what is stored. -/
theorem C96_query_partial (hW : Behaves W) (hs : Shape g S t) (hn : Spelled g S t) (hk : ∀ c ∈ keyCols t, isPtr (W.ty c.field) = false)
    (hK : Sorts K low) (hl : Likes W K like) (br : Spec.Sql.Brand) (m : Map F Val) (σ : Spec.Sql.Store Cell)
    (hm : Store.Keeps (W.env g S gen auto) (Stores W) t m σ) (q : Query F Val) (hq : ProperQuery (Stores W) t q)
    (hsel : q.select = [] ∨ q.select = t.columns) (ho : q.offset = 0 ∨ q.limit ≠ 0 ∨ br = .postgres) (zero : F → Val) :
    ∃ l, Found (order W low like) t m q.where_ q.orderBy l ∧
      queryAll (W.env g S gen auto) br K t zero q σ =
        (.ok ((firstOf q.limit (l.drop q.offset)).map fun s => load t s zero), σ) :=
  C92_query_partial _ _ _ _ _ _ (typed_setup hW hs hk) (typed_agrees hW hK hl) hn m σ hm q hq hsel ho zero

/-- C96, updates with conditions. -/
theorem C96_update_partial (hW : Behaves W) (hs : Shape g S t) (hn : Spelled g S t) (hk : ∀ c ∈ keyCols t, isPtr (W.ty c.field) = false)
    (hK : Sorts K low) (hl : Likes W K like) (br : Spec.Sql.Brand) (hf : (t.columns.map (·.field)).Nodup) (m : Map F Val)
    (σ : Spec.Sql.Store Cell) (hm : Store.Keeps (W.env g S gen auto) (Stores W) t m σ) (u : Change F Val)
    (hu : ProperChange (Stores W) t u) (hne : u.set ≠ []) (hd : (u.set.map (·.1)).Nodup)
    (hkey : ∀ p ∈ u.set, p.1 ∉ pick t (keyPos t)) (hst : g.style = .numbered → u.limit = 0) (ha : Allowed br u.orderBy u.limit) :
    ∃ l σ', Found (order W low like) t m u.where_ u.orderBy l ∧ updateAll (W.env g S gen auto) br K t u σ = (.ok (), σ') ∧
      Store.Keeps (W.env g S gen auto) (Stores W) t (setIn t u.set (firstOf u.limit l) m) σ' ∧
      ∀ n, n ≠ tableName S t → σ' n = σ n :=
  C92_update_partial _ _ _ _ _ _ (typed_setup hW hs hk) (typed_agrees hW hK hl) hn hf m σ hm u hu hne hd hkey hst ha

/-- C96, deletes with conditions. -/
theorem C96_delete_partial (hW : Behaves W) (hs : Shape g S t) (hn : Spelled g S t) (hk : ∀ c ∈ keyCols t, isPtr (W.ty c.field) = false)
    (hK : Sorts K low) (hl : Likes W K like) (br : Spec.Sql.Brand) (m : Map F Val) (σ : Spec.Sql.Store Cell)
    (hm : Store.Keeps (W.env g S gen auto) (Stores W) t m σ) (u : Removal F Val) (hu : ProperRemoval (Stores W) t u)
    (hst : g.style = .numbered → u.limit = 0) (ha : Allowed br u.orderBy u.limit) :
    ∃ l σ', Found (order W low like) t m u.where_ u.orderBy l ∧ deleteAll (W.env g S gen auto) br K t u σ = (.ok (), σ') ∧
      Store.Keeps (W.env g S gen auto) (Stores W) t (removeFrom t (firstOf u.limit l) m) σ' ∧
      ∀ n, n ≠ tableName S t → σ' n = σ n :=
  C92_delete_partial _ _ _ _ _ _ (typed_setup hW hs hk) (typed_agrees hW hK hl) hn m σ hm u hu hst ha

/-- C96, pages: from a stored record on, the pages together are the stored records from that one on, each once, in the order in
which Go compares the keys. -/
theorem C96_pages_partial (hW : Behaves W) (hs : Shape g S t) (hn : Spelled g S t) (hk : ∀ c ∈ keyCols t, isPtr (W.ty c.field) = false)
    (hK : Sorts K low) (hl : Likes W K like) (br : Spec.Sql.Brand) (hbr : (keyCols t).length = 1 ∨ br = .postgres) (d : Pager.Dir)
    (p : Paging F Val) (hw : p.where_ = none) (ho : p.orderBy = []) (hlim : p.limit ≠ 65535) (zero : F → Val)
    (σ : Spec.Sql.Store Cell) (m : Map F Val) (hm : Store.Keeps (W.env g S gen auto) (Stores W) t m σ) (c : F → Val)
    (hc : Good (Stores W) t c) (hin : m (keyOf t c) ≠ none) :
    ∃ l, Listed (order W low like) t (upOf d) m (From (order W low like) t (upOf d) c) l ∧
      ∀ fuel, l.length < fuel → ∃ pages : List (List (F → Val)),
        paginate (W.env g S gen auto) br K t zero d p ⟨fun _ => σ, fun _ => σ⟩ (fun _ => true) fuel (some c) =
          ⟨pages.map fun page => Pager.Ev.page (page.map fun s => load t s zero), .finished⟩ ∧
        pages.flatten = l ∧ (∀ page ∈ pages, page.length ≤ pageSize p.limit) ∧
        ∀ page ∈ pages.dropLast, page.length = pageSize p.limit :=
  C93_static_partial _ _ _ _ _ _ (typed_setup hW hs hk) (typed_agrees hW hK hl) (typed_ordered hk) hn hbr d p hw ho hlim zero σ m hm c
    hc hin

/-! ### Where values do not fit -/

omit [DecidableEq F] in
/-- C96, false for unsigned numbers of 2 ^ 63 or more in columns of 64 bits: of `uint64` fields on PostgreSQL and `uint` fields on
SQLite another number is stored, a negative one.  It is read back if the driver hands over numbers, and never if it hands over
texts; and to the database it is less than all that fit. -/
theorem C96_large_unsigned (hW : Behaves W) {f : F} {k : GoInt} (hc : HasCol W f (.int k) (.int 64))
    (hd : W.dialect = .postgres ∧ k = .uint64 ∨ W.dialect = .sqlite ∧ k = .uint) {n : Nat} (h1 : 2 ^ 63 ≤ n) (h2 : n < 2 ^ 64) :
    (W.env g S gen auto).enc f (.int n) = .num (n - 2 ^ 64) ∧
    (∀ old, W.hand f (.num (n - 2 ^ 64)) = .int64 (n - 2 ^ 64) →
      (W.env g S gen auto).dec f (.num (n - 2 ^ 64)) old = some (.int n)) ∧
    (∀ old, W.hand f (.num (n - 2 ^ 64)) ≠ .int64 (n - 2 ^ 64) → (W.env g S gen auto).dec f (.num (n - 2 ^ 64)) old = none) ∧
    (Sorts K low → ∀ m : Nat, m < 2 ^ 63 → K.lt ((W.env g S gen auto).enc f (.int n)) ((W.env g S gen auto).enc f (.int m)) = true) := by
  have hs : toSigned 64 (n : Int) = n - 2 ^ 64 := by
    rw [toSigned, BitVec.toInt_ofInt, Int.bmod_def]
    split <;> omega
  have hp : ¬ (Kind.int k = .string ∨ Kind.int k = .bool ∨ Kind.int k = .int .int64 ∨ Kind.int k = .float 64) := by
    rcases hd with ⟨-, rfl⟩ | ⟨-, rfl⟩ <;> simp
  obtain ⟨hw, hr⟩ := write_read hc.1 W.dialect W.lib
  have hw := hw.resolve_right fun h => hp h.1
  have hr := hr.resolve_right fun h => hp h.2.1
  have hval : value W.dialect (.int k) (.int n) = .int64 (n - 2 ^ 64) := by
    rcases hd with ⟨e, rfl⟩ | ⟨e, rfl⟩ <;> rw [e] <;> simp only [value, ColumnType.written, hs, if_true]
  have hin : InRange 64 ((n : Int) - 2 ^ 64) := by unfold InRange; omega
  have hk := hW.keeps f _ _ hc (.int64 (n - 2 ^ 64)) _ (.int hin) (fun e => by cases e)
  have henc : (W.env g S gen auto).enc f (.int n) = .num (n - 2 ^ 64) := by
    show W.keep f (Typed.write W.dialect W.decls W.facts (W.ty f) (.int n)) = _
    rw [hw _ (.inr (by simp)), hval]
    generalize W.keep f _ = c at hk
    cases hk; rfl
  have hscan : ∀ old, (W.env g S gen auto).dec f (.num (n - 2 ^ 64)) old =
      result (fun n : Nat => .int n) (scanUint 64 (dest 0 getNat (isPtr (W.ty f)) old) (W.hand f (.num (n - 2 ^ 64)))) := by
    intro old
    show Typed.read W.lib W.dialect W.decls W.facts (W.ty f) _ old = _
    rw [hr]
    rcases hd with ⟨-, rfl⟩ | ⟨-, rfl⟩ <;> rfl
  refine ⟨henc, fun old e => ?_, fun old e => ?_, fun hK m hm => ?_⟩
  · rw [hscan, e, ← hs]
    have := C42_unsigned (w := 64) (by decide) (dest 0 getNat (isPtr (W.ty f)) old) n h2
    rw [writeInt] at this
    rw [this, result_put]
  · rw [hscan]
    have hh := hW.hands f _ _ hc (.int64 (n - 2 ^ 64)) _ (.int hin)
    generalize W.hand f _ = x at hh e
    cases hh with
    | int => exact absurd rfl e
    | intText =>
      cases hx : scanUint 64 (dest 0 getNat (isPtr (W.ty f)) old) (.bytes (intDec (n - 2 ^ 64))) with
      | ok d' =>
        exfalso
        obtain ⟨m, hm, hm2, -⟩ := (C43_text_unsigned_iff _ _ _).1 hx
        have p1 := (parseInt_iff (w := 66) (by decide)).2 ⟨intDec_numeral ((n : Int) - 2 ^ 64), by omega, by omega⟩
        have p2 := (parseInt_iff (w := 66) (by decide)).2 ⟨Spec.SignedNumeral.plain hm, by omega, by omega⟩
        rw [p1] at p2
        have := Option.some.inj p2
        omega
      | _ => rfl
  · have hfit : Fits (goOf (.int k)) (.int 64) (.int m) := by
      have : goOf (.int k) = .uint 64 := by rcases hd with ⟨-, rfl⟩ | ⟨-, rfl⟩ <;> rfl
      rw [this]
      exact .uint (by omega) (by unfold InRange; omega)
    have h3 := shows_of hW hc (.inr hfit)
    rw [henc]
    show K.lt _ (W.keep f (Typed.write W.dialect W.decls W.facts (W.ty f) (.int m))) = true
    generalize W.keep f _ = c at h3
    cases h3
    rw [(hK.num _ _).2.1]
    simp only [decide_eq_true_eq]
    omega

omit [DecidableEq F] in
/-- C96, false for `float64` fields on MySQL: of a number that is not one of single precision the column keeps another, and where
the driver hands over numbers, another one is read. -/
theorem C96_mysql_float64 (hW : Behaves W) {f : F} (hc : HasCol W f (.float 64) (.float single)) {neg : Bool} {n : Nat}
    (hn : n < double.inf) (hk : ∃ c, Keeps (.float single) (.float (bits double (.num neg n))) c)
    (hs : ∀ j, val single j ≠ val double n) {b : Nat}
    (hb : W.hand f ((W.env g S gen auto).enc f (.flt (.num neg n))) = .float b) (old : Val) :
    ∃ j, (W.env g S gen auto).enc f (.flt (.num neg n)) = .flt (.num neg j) ∧ val single j ≠ val double n ∧
      ∃ x : Flt, (W.env g S gen auto).dec f ((W.env g S gen auto).enc f (.flt (.num neg n))) old = some (.flt x) ∧
        x.number double = (Flt.num neg j).number single ∧ x.number double ≠ (Flt.num neg n).number double := by
  have e64 : fmt 64 = double := by decide
  obtain ⟨hw, hr⟩ := write_read hc.1 W.dialect W.lib
  have hval : value W.dialect (.float 64) (.flt (.num neg n)) = .float (bits double (.num neg n)) := by
    rw [value, Float.write, e64, conv_self (by decide) (show Flt.Of double (.num neg n) from Nat.le_of_lt hn)]
  have hwr : Typed.write W.dialect W.decls W.facts (W.ty f) (.flt (.num neg n)) = .float (bits double (.num neg n)) := by
    rcases hw with hw | ⟨-, hw⟩
    · rw [hw _ (.inr (by simp)), hval]
    · rw [hw _ (.inr (by simp))]; rfl
  obtain ⟨c, hk⟩ := hk
  have h1 := hW.keeps f _ _ hc _ _ hk fun e => by cases e
  have h2 := hW.hands f _ _ hc _ _ h1
  have henc : (W.env g S gen auto).enc f (.flt (.num neg n)) = W.keep f (.float (bits double (.num neg n))) := by
    show W.keep f _ = _
    rw [hwr]
  rw [henc] at hb ⊢
  rw [hb] at h2
  have hdec : ∀ c, (W.env g S gen auto).dec f c old =
      Typed.read W.lib W.dialect W.decls W.facts (W.ty f) (W.hand f c) old := fun _ => rfl
  rw [hdec, hb]
  obtain ⟨y, e, ⟨j, hj, rfl⟩, hfin⟩ := keeps_float hn h1
  have hlt : j < single.inf := by
    have : min j single.inf < single.inf := hfin
    omega
  rw [Nat.min_eq_left (Nat.le_of_lt hlt)] at e
  rw [e] at h2 ⊢
  cases h2 with
  | @float _ _ _ m h3 h4 h5 =>
    have hof : Flt.Of double (.num neg m) := Nat.le_of_lt h4
    refine ⟨j, rfl, hs j, .num neg m, ?_, number_eq h5, ?_⟩
    · rcases hr with hr | ⟨-, -, hr⟩
      · rw [hr]
        simp only [Typed.scanner]
        have := C94_number W.lib.odd W.lib.std 0 64 false (dest 0 (getFlt 64) (isPtr (W.ty f)) old) (.num neg m) (by rw [e64]; exact hof)
        rw [Float.write, e64, conv_self (by decide) hof] at this
        rw [this, store_eq, result_put, e64, ofBits_bits (.inr rfl) hof]
      · rw [hr]
        simp only [assign]
        rw [ofBits_bits (.inr rfl) hof]
    · rw [number_eq (e := single) h5]
      intro he
      refine hs j ?_
      simp only [Flt.number, signed] at he
      cases neg
      · exact he
      · exact neg_injective he

end

/-! ### A program on PostgreSQL -/

/-- Records with an `int64` key, a `float32` and a `*string`. -/
def typedWorld : World Nat where
  dialect := .postgres
  decls := ⟨fun _ => [], fun _ => .struct, id⟩
  facts := ⟨fun _ => false, fun _ => false, fun _ => false, fun _ => false, fun _ => false, fun _ => false⟩
  lib := ⟨goTimes, fun _ _ => none, fun _ _ => none⟩
  ty f := if f = 10 then .basic "int64".toList else if f = 13 then .basic "float32".toList else .ptr (.basic "string".toList)
  size _ := 40
  keep _
    | .bool b => .bool b
    | .int64 n => .num n
    | .uint64 n => .num n
    | .str s => .text s
    | .float b => .flt (conv double single (ofBits double b))
    | _ => .null
  hand _
    | .null => .nil
    | .bool b => .bool b
    | .num n => .bytes (intDec n)
    | .flt y => .float (bits double (conv single double y))
    | .text s => .bytes s

theorem typedBare (t : Ty) : Bare typedWorld.facts t := by constructor <;> rfl

theorem typedCols : HasCol typedWorld 10 (.int .int64) (.int 64) ∧ HasCol typedWorld 13 (.float 32) (.float single) ∧
    ∀ f, f ≠ 10 → f ≠ 13 → HasCol typedWorld f .string (.text (some 40)) := by
  refine ⟨⟨.basic (by decide +kernel) (typedBare _), rfl⟩, ⟨.basic (by decide +kernel) (typedBare _), rfl⟩, fun f h1 h2 => ⟨?_, rfl⟩⟩
  have : typedWorld.ty f = .ptr (.basic "string".toList) := by simp only [typedWorld, if_neg h1, if_neg h2]
  rw [this]
  exact .ptr (by decide +kernel) (typedBare _) rfl

/-- What it keeps and hands over. -/
theorem typedKeeps {col : Spec.Columns.Col} (hcol : ∀ g, col = .float g → g = single) (f : Nat) {s : Src} {c : Cell} (hk : Keeps col s c) :
    Keeps col s (typedWorld.keep f s) ∧ Hands col c (typedWorld.hand f c) := by
  refine ⟨?_, ?_⟩
  · cases hk with
    | null => exact .null
    | bool => exact .bool
    | int h1 => exact .int h1
    | uint h1 => exact .uint h1
    | text h1 => exact .text h1
    | @float g neg n y h1 h2 h3 h4 =>
      obtain rfl := hcol g rfl
      show Keeps _ _ (.flt (conv double single (ofBits double (bits double (.num neg n)))))
      rw [ofBits_bits (.inr rfl) (show Flt.Of double (.num neg n) from Nat.le_of_lt h1)]
      obtain ⟨j, hj, rfl⟩ := h3
      obtain ⟨y, -, ⟨i, hi, e⟩, -⟩ := C94_narrow_iff_partial (fun _ _ => none) typedWorld.lib.std 0 false (.val 0) neg n h1
      have hr := rnd_nearest single (by decide) (mag double n) (2 ^ double.low) (Nat.pow_pos (by decide))
      have hv : ((mag double n : Nat) : ℚ) / ((2 ^ double.low : Nat) : ℚ) = val double n := by
        rw [val_eq, Nat.cast_pow, Nat.cast_ofNat]
      rw [hv] at hr
      rw [conv, if_pos h1, clip, nearest_unique hr hj]
      exact .float h1 h2 ⟨j, hj, rfl⟩ h4
  · cases hk with
    | null => exact .null
    | bool => exact .bool
    | int h1 => exact .intText
    | uint h1 => exact .intText
    | text h1 => exact .textBytes
    | @float g neg n y h1 h2 h3 h4 =>
      obtain rfl := hcol g rfl
      obtain ⟨j, hj, rfl⟩ := h3
      have h5 : min j single.inf < single.inf := h4
      obtain ⟨m, hm, hv⟩ := single_val _ h5
      show Hands _ _ (.float (bits double (conv single double (.num neg (min j single.inf)))))
      rw [conv_exact (by decide) neg h5 hm hv]
      exact .float h5 hm hv

theorem typedBehaves : Behaves typedWorld := by
  have hcol : ∀ f k col, HasCol typedWorld f k col → ∀ g, col = .float g → g = single := by
    intro f k col h g hg
    have key : ∀ k' col', HasCol typedWorld f k' col' → col = col' := fun k' col' h' => by
      obtain rfl : k = k' := Option.some.inj ((scalar_kind h.1).symm.trans (scalar_kind h'.1))
      exact Option.some.inj (h.2.symm.trans h'.2)
    subst hg
    by_cases h1 : f = 10
    · subst h1; cases key _ _ typedCols.1
    · by_cases h2 : f = 13
      · subst h2; cases key _ _ typedCols.2.1; rfl
      · cases key _ _ (typedCols.2.2 f h1 h2)
  exact ⟨fun f k col h s c hk _ => (typedKeeps (hcol f k col h) f hk).1, fun f k col h s c hk => (typedKeeps (hcol f k col h) f hk).2⟩

theorem typedShape (q : Bool) : Shape (storeCfg q) storePg (storeUser "people") := by
  have h := storeSetup q (storeUser "people") (.inl rfl)
  exact ⟨h.wf, h.key, h.named, h.bare, h.plain, h.names, h.single⟩

theorem typedKeys : ∀ c ∈ pick (storeUser "people") (keyPos (storeUser "people")), isPtr (typedWorld.ty c.field) = false := by
  decide +kernel

/-- what fits: large numbers, `float32` numbers, texts of up to 40 characters and nil -/
example : Scalar typedWorld.decls typedWorld.facts (typedWorld.ty 13) (.float 32) := .basic rfl (typedBare _)
example : KeptIn .postgres 0 (.int .uint32) (.int 2147483647) ∧ ¬ KeptIn .postgres 0 (.int .uint32) (.int 2147483648) ∧
    KeptIn .sqlite 0 (.int .uint32) (.int 2147483648) ∧ ¬ KeptIn .mysql 0 (.int .int64) (.int 2147483648) ∧
    KeptIn .postgres 0 (.float 64) (.flt (.num false (2 ^ 52 + 1))) ∧ ¬ KeptIn .mysql 0 (.float 64) (.flt (.num false 1)) := by
  simp [KeptIn, typeLimits, columnBits, Common, fmt, double, Format.inf, Format.half]
example : Stores typedWorld 10 (.int (2 ^ 60)) ∧ Stores typedWorld 13 (.flt (.num true 1)) ∧ Stores typedWorld 15 .nil ∧
    Stores typedWorld 15 (.str [195, 159]) := by
  refine ⟨⟨_, _, typedCols.1, .inr (.int (by unfold InRange; decide) (by unfold InRange; decide))⟩, ⟨_, _, typedCols.2.1,
    .inr (.float (by decide) (by rintro ⟨-, h⟩; cases h) (.inl (by decide)))⟩,
    ⟨_, _, typedCols.2.2 15 (by decide) (by decide), .inl ⟨rfl, rfl⟩⟩,
    ⟨_, _, typedCols.2.2 15 (by decide) (by decide), .inr (.string ⟨['ß'], by decide +kernel, by decide, by simp⟩)⟩⟩

/-! ### A database that compares -/

theorem precedes_weak {V : Type} {bf : V → V → Bool} (asym : ∀ x y, bf x y = true → bf y x = false)
    (neg : ∀ x y z, bf y x = false → bf z y = false → bf z x = false) : (ks : List (Spec.Sql.Name × Bool)) → (a b c : Spec.Sql.Row V) →
    (Spec.Sql.precedes bf ks b a = false → Spec.Sql.precedes bf ks c b = false → Spec.Sql.precedes bf ks c a = false) ∧
    (Spec.Sql.precedes bf ks b a = false ∨ Spec.Sql.precedes bf ks a b = false)
  | [], _, _, _ => ⟨fun _ _ => rfl, .inl rfl⟩
  | (n, asc) :: ks, a, b, c => by
    have ih := precedes_weak asym neg ks a b c
    obtain ⟨lt, hlt, asym', neg'⟩ : ∃ lt : V → V → Bool, (∀ x y, lt x y = if asc then bf x y else bf y x) ∧
        (∀ x y, lt x y = true → lt y x = false) ∧ ∀ x y z, lt z x = true → lt y x = true ∨ lt z y = true := by
      have neg'' : ∀ x y z, bf z x = true → bf y x = true ∨ bf z y = true := by
        intro x y z h
        cases h1 : bf y x with
        | true => exact .inl rfl
        | false =>
          cases h2 : bf z y with
          | true => exact .inr rfl
          | false => rw [neg x y z h1 h2] at h; cases h
      cases asc
      · exact ⟨fun x y => bf y x, fun _ _ => rfl, fun x y h => asym y x h, fun x y z h => (neg'' z y x h).symm⟩
      · exact ⟨bf, fun _ _ => rfl, asym, neg''⟩
    have hp : ∀ x y : Spec.Sql.Row V, Spec.Sql.precedes bf ((n, asc) :: ks) x y = false ↔
        lt (y n) (x n) = true ∨ lt (x n) (y n) = false ∧ Spec.Sql.precedes bf ks x y = false := by
      intro x y
      have e1 := hlt (x n) (y n)
      have e2 := hlt (y n) (x n)
      have := asym' (y n) (x n)
      rw [Spec.Sql.precedes, ← e1, ← e2]
      clear hlt e1 e2
      cases h1 : lt (x n) (y n) <;> cases h2 : lt (y n) (x n) <;> simp_all
    rw [hp, hp, hp, hp]
    have ab := asym' (a n) (b n)
    have ba := asym' (b n) (a n)
    have bc := asym' (b n) (c n)
    constructor
    · rintro (h1 | ⟨h1, h2⟩) (h3 | ⟨h3, h4⟩)
      · left
        rcases neg' (b n) (c n) (a n) h1 with h | h
        · rw [bc h3] at h; cases h
        · exact h
      · left
        rcases neg' (b n) (c n) (a n) h1 with h | h
        · rw [h3] at h; cases h
        · exact h
      · left
        rcases neg' (c n) (a n) (b n) h3 with h | h
        · exact h
        · rw [h1] at h; cases h
      · right
        refine ⟨?_, ih.1 h2 h4⟩
        cases h : lt (c n) (a n) with
        | false => rfl
        | true =>
          rcases neg' (a n) (b n) (c n) h with h' | h'
          · rw [h1] at h'; cases h'
          · rw [h3] at h'; cases h'
    · cases h1 : lt (a n) (b n) <;> cases h2 : lt (b n) (a n) <;> simp_all

/-- The place of a number among all. -/
def place : Flt → Int
  | .nan => 0
  | .num neg n => if neg then -n else n

theorem place_lt (f : Format) {x y : Flt} (hx : x.Finite f) (hy : y.Finite f) : x.number f < y.number f ↔ place x < place y := by
  have h0 : val f 0 = 0 := by rw [val, if_pos (Nat.zero_div _)]; simp
  have pos : ∀ n, 0 < val f n ↔ 0 < n := fun n => by rw [← h0]; exact (val_strictMono f).lt_iff_lt
  have nn : ∀ n, 0 ≤ val f n := fun n => h0 ▸ (val_strictMono f).monotone (Nat.zero_le n)
  cases x with
  | nan => cases hx
  | num a m =>
    cases y with
    | nan => cases hy
    | num b n =>
      have h1 := nn m
      have h2 := nn n
      cases a <;> cases b <;> simp only [Flt.number, signed, place, Bool.false_eq_true, if_true, if_false]
      · rw [(val_strictMono f).lt_iff_lt]; omega
      · constructor <;> intro h
        · linarith
        · omega
      · constructor <;> intro h
        · by_contra hc
          have e1 : m = 0 := by omega
          have e2 : n = 0 := by omega
          subst e1; subst e2
          rw [h0] at h
          simp at h
        · rcases Nat.eq_zero_or_pos m with e | e
          · have := (pos n).2 (by omega)
            linarith
          · have := (pos m).2 e
            linarith
      · rw [neg_lt_neg_iff, (val_strictMono f).lt_iff_lt]; omega

/-- NULL first. -/
def cellLess : Cell → Cell → Bool
  | .null, c => decide (c ≠ .null)
  | .bool a, .bool b => !a && b
  | .bool _, c => decide (c ≠ .null)
  | .num a, .num b => decide (a < b)
  | .num _, .flt _ => true
  | .num _, .text _ => true
  | .flt x, .flt y => decide (place x < place y)
  | .flt _, .text _ => true
  | .text a, .text b => decide (a < b)
  | _, _ => false

theorem cellLess_weak : (∀ x y, cellLess x y = true → cellLess y x = false) ∧
    ∀ x y z, cellLess y x = false → cellLess z y = false → cellLess z x = false := by
  constructor
  · intro x y
    cases x <;> cases y <;> simp [cellLess]
    · intros; simp_all
    · omega
    · omega
    · intro h; exact List.le_of_lt h
  · intro x y z
    cases x <;> cases y <;> cases z <;> simp [cellLess]
    · rename_i a b c; cases a <;> cases b <;> cases c <;> simp
    · omega
    · omega
    · exact List.le_trans

def cellLe (ks : List (Spec.Sql.Name × Bool)) (a b : Spec.Sql.Row Cell) : Prop := Spec.Sql.precedes cellLess ks b a = false

instance (ks : List (Spec.Sql.Name × Bool)) : DecidableRel (cellLe ks) := fun _ _ => inferInstanceAs (Decidable (_ = _))

/-- Texts are like those that they begin with. -/
def cellOrd : Spec.Sql.Compare Cell where
  eq x y := decide (x ≠ .null) && (!cellLess x y && !cellLess y x)
  lt x y := decide (x ≠ .null ∧ y ≠ .null) && cellLess x y
  like
    | .text a, .text b => b.isPrefixOf a
    | _, _ => false
  before := cellLess
  arrange ks rows := rows.insertionSort (cellLe ks)
  perm ks rows := List.perm_insertionSort _ _
  sorted ks rows := by
    have : Std.Total (cellLe ks) := ⟨fun a b => (precedes_weak cellLess_weak.1 cellLess_weak.2 ks a b a).2⟩
    have : IsTrans _ (cellLe ks) := ⟨fun a b c => (precedes_weak cellLess_weak.1 cellLess_weak.2 ks a b c).1⟩
    exact List.pairwise_insertionSort (cellLe ks) rows

theorem cellSorts : Sorts cellOrd true := by
  refine ⟨?_, ?_, ?_, ?_, ?_⟩
  · intro a b
    simp [cellOrd, cellLess]
    rw [Bool.eq_iff_iff]; simp; omega
  · intro a b
    cases a <;> cases b <;> simp [cellOrd, cellLess]
  · intro a b
    refine ⟨?_, by simp [cellOrd, cellLess], by simp [cellOrd, cellLess]⟩
    rw [Bool.eq_iff_iff]
    simp only [cellOrd, cellLess, ne_eq, reduceCtorEq, not_false_eq_true, decide_true, Bool.true_and, Bool.and_eq_true,
      Bool.not_eq_true', decide_eq_false_iff_not, decide_eq_true_eq]
    exact ⟨fun h => List.le_antisymm h.2 h.1, fun h => by subst h; exact ⟨List.lt_irrefl _, List.lt_irrefl _⟩⟩
  · intro f a b ha hb
    have h1 := place_lt f ha hb
    have h2 := place_lt f hb ha
    refine ⟨?_, ?_, ?_⟩
    · rw [Bool.eq_iff_iff]
      simp only [cellOrd, cellLess, ne_eq, reduceCtorEq, not_false_eq_true, decide_true, Bool.true_and, Bool.and_eq_true,
        Bool.not_eq_true', decide_eq_false_iff_not, decide_eq_true_eq, ← h1, ← h2]
      exact ⟨fun h => le_antisymm (not_lt.1 h.2) (not_lt.1 h.1), fun h => by rw [h]; exact ⟨lt_irrefl _, lt_irrefl _⟩⟩
    · simp only [cellOrd, cellLess, ne_eq, reduceCtorEq, not_false_eq_true, and_self, decide_true, Bool.true_and, h1]
    · simp only [cellOrd, cellLess, h1]
  · intro c
    cases c <;> simp [cellOrd, cellLess]

/-! ### All of it at work -/

def typedEnv : Env Nat Val Cell := typedWorld.env (storeCfg true) storePg (fun _ => .null) (.int .int64)

/-- people with a number, a weight and perhaps a name -/
def typedRec (a : Int) (x : Flt) (s : Option String) : Nat → Val :=
  fun f => if f = 10 then .int a else if f = 13 then .flt x else match s with
    | none => .nil
    | some s => .str s.toUTF8.toList

/-- a half, one and a half, minus one -/
def typedThree : Spec.Sql.Store Cell :=
  (performs typedEnv (storeUser "people") [.insert (typedRec 7 (.num false (126 * 2 ^ 23)) none),
    .insert (typedRec (-2 ^ 60) (.num false (127 * 2 ^ 23 + 2 ^ 22)) (some "Ann")),
    .insert (typedRec 9 (.num true (127 * 2 ^ 23)) (some "Zoë"))]
    fun n => if n = "people".toList then some (Spec.Store.tableOf storePg (storeUser "people") []) else none).2

def typedSee : Ret (List (Nat → Val)) → Option (List (List Val))
  | .ok rs => some (rs.map fun r => (genAddrs (storeUser "people")).map r)
  | _ => none

example : Sorts cellOrd true ∧ Likes typedWorld cellOrd (fun f x y => cellOrd.like
    (typedWorld.keep f (Typed.write .postgres typedWorld.decls typedWorld.facts (typedWorld.ty f) x))
    (typedWorld.keep f (Typed.write .postgres typedWorld.decls typedWorld.facts (typedWorld.ty f) y))) :=
  ⟨cellSorts, fun _ _ _ _ _ => rfl⟩
example : Spelled (storeCfg true) storePg (storeUser "people") ∧ (keyCols (storeUser "people")).length = 1 := ⟨fun _ _ => .inl rfl, rfl⟩
/-- those of less than one, the largest key first -/
example : typedSee (queryAll typedEnv .postgres cellOrd (storeUser "people") (fun _ => .nil)
    { where_ := some (.cmp .lt condName (.flt (.num false (127 * 2 ^ 23)))), orderBy := [(condId, false)] } typedThree).1 =
    some [[.int 9, .flt (.num true (127 * 2 ^ 23)), .str "Zoë".toUTF8.toList], [.int 7, .flt (.num false (126 * 2 ^ 23)), .nil]] := by
  decide +kernel
/-- nil is not less, and not more, than a name -/
example : typedSee (queryAll typedEnv .postgres cellOrd (storeUser "people") (fun _ => .nil)
    { where_ := some (.or [.cmp .lt condGroup (.str "M".toUTF8.toList), .cmp .ge condGroup (.str "M".toUTF8.toList)]),
      orderBy := [(condName, true)] } typedThree).1 =
    some [[.int 9, .flt (.num true (127 * 2 ^ 23)), .str "Zoë".toUTF8.toList],
      [.int (-2 ^ 60), .flt (.num false (127 * 2 ^ 23 + 2 ^ 22)), .str "Ann".toUTF8.toList]] := by
  decide +kernel

/-- A `uint64` column on PostgreSQL, and a `float64` column on MySQL. -/
example : meaning .postgres (declared .postgres 0 (.int .uint64)) = some (.int 64) ∧
    meaning .sqlite (declared .sqlite 0 (.int .uint)) = some (.int 64) ∧
    meaning .mysql (declared .mysql 0 (.float 64)) = some (.float single) := by decide +kernel
/-- The smallest number above one is not one of single precision. -/
example : ∀ j, val single j ≠ val double (1023 * 2 ^ 52 + 1) := by
  intro j hj
  have h1 : val double (1023 * 2 ^ 52) = val single (127 * 2 ^ 23) := by
    rw [val_eq, val_eq, show mag double (1023 * 2 ^ 52) = 2 ^ 1074 by decide +kernel, show mag single (127 * 2 ^ 23) = 2 ^ 149 by decide +kernel]
    norm_num [double, single]
  have h2 : val single (127 * 2 ^ 23 + 1) = val double (1023 * 2 ^ 52 + 2 ^ 29) := by
    rw [val_eq, val_eq, show mag double (1023 * 2 ^ 52 + 2 ^ 29) = 2 ^ 1051 * (2 ^ 23 + 1) by decide +kernel,
      show mag single (127 * 2 ^ 23 + 1) = 2 ^ 126 * (2 ^ 23 + 1) by decide +kernel]
    rw [show double.low = 1051 + 23 from rfl, show single.low = 126 + 23 from rfl, pow_add, pow_add]
    rw [Nat.cast_mul, Nat.cast_mul, Nat.cast_pow, Nat.cast_pow, Nat.cast_ofNat,
      mul_div_mul_left _ _ (pow_ne_zero _ (by norm_num)), mul_div_mul_left _ _ (pow_ne_zero _ (by norm_num))]
  have h3 := val_strictMono double (show 1023 * 2 ^ 52 < 1023 * 2 ^ 52 + 1 by decide)
  have h4 := val_strictMono double (show 1023 * 2 ^ 52 + 1 < 1023 * 2 ^ 52 + 2 ^ 29 by decide)
  rw [h1, ← hj] at h3
  rw [← h2, ← hj] at h4
  have := (val_strictMono single).lt_iff_lt.1 h3
  have := (val_strictMono single).lt_iff_lt.1 h4
  omega

end Verif.Props

import Verif.Lemmas.PageOrder
import Verif.Props.Cond

/-!
# C93: pagination at work on a database
-/

namespace Verif.Props

set_option linter.unusedSectionVars false

open Verif Verif.Gen Verif.Spec Verif.Spec.Gen Verif.Spec.Sql Verif.Spec.Store Verif.Sql Verif.Store

section
variable {F X V : Type} [DecidableEq F] [DecidableEq X] [DecidableEq V]

variable (E : Env F X V) (t : Table F) (Ok : F → X → Prop) (K : Compare V) (O : Comp F X) (br : Brand)

omit [DecidableEq F] [DecidableEq X] [DecidableEq V] in
private theorem effective (p : Paging F X) :
    (Pager.paginate (pagingOf E p)).where_ = p.where_.map (clause E) ∧
    (Pager.paginate (pagingOf E p)).orderBy = p.orderBy.map (ordering E) ∧
    (Pager.paginate (pagingOf E p)).limit ≠ 0 ∧
    (p.limit ≠ 65535 → (Pager.paginate (pagingOf E p)).limit ≠ 65535) ∧
    (p.limit = 65535 → (Pager.paginate (pagingOf E p)).limit = 65535) ∧
    (Pager.paginate (pagingOf E p)).limit.toNat = pageSize p.limit := by
  unfold Pager.paginate pageSize
  have e : (pagingOf E p).limit = p.limit := rfl
  by_cases h : p.limit = 0
  · rw [e, if_pos h, if_pos h]
    exact ⟨rfl, rfl, by simp, by simp, by simp [h], rfl⟩
  · rw [e, if_neg h, if_neg h]
    exact ⟨rfl, rfl, h, id, id, rfl⟩

/-! ### Listing from a record on -/

/-- C93. Iterating from a record on, forwards or backwards, while other sessions change the table: each page holds records
as they were stored when it was read; over all pages, keys only advance, so none comes twice; all pages but the last are
full; a key that is there all the time is not passed over, and when the iteration ends without an error it has been
delivered; it ends with an error only because the record at which the next page was to begin (or the given one) is gone.
Missing: filters (`C93_filter`, `C93_filter_cursor`), order columns (`C93_order`), keys of several columns except on PostgreSQL
(`C93_composite`), pages of 65535 (`C93_limit_65535`), and starting without a record (`C93_nothing`). -/
theorem C93_pages_partial (h : Setup E t Ok) (hA : Agrees K E.null E.enc Ok t O) (hO : Ordered O Ok t) (hn : Spelled E.g E.D t)
    (hbr : (keyCols t).length = 1 ∨ br = .postgres) (d : Pager.Dir) (p : Paging F X) (hw : p.where_ = none)
    (ho : p.orderBy = []) (hl : p.limit ≠ 65535) (zero : F → X) (w : Course V) (mF mQ : Nat → Map F X)
    (hF : ∀ j, Keeps E Ok t (mF j) (w.find j)) (hQ : ∀ j, Keeps E Ok t (mQ j) (w.query j)) (fuel : Nat) (c : F → X)
    (hc : Good Ok t c) :
    ∃ pages lost more,
      paginate E br K t zero d p w (fun _ => true) fuel (some c) =
        ⟨pages.map (fun page => Pager.Ev.page (page.map fun s => load t s zero)) ++ (if lost then [Pager.Ev.error] else []),
          if more then .running else .finished⟩ ∧
      (more = true → pages.length = fuel) ∧
      Tour O t (upOf d) (pageSize p.limit) mF mQ c pages lost more := by
  obtain ⟨e1, e2, e3, e4, -, e6⟩ := effective E p
  obtain ⟨pages, lost, more, r1, r2, r3⟩ := loop_tour h hA hO hn hbr d (e1.trans (by rw [hw]; rfl)) (e2.trans (by rw [ho]; rfl))
    (e4 hl) e3 zero w mF mQ hF hQ fuel 0 c hc
  refine ⟨pages, lost, more, r1, r2, ?_⟩
  simpa [e6] using r3

/-- C93. A consumer that stops after `k + 1` pages has got the first `k + 1` of what it would have got. -/
theorem C93_stop (d : Pager.Dir) (p : Paging F X) (zero : F → X) (w : Course V) (keep : Nat → Bool) (fuel k : Nat)
    (c : Option (F → X)) (hk : ∀ j < k, keep j = true) (hs : keep k = false) :
    (paginate E br K t zero d p w keep fuel c).evs = (paginate E br K t zero d p w (fun _ => true) fuel c).evs.take (k + 1) := by
  unfold paginate
  cases c <;> exact loop_stop br zero d _ w keep fuel 0 k _ _ (fun j hj => by simpa using hk j hj) (by simpa using hs)

/-- C93. If nobody changes the table, iterating from a stored record on ends without error, and the pages together are the
stored records from that one on, in the order of their keys. -/
theorem C93_static_partial (h : Setup E t Ok) (hA : Agrees K E.null E.enc Ok t O) (hO : Ordered O Ok t) (hn : Spelled E.g E.D t)
    (hbr : (keyCols t).length = 1 ∨ br = .postgres) (d : Pager.Dir) (p : Paging F X) (hw : p.where_ = none)
    (ho : p.orderBy = []) (hl : p.limit ≠ 65535) (zero : F → X) (σ : Sql.Store V) (m : Map F X) (hk : Keeps E Ok t m σ)
    (c : F → X) (hc : Good Ok t c) (hm : m (keyOf t c) ≠ none) :
    ∃ l, Listed O t (upOf d) m (From O t (upOf d) c) l ∧ ∀ fuel, l.length < fuel → ∃ pages : List (List (F → X)),
      paginate E br K t zero d p ⟨fun _ => σ, fun _ => σ⟩ (fun _ => true) fuel (some c) =
        ⟨pages.map fun page => Pager.Ev.page (page.map fun s => load t s zero), .finished⟩ ∧
      pages.flatten = l ∧ (∀ page ∈ pages, page.length ≤ pageSize p.limit) ∧
      ∀ page ∈ pages.dropLast, page.length = pageSize p.limit := by
  obtain ⟨s0, l, -, hlist, -⟩ := round_cursor (br := br) h hA hO hn hbr hk (good_key hc) d {} rfl rfl zero
  refine ⟨l, hlist, fun fuel hfuel => ?_⟩
  obtain ⟨pages, lost, more, r1, r2, r3⟩ := C93_pages_partial E t Ok K O br h hA hO hn hbr d p hw ho hl zero
    ⟨fun _ => σ, fun _ => σ⟩ (fun _ => m) (fun _ => m) (fun _ => hk) (fun _ => hk) fuel c hc
  have hst : ∀ k s, m k = some s → keyOf t s = k ∧ Good Ok t s := fun k s hs => by
    obtain ⟨rows, -, hh⟩ := hk
    exact ⟨(hh.stored k s hs).1, (hh.stored k s hs).2.1⟩
  have hlost : lost = false := by
    cases e : lost with
    | false => rfl
    | true =>
      obtain ⟨v, hv, hrest⟩ := r3.gone e
      cases e2 : pages.length with
      | zero => rw [e2] at hrest; simp only at hrest; rw [hrest] at hv; exact absurd hv hm
      | succ j => rw [e2] at hrest; simp only at hrest; rw [hrest.1] at hv; cases hv
  have hsub : ∀ s ∈ pages.flatten, s ∈ l := by
    intro s hs
    obtain ⟨page, hp, hsp⟩ := List.mem_flatten.1 hs
    obtain ⟨j, hj, e⟩ := List.mem_iff_getElem.1 hp
    exact (hlist.exactly s).2 ⟨r3.stored j page (by rw [List.getElem?_eq_getElem hj, e]) s hsp, r3.ahead s hs⟩
  have hgood : ∀ s ∈ l, KeyGood Ok t s := fun s hs => good_key (hst _ _ ((hlist.exactly s).1 hs).1).2
  have hnd : ∀ a : List (F → X), (∀ s ∈ a, s ∈ l) → a.Pairwise (Beyond O t (upOf d)) → a.Nodup := by
    intro a ha hp
    refine hp.imp_of_mem ?_
    rintro x y hx - hb rfl
    exact beyond_irrefl hO (hgood x (ha x hx)) rfl hb
  have hpos : 0 < pageSize p.limit := by
    have := (effective E p).2.2.1
    rw [← (effective E p).2.2.2.2.2]
    exact Nat.pos_of_ne_zero fun e => this (UInt16.toNat_inj.1 (by simpa using e))
  have hmore : more = false := by
    cases e : more with
    | false => rfl
    | true =>
      have hlen : fuel ≤ pages.flatten.length := by
        have hall : ∀ page ∈ pages, 1 ≤ page.length := by
          intro page hp
          obtain ⟨j, hj, e2⟩ := List.mem_iff_getElem.1 hp
          rw [r3.full j page (by rw [List.getElem?_eq_getElem hj, e2]) (.inr (.inr e))]
          exact hpos
        rw [← r2 e]
        have : ∀ ps : List (List (F → X)), (∀ page ∈ ps, 1 ≤ page.length) → ps.length ≤ ps.flatten.length := by
          intro ps
          induction ps with
          | nil => intro _; exact Nat.le_refl 0
          | cons a ps ih =>
            intro hps
            have h1 := hps a (by simp)
            have h2 := ih fun x hx => hps x (by simp [hx])
            simp only [List.flatten_cons, List.length_append, List.length_cons]
            omega
        exact this pages hall
      have := (List.subperm_of_subset (hnd _ hsub r3.sorted) hsub).length_le
      omega
  have hall : ∀ s ∈ l, s ∈ pages.flatten := by
    intro s hs
    obtain ⟨h1, h2⟩ := (hlist.exactly s).1 hs
    obtain ⟨s', hs', e⟩ := List.mem_map.1 (r3.complete hlost hmore (keyOf t s) fun j _ => ⟨s, h1, h2⟩)
    have h3 := ((hlist.exactly s').1 (hsub s' hs')).1
    rw [e, h1] at h3
    cases h3
    exact hs'
  refine ⟨pages, ?_, ?_, r3.sizes, ?_⟩
  · rw [r1, hlost, hmore]; simp
  · have hperm : pages.flatten.Perm l := by
      rw [List.perm_ext_iff_of_nodup (hnd _ hsub r3.sorted) (hnd _ (fun _ h => h) hlist.sorted)]
      exact fun s => ⟨hsub s, hall s⟩
    refine hperm.eq_of_pairwise (fun a b ha hb hab hba => ?_) r3.sorted hlist.sorted
    exact absurd (beyond_trans hO (hgood a (hsub a ha)) (hgood b hb) (hgood a (hsub a ha)) hab hba)
      (beyond_irrefl hO (hgood a (hsub a ha)) rfl)
  · intro page hp
    obtain ⟨j, hj, e⟩ := List.mem_iff_getElem.1 hp
    rw [List.length_dropLast] at hj
    rw [List.getElem_dropLast] at e
    exact r3.full j page (by rw [List.getElem?_eq_getElem (by omega), e]) (.inl (by omega))

/-- C93. If the given record is not stored, that is an error. -/
theorem C93_missing (h : Setup E t Ok) (d : Pager.Dir) (p : Paging F X) (zero : F → X) (w : Course V) (m : Map F X)
    (hk : Keeps E Ok t m (w.find 0)) (keep : Nat → Bool) (fuel : Nat) (c : F → X) (hc : Good Ok t c)
    (hm : m (keyOf t c) = none) :
    paginate E br K t zero d p w keep (fuel + 1) (some c) = ⟨[.error], .finished⟩ := by
  simp only [paginate]
  rw [pageLoop, cursor_lookup h hk hc, hm]
  rfl

/-! ### Filters -/

/-- What a query that the database refuses comes to. -/
private theorem refused_round (d : Pager.Dir) (p : Pager.PStmt V) (zero : F → X) (w : Course V) (keep : Nat → Bool) (fuel i : Nat)
    (cur : Bool) (v : F → X) (hr : ∀ v : F → V, ∃ s, Pager.pageQuery E.g.style (pmdl E t) d p cur v = .ok s ∧
      ∀ σ, pageRows E br K t zero s σ = .failed) :
    pageLoop E br K t zero d p w keep (fuel + 1) i cur v = ⟨[.error], .finished⟩ := by
  rw [pageLoop]
  cases cursorOf E t cur v (w.find i) with
  | none => rfl
  | some v =>
    obtain ⟨s, e1, e2⟩ := hr fun f => E.enc f (v f)
    simp only
    rw [e1]
    simp only [e2]

private theorem both_refused (h : Setup E t Ok) (hn : Spelled E.g E.D t) (d : Pager.Dir) {c : Cond F X} (hc : c.Proper Ok t)
    (p : Pager.PStmt V) (hp : p.where_ = some (clause E c)) (ho : p.orderBy = []) (zero : F → X) (v : F → V) :
    ∃ s, Pager.pageQuery E.g.style (pmdl E t) d p true v = .ok s ∧ ∀ σ, pageRows E br K t zero s σ = .failed := by
  obtain ⟨s, e1, e2⟩ := Pager.pageQuery_noOrder E.g.style (pmdl E t) (page_hasKey h) d p ho (by
    intro c' hc'
    rw [hp] at hc'
    cases hc'
    exact .inr (inNonempty_clause c hc)) true v
  rw [hp] at e2
  exact ⟨s, e1, fun σ => round_refused h hn e2 (read_both h hn br d hc v _) zero σ⟩

/-- C93. With a filter and no record to start from: if not more records are found than fit on a page, they are delivered, in
the order of their keys.  Otherwise the first page is delivered, and then comes an error instead of the second page,
whatever is stored. -/
theorem C93_filter (h : Setup E t Ok) (hA : Agrees K E.null E.enc Ok t O) (hO : Ordered O Ok t) (hn : Spelled E.g E.D t)
    (hbr : (keyCols t).length = 1 ∨ br = .postgres) (d : Pager.Dir) (p : Paging F X) (c : Cond F X) (hw : p.where_ = some c)
    (hc : c.Proper Ok t) (ho : p.orderBy = []) (hl : p.limit ≠ 65535) (zero : F → X) (w : Course V) (m : Map F X)
    (hk : Keeps E Ok t m (w.query 0)) (keep : Nat → Bool) (fuel : Nat) :
    ∃ l, Listed O t (upOf d) m (Meets O (some c)) l ∧
      paginate E br K t zero d p w keep (fuel + 2) none =
        if l.length ≤ pageSize p.limit then ⟨[.page (l.map fun s => load t s zero)], .finished⟩
        else ⟨.page ((l.take (pageSize p.limit)).map fun s => load t s zero) :: (if keep 0 then [.error] else []), .finished⟩ := by
  obtain ⟨e1, e2, e3, e4, -, e6⟩ := effective E p
  rw [hw] at e1
  rw [ho] at e2
  obtain ⟨s, l, r1, hlist, r2⟩ := round_filter h hA hO hn hbr hk hc (fun f => E.enc f (zero f)) d _ e1 e2 zero
  refine ⟨l, hlist, ?_⟩
  simp only [paginate]
  rw [pageLoop]
  have hcur : cursorOf E t false zero (w.find 0) = some zero := rfl
  simp only [hcur]
  rw [r1]
  simp only [r2, (limit_succ (e4 hl)).1]
  rw [List.map_take]
  have hfit := page_fits (e4 hl) (l.map fun s => load t s zero)
  rw [List.length_map, e6] at hfit
  rw [e6]
  by_cases hle : l.length ≤ pageSize p.limit
  · rw [if_pos (hfit.2 hle), if_pos hle, List.take_of_length_le (by simp; omega)]
  · have hlt : pageSize p.limit < l.length := by omega
    rw [if_neg fun e => hle (hfit.1 e), if_neg hle]
    have htake : (l.map fun s => load t s zero).take (pageSize p.limit + 1) =
        (l.take (pageSize p.limit)).map (fun s => load t s zero) ++ [load t l[pageSize p.limit] zero] := by
      rw [← List.map_take, List.take_succ_eq_append_getElem hlt, List.map_append]
      rfl
    rw [htake, List.getLast?_concat, List.dropLast_concat]
    simp only
    rw [refused_round E t K br d _ zero w keep fuel 1 true _ fun v => both_refused E t Ok K br h hn d hc _ e1 e2 zero v]
    cases keep 0 <;> rfl

/-- C93. With a filter and a record to start from there is an error, whatever is stored. -/
theorem C93_filter_cursor (h : Setup E t Ok) (hn : Spelled E.g E.D t) (d : Pager.Dir) (p : Paging F X) (c : Cond F X)
    (hw : p.where_ = some c) (hc : c.Proper Ok t) (ho : p.orderBy = []) (zero : F → X) (w : Course V) (keep : Nat → Bool)
    (fuel : Nat) (v : F → X) :
    paginate E br K t zero d p w keep (fuel + 1) (some v) = ⟨[.error], .finished⟩ := by
  obtain ⟨e1, e2, -⟩ := effective E p
  rw [hw] at e1
  rw [ho] at e2
  exact refused_round E t K br d _ zero w keep fuel 0 true v fun v => both_refused E t Ok K br h hn d hc _ e1 e2 zero v

/-- C93. With neither a filter nor a record to start from there is an error: there is no way to list from the first record
on without knowing it. -/
theorem C93_nothing (h : Setup E t Ok) (hn : Spelled E.g E.D t) (hr : E.D.reserved "ORDER".toList = true) (d : Pager.Dir)
    (p : Paging F X) (hw : p.where_ = none) (ho : p.orderBy = []) (zero : F → X) (w : Course V) (keep : Nat → Bool) (fuel : Nat) :
    paginate E br K t zero d p w keep (fuel + 1) none = ⟨[.error], .finished⟩ := by
  obtain ⟨e1, e2, -⟩ := effective E p
  rw [hw] at e1
  rw [ho] at e2
  refine refused_round E t K br d _ zero w keep fuel 0 false zero fun v => ?_
  obtain ⟨s, e3, e4⟩ := Pager.pageQuery_noOrder E.g.style (pmdl E t) (page_hasKey h) d _ e2 (by rw [e1]; simp) false v
  rw [e1] at e4
  exact ⟨s, e3, fun σ => round_refused h hn e4 (read_neither h hn hr br d _) zero σ⟩

/-! ### Order columns, keys of several columns, the largest page -/

/-- C93, refuted for order columns. Whatever is stored, no page is ever delivered: the iteration ends with an error, or
panics.  It panics just if among the order columns is one of the last of a model with a key made up by the database or with columns that
are only read. -/
theorem C93_order (h : Setup E t Ok) (hn : Spelled E.g E.D t) (d : Pager.Dir) (p : Paging F X) (hw : ProperWhere Ok t p.where_)
    (hne : p.orderBy ≠ []) (ho : ∀ q ∈ p.orderBy, q.1 ∈ t.columns) (zero : F → X) (w : Course V) (keep : Nat → Bool) (fuel : Nat)
    (c : Option (F → X)) (m : Map F X) (hk : Keeps E Ok t m (w.find 0))
    (hc : ∀ v, c = some v → Good Ok t v ∧ m (keyOf t v) ≠ none) :
    (Overrun t p.orderBy → paginate E br K t zero d p w keep (fuel + 1) c = ⟨[], .panicked⟩) ∧
    (¬ Overrun t p.orderBy → paginate E br K t zero d p w keep (fuel + 1) c = ⟨[.error], .finished⟩) := by
  obtain ⟨e1, e2, -⟩ := effective E p
  have hr := fun cur v => round_order (br := br) (K := K) h hn hw hne ho d e1 e2 cur v zero
  constructor
  · intro hov
    unfold paginate
    cases c with
    | none =>
      simp only
      rw [pageLoop]
      have hcur : cursorOf E t false zero (w.find 0) = some zero := rfl
      simp only [hcur]
      rw [(hr false _).1 hov]
    | some v =>
      simp only
      rw [pageLoop, cursor_lookup h hk (hc v rfl).1]
      cases hs : m (keyOf t v) with
      | none => exact absurd hs (hc v rfl).2
      | some s =>
        simp only [Option.map_some]
        rw [(hr true _).1 hov]
  · intro hov
    unfold paginate
    cases c with
    | none => exact refused_round E t K br d _ zero w keep fuel 0 false zero fun v => (hr false v).2 hov
    | some v => exact refused_round E t K br d _ zero w keep fuel 0 true v fun v => (hr true v).2 hov

/-- C93, refuted for keys of several columns except on PostgreSQL: an error, whatever is stored. -/
theorem C93_composite (h : Setup E t Ok) (hn : Spelled E.g E.D t) (hkey : 1 < (keyCols t).length) (hb : br ≠ .postgres)
    (d : Pager.Dir) (p : Paging F X) (hw : ProperWhere Ok t p.where_) (ho : p.orderBy = []) (zero : F → X) (w : Course V)
    (keep : Nat → Bool) (fuel : Nat) (c : Option (F → X)) (hs : p.where_ ≠ none ∨ c ≠ none) :
    paginate E br K t zero d p w keep (fuel + 1) c = ⟨[.error], .finished⟩ := by
  obtain ⟨e1, e2, -⟩ := effective E p
  rw [ho] at e2
  have hor : orderOf E br t d = none := by unfold orderOf; rw [if_pos ⟨hkey, hb⟩]
  cases c with
  | some v =>
    cases hp : p.where_ with
    | some c => exact C93_filter_cursor E t Ok K br h hn d p c hp (hw c hp) ho zero w keep fuel v
    | none =>
      rw [hp] at e1
      refine refused_round E t K br d _ zero w keep fuel 0 true v fun v => ?_
      obtain ⟨s, e3, e4⟩ := Pager.pageQuery_noOrder E.g.style (pmdl E t) (page_hasKey h) d _ e2 (by rw [e1]; simp) true v
      rw [e1] at e4
      exact ⟨s, e3, fun σ => round_refused h hn e4 ((read_cursor h hn br d v _).trans (by rw [hor]; rfl)) zero σ⟩
  | none =>
    cases hp : p.where_ with
    | none => rw [hp] at hs; simp at hs
    | some c =>
      rw [hp] at e1
      refine refused_round E t K br d _ zero w keep fuel 0 false zero fun v => ?_
      obtain ⟨s, e3, e4⟩ := Pager.pageQuery_noOrder E.g.style (pmdl E t) (page_hasKey h) d _ e2 (by
        intro c' hc'
        rw [e1] at hc'
        cases hc'
        exact .inr (inNonempty_clause c (hw c hp))) false v
      rw [e1] at e4
      simp only [Bool.false_eq_true, if_false, List.append_nil] at e4
      exact ⟨s, e3, fun σ => round_refused h hn e4 ((read_filter h hn br d (hw c hp) _).trans (by rw [hor]; rfl)) zero σ⟩

/-- C93, refuted for pages of 65535 records: the iteration ends without error after one empty page, whatever is stored. -/
theorem C93_limit_65535 (h : Setup E t Ok) (hA : Agrees K E.null E.enc Ok t O) (hO : Ordered O Ok t) (hn : Spelled E.g E.D t)
    (hbr : (keyCols t).length = 1 ∨ br = .postgres) (d : Pager.Dir) (p : Paging F X) (hw : ProperWhere Ok t p.where_)
    (ho : p.orderBy = []) (hl : p.limit = 65535) (zero : F → X) (w : Course V) (mF mQ : Map F X)
    (hF : Keeps E Ok t mF (w.find 0)) (hQ : Keeps E Ok t mQ (w.query 0)) (keep : Nat → Bool) (fuel : Nat) (c : Option (F → X))
    (hc : match c with
      | some v => p.where_ = none ∧ Good Ok t v ∧ mF (keyOf t v) ≠ none
      | none => p.where_ ≠ none) :
    paginate E br K t zero d p w keep (fuel + 1) c = ⟨[.page []], .finished⟩ := by
  obtain ⟨e1, e2, -, -, e5, -⟩ := effective E p
  rw [ho] at e2
  have h0 : ((Pager.paginate (pagingOf E p)).limit + 1).toNat = 0 := by rw [e5 hl]; rfl
  unfold paginate
  cases c with
  | some v =>
    obtain ⟨hc1, hc2, hc3⟩ := hc
    rw [hc1] at e1
    simp only
    rw [pageLoop, cursor_lookup h hF hc2]
    cases hs : mF (keyOf t v) with
    | none => exact absurd hs hc3
    | some s =>
      simp only [Option.map_some]
      have hg : Good Ok t s := by
        obtain ⟨rows, -, hh⟩ := hF
        exact (hh.stored _ s hs).2.1
      obtain ⟨s', l, r1, -, r2⟩ := round_cursor h hA hO hn hbr hQ (good_key (load_good hg v)) d _ e1 e2 zero
      rw [r1]
      simp only [r2, h0, List.take_zero, List.map_nil]
      rfl
  | none =>
    cases hp : p.where_ with
    | none => exact absurd hp hc
    | some c =>
      rw [hp] at e1
      obtain ⟨s', l, r1, -, r2⟩ := round_filter h hA hO hn hbr hQ (hw c hp) (fun f => E.enc f (zero f)) d _ e1 e2 zero
      simp only
      rw [pageLoop]
      have hcur : cursorOf E t false zero (w.find 0) = some zero := rfl
      simp only [hcur]
      rw [r1]
      simp only [r2, h0, List.take_zero, List.map_nil]
      rfl

end

/-! ### Concrete cases -/

def pageSee : Pager.Ev (Nat → Nat) → Option (List Nat)
  | .page rs => some (rs.map fun r => r 10)
  | .error => none

/-- The keys on the pages, from `c` on, and how it ended. -/
def pageShow (E : Env Nat Nat (Option Nat)) (br : Brand) (t : Table Nat) (d : Pager.Dir) (p : Paging Nat Nat)
    (w : Course (Option Nat)) (c : Option Nat) : List (Option (List Nat)) × Pager.End :=
  let r := paginate E br condOrd t (fun _ => 0) d p w (fun _ => true) 9 (c.map fun k => storeRec k 0 0)
  (r.evs.map pageSee, r.fin)

/-- Nobody else. -/
def pageStill (E : Env Nat Nat (Option Nat)) : Course (Option Nat) := ⟨fun _ => condFour E, fun _ => condFour E⟩

theorem pageOrdered : Ordered condComp (fun _ _ => True) (storeUser "people") := by
  refine ⟨?_, ?_, ?_, ?_, ?_⟩ <;> intros <;> simp_all [condComp] <;> omega

example : (keyCols (storeUser "people")).length = 1 := rfl
example : Good (fun _ _ => True) (storeUser "people") (storeRec 2 0 0) := fun _ _ => trivial
/-- forwards by one, by two, backwards, of 100 -/
example : pageShow (condEnv true) .postgres (storeUser "people") .next { limit := 1 } (pageStill (condEnv true)) (some 2) =
      ([some [2], some [3], some [4]], .finished) ∧
    pageShow condEnvMy .mysql (storeUser "people") .next { limit := 2 } (pageStill condEnvMy) (some 1) =
      ([some [1, 2], some [3, 4]], .finished) ∧
    pageShow condEnvMy .mysql (storeUser "people") .prev { limit := 2 } (pageStill condEnvMy) (some 3) =
      ([some [3, 2], some [1]], .finished) ∧
    pageShow condEnvMy .mysql (storeUser "people") .next {} (pageStill condEnvMy) (some 1) =
      ([some [1, 2, 3, 4]], .finished) := by decide +kernel
/-- not from a record that is not there, nor from the first one -/
example : pageShow condEnvMy .mysql (storeUser "people") .next {} (pageStill condEnvMy) (some 7) = ([none], .finished) ∧
    pageShow condEnvMy .mysql (storeUser "people") .next {} (pageStill condEnvMy) none = ([none], .finished) := by
  decide +kernel
/-- the record at which the second page begins is deleted before that page is read -/
example : pageShow condEnvMy .mysql (storeUser "people") .next { limit := 2 }
    ⟨fun i => if i = 0 then condFour condEnvMy else
        (deleteAll condEnvMy .mysql condOrd (storeUser "people") { where_ := some (.cmp .eq condId 3) } (condFour condEnvMy)).2,
      fun _ => condFour condEnvMy⟩ (some 1) = ([some [1, 2], none], .finished) := by decide +kernel
/-- another one is -/
example : pageShow condEnvMy .mysql (storeUser "people") .next { limit := 1 }
    ⟨fun _ => condFour condEnvMy, fun i => if i = 0 then condFour condEnvMy else
        (deleteAll condEnvMy .mysql condOrd (storeUser "people") { where_ := some (.cmp .eq condId 3) } (condFour condEnvMy)).2⟩
      (some 1) = ([some [1], some [2], some [4]], .finished) := by decide +kernel
/-- group 2: on one page, on two pages, from 2 on -/
example : (Cond.cmp .eq condGroup 2 : Cond Nat Nat).Proper (fun _ _ => True) (storeUser "people") ∧
    pageShow (condEnv true) .postgres (storeUser "people") .next { where_ := some (.cmp .eq condGroup 2), limit := 3 }
      (pageStill (condEnv true)) none = ([some [1, 2, 3]], .finished) ∧
    pageShow (condEnv true) .postgres (storeUser "people") .prev { where_ := some (.cmp .eq condGroup 2), limit := 2 }
      (pageStill (condEnv true)) none = ([some [3, 2], none], .finished) ∧
    pageShow (condEnv true) .postgres (storeUser "people") .next { where_ := some (.cmp .eq condGroup 2), limit := 3 }
      (pageStill (condEnv true)) (some 2) = ([none], .finished) := by
  refine ⟨⟨?_, trivial⟩, by decide +kernel, by decide +kernel, by decide +kernel⟩
  simp [storeUser, condGroup]
/-- by name -/
example : ¬ Overrun (storeUser "people") [(condName, true)] ∧
    pageShow (condEnv true) .postgres (storeUser "people") .next { orderBy := [(condName, true)] }
      (pageStill (condEnv true)) (some 2) = ([none], .finished) ∧
    pageShow condEnvMy .mysql (storeUser "people") .prev { orderBy := [(condName, false), (condId, true)] }
      (pageStill condEnvMy) none = ([none], .finished) := by
  refine ⟨?_, by decide +kernel, by decide +kernel⟩
  rintro ⟨p, -, j, hj, hl⟩
  have h3 : (insertPos (storeUser "people")).length = 3 := rfl
  have : j < 3 := (List.getElem?_eq_some_iff.1 hj).1
  omega
/-- by group, where the database makes up the key -/
example : Overrun { storeUser "people" with auto := some 0 } [(condGroup, true)] ∧
    Setup (storeEnv true) { storeUser "people" with auto := some 0 } (fun _ _ => True) ∧
    pageShow (storeEnv true) .postgres { storeUser "people" with auto := some 0 } .next { orderBy := [(condGroup, true)] }
      ⟨fun _ => bulkTwo true, fun _ => bulkTwo true⟩ (some 7) = ([], .panicked) :=
  ⟨⟨(condGroup, true), by simp, 2, rfl, by decide⟩, storeSetup true _ (.inr rfl), by decide +kernel⟩
/-- pages of 65535 -/
example : pageShow condEnvMy .mysql (storeUser "people") .next { limit := 65535 } (pageStill condEnvMy) (some 1) =
    ([some []], .finished) := by decide +kernel

def pagePair : Table Nat := { storeUser "people" with keys := [0, 1] }

theorem pagePairSetup : Setup (storeEnv true) pagePair (fun _ _ => True) := by
  have h := storeSetup true (storeUser "people") (.inl rfl)
  refine ⟨⟨h.wf.names, h.wf.pos, by decide, by decide, by simp [pagePair, storeUser]⟩, rfl, ⟨h.named.1, h.named.2, h.named.3⟩, ⟨h.bare.table, ?_⟩, h.plain,
    h.names, by simp [pagePair, storeUser], h.back, ?_⟩
  · intro c hc
    simp [pagePair, storeUser, pick, keyPos] at hc
    rcases hc with rfl | rfl <;> exact .inr ⟨⟨by decide, by decide, by decide, by decide⟩, by decide⟩
  · intro c hc x _
    simp [storeEnv]

/-- a key of two columns, with different databases -/
example : 1 < (keyCols pagePair).length ∧
    pageShow (storeEnv true) .postgres pagePair .next { limit := 1 }
      ⟨fun _ => (performs (storeEnv true) pagePair [.insert (storeRec 7 0 2), .insert (storeRec 7 1 4), .insert (storeRec 6 9 4)]
          (storeOnly pagePair)).2,
        fun _ => (performs (storeEnv true) pagePair [.insert (storeRec 7 0 2), .insert (storeRec 7 1 4), .insert (storeRec 6 9 4)]
          (storeOnly pagePair)).2⟩ (some 7) = ([some [7], some [7]], .finished) ∧
    pageShow (storeEnv true) .sqlite pagePair .next { limit := 1 }
      ⟨fun _ => (performs (storeEnv true) pagePair [.insert (storeRec 7 0 2), .insert (storeRec 7 1 4)] (storeOnly pagePair)).2,
        fun _ => (performs (storeEnv true) pagePair [.insert (storeRec 7 0 2), .insert (storeRec 7 1 4)] (storeOnly pagePair)).2⟩
      (some 7) = ([none], .finished) := by decide +kernel

end Verif.Props

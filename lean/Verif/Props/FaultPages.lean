import Verif.Model.PageFault
import Verif.Props.Page
import Verif.Props.FaultLost

/-!
# Property C103: pagination over connections that fail
-/

namespace Verif.Props

set_option linter.unusedSectionVars false

open Verif Verif.Gen Verif.Spec Verif.Spec.Gen Verif.Spec.Sql Verif.Spec.Store Verif.Store Verif.Spec.Program Verif.Program

variable {F X V : Type} [DecidableEq F] [DecidableEq X] [DecidableEq V] {E : Env F X V} {Ok : F → X → Prop} {K : Compare V} {br : Brand}

private theorem cursorOn_fine (t : Table F) (cur : Bool) (v : F → X) (σ : Sql.Store V) :
    cursorOn E .fine t cur v σ = cursorOf E t cur v σ := rfl

private theorem cursorOn_cases (f : Fault) (t : Table F) (cur : Bool) (v : F → X) (σ : Sql.Store V) :
    cursorOn E f t cur v σ = cursorOf E t cur v σ ∨ cursorOn E f t cur v σ = none := by
  cases cur with
  | false => exact .inl rfl
  | true =>
    by_cases hf : f = .fine
    · subst hf; exact .inl rfl
    · right
      have hs : ∀ (s : Sql.Stmt V) (σ : Sql.Store V), (single f σ (exec E.null E.gen s σ)).1 = .refused := by
        intro s σ
        cases f <;> first | exact absurd rfl hf | rfl
      have : (performOn E f t (.find v) σ).1 = .failed := by
        simp only [performOn, performVia, findVia]
        split
        · simp only [sendTo]
          split
          · next h => simp only [hs]; rfl
          · rfl
        · rfl
      simp only [cursorOn, if_true, this]

private theorem pageRowsOn_fine (t : Table F) (zero : F → X) (s : Verif.Stmt V) (σ : Sql.Store V) :
    pageRowsOn E br K .fine t zero s σ = pageRows E br K t zero s σ := rfl

private theorem pageRowsOn_lost {f : Fault} (hf : f = .before ∨ f = .after) (t : Table F) (zero : F → X) (s : Verif.Stmt V)
    (σ : Sql.Store V) : pageRowsOn E br K f t zero s σ = .failed := by
  rcases hf with rfl | rfl <;> rfl

private theorem pageRowsOn_cut {t : Table F} {zero : F → X} {s : Verif.Stmt V} {σ : Sql.Store V} {data : List (F → X)}
    (h : pageRows E br K t zero s σ = .ok data) (n : Nat) (kept : Bool) :
    pageRowsOn E br K (.cut n kept) t zero s σ = .ok (data.take n) := by
  unfold pageRows at h
  unfold pageRowsOn
  have hx : ∀ w, (∃ l, execPage K E.null w σ = .rows l) ∨ execPage K E.null w σ = .refused := by
    intro w
    unfold execPage
    split
    · exact .inr rfl
    · split
      · exact .inr rfl
      · exact .inl ⟨_, rfl⟩
  generalize (Spec.bind E.g.style s.text s.args).bind (readPage br E.D) = w at h ⊢
  cases w with
  | none => simp [rowsOf] at h
  | some w =>
    simp only at h ⊢
    rcases hx w with ⟨l, e⟩ | e
    · rw [e] at h ⊢
      simp only [rowsOf] at h
      split at h
      · next rs hm =>
        cases h
        simp only [looped, rowsOf, mapM_take _ _ _ n hm]
      · cases h
    · rw [e] at h
      simp [rowsOf] at h

/-- No answer is cut while its rows are gone through. -/
def NoCut (f : Troubles) : Prop := ∀ i n kept, f.query i ≠ .cut n kept

private theorem loopOn_prefix {f : Troubles} (hf : NoCut f) (t : Table F) (zero : F → X) (d : Pager.Dir) (p : Pager.PStmt V) (w : Course V)
    (keep : Nat → Bool) : ∀ (fuel i : Nat) (cur : Bool) (v : F → X),
    let r0 := pageLoop E br K t zero d p w keep fuel i cur v
    let r := pageLoopOn E br K f t zero d p w keep fuel i cur v
    r = r0 ∨ ∃ k, r = ⟨r0.evs.take k ++ [.error], .finished⟩ ∧ ∀ e ∈ r0.evs.take k, e ≠ .error
  | 0, i, cur, v => .inl rfl
  | fuel + 1, i, cur, v => by
    intro r0 r
    have hfail : r = ⟨[.error], .finished⟩ → r = r0 ∨ ∃ k, r = ⟨r0.evs.take k ++ [.error], .finished⟩ ∧ ∀ e ∈ r0.evs.take k, e ≠ .error :=
      fun e => .inr ⟨0, by simpa using e, by simp⟩
    rcases cursorOn_cases (E := E) (f.find i) t cur v (w.find i) with hc | hc
    · cases hv : cursorOf E t cur v (w.find i) with
      | none =>
        rw [hv] at hc
        exact hfail (by simp only [r, pageLoopOn, hc])
      | some v1 =>
        rw [hv] at hc
        cases hs : Pager.pageQuery E.g.style (Helpers.ofTable E.g t : Helpers.Mdl (F → V) V) d p cur (fun f => E.enc f (v1 f)) with
        | panic => left; simp only [r, r0, pageLoopOn, pageLoop, hc, hv, hs]
        | err => left; simp only [r, r0, pageLoopOn, pageLoop, hc, hv, hs]
        | ok s =>
          by_cases hq : f.query i = .fine
          · have e := pageRowsOn_fine (E := E) (br := br) (K := K) t zero s (w.query i)
            cases hp : pageRows E br K t zero s (w.query i) with
            | ok data =>
              rw [hp] at e
              by_cases hle : data.length.toUInt16 ≤ p.limit
              · left; simp only [r, r0, pageLoopOn, pageLoop, hc, hv, hs, hq, e, hp, if_pos hle]
              · cases hl : data.getLast? with
                | none => left; simp only [r, r0, pageLoopOn, pageLoop, hc, hv, hs, hq, e, hp, if_neg hle, hl]
                | some v' =>
                  cases hk : keep i with
                  | false =>
                    left
                    simp only [r, r0, pageLoopOn, pageLoop, hc, hv, hs, hq, e, hp, if_neg hle, hl, hk, Bool.false_eq_true, if_false]
                  | true =>
                    have e0 : r0 = ⟨.page data.dropLast :: (pageLoop E br K t zero d p w keep fuel (i + 1) true v').evs,
                        (pageLoop E br K t zero d p w keep fuel (i + 1) true v').fin⟩ := by
                      simp only [r0, pageLoop, hv, hs, hp, if_neg hle, hl, hk, if_true]
                    have e1 : r = ⟨.page data.dropLast :: (pageLoopOn E br K f t zero d p w keep fuel (i + 1) true v').evs,
                        (pageLoopOn E br K f t zero d p w keep fuel (i + 1) true v').fin⟩ := by
                      simp only [r, pageLoopOn, hc, hs, hq, e, if_neg hle, hl, hk, if_true]
                    rcases loopOn_prefix hf t zero d p w keep fuel (i + 1) true v' with h | ⟨k, h, hk⟩
                    · left; rw [e0, e1, h]
                    · right
                      refine ⟨k + 1, ?_, ?_⟩
                      · rw [e0, e1, h]; simp
                      · rw [e0]
                        intro x hx
                        simp only [List.take_succ_cons, List.mem_cons] at hx
                        rcases hx with rfl | hx
                        · simp
                        · exact hk x hx
            | noRows => rw [hp] at e; left; simp only [r, r0, pageLoopOn, pageLoop, hc, hv, hs, hq, e, hp]
            | failed => rw [hp] at e; left; simp only [r, r0, pageLoopOn, pageLoop, hc, hv, hs, hq, e, hp]
            | panicked => rw [hp] at e; left; simp only [r, r0, pageLoopOn, pageLoop, hc, hv, hs, hq, e, hp]
          · have hq' : f.query i = .before ∨ f.query i = .after := by
              cases h : f.query i with
              | fine => exact absurd h hq
              | before => exact .inl rfl
              | after => exact .inr rfl
              | cut n kept => exact absurd h (hf i n kept)
            refine hfail ?_
            simp only [r, pageLoopOn, hc, hs, pageRowsOn_lost hq']
    · exact hfail (by simp only [r, pageLoopOn, hc])

/-- C103, for pagination. However connections fail, short of the answer to a page query being cut, the iteration goes as over
connections that work, or it yields the first of those pages and then an error. -/
theorem C103_pages_prefix {f : Troubles} (hf : NoCut f) (t : Table F) (zero : F → X) (d : Pager.Dir) (p : Paging F X) (w : Course V)
    (keep : Nat → Bool) (fuel : Nat) (c : Option (F → X)) :
    let fine := paginate E br K t zero d p w keep fuel c
    let run := paginateOn E br K f t zero d p w keep fuel c
    run = fine ∨ ∃ k, run = ⟨fine.evs.take k ++ [.error], .finished⟩ ∧ ∀ e ∈ fine.evs.take k, e ≠ .error := by
  unfold paginate paginateOn
  cases c <;> exact loopOn_prefix hf t zero d _ w keep fuel 0 _ _

/-- Over connections that work, it is the iteration of C93. -/
theorem C103_pages_fine (t : Table F) (zero : F → X) (d : Pager.Dir) (p : Paging F X) (w : Course V) (keep : Nat → Bool) (fuel : Nat)
    (c : Option (F → X)) :
    paginateOn E br K ⟨fun _ => .fine, fun _ => .fine⟩ t zero d p w keep fuel c = paginate E br K t zero d p w keep fuel c := by
  have : ∀ (fuel i : Nat) (cur : Bool) (v : F → X) (p : Pager.PStmt V),
      pageLoopOn E br K ⟨fun _ => .fine, fun _ => .fine⟩ t zero d p w keep fuel i cur v = pageLoop E br K t zero d p w keep fuel i cur v := by
    intro fuel
    induction fuel with
    | zero => intros; rfl
    | succ fuel ih =>
      intro i cur v p
      simp only [pageLoopOn, pageLoop, cursorOn_fine, pageRowsOn_fine, ih]
      rfl
  unfold paginate paginateOn
  cases c <;> exact this _ _ _ _ _

/-- C103, for listing from a record on while other sessions change the table: the pages are the first ones of an iteration as
C93 describes it, and if it breaks off there is an error.  Missing: page queries whose answer is cut (`C103_pages_short`), and what
C93 leaves out. -/
theorem C103_pages_partial {t : Table F} {O : Comp F X} (h : Setup E t Ok) (hA : Agrees K E.null E.enc Ok t O) (hO : Ordered O Ok t)
    (hn : Spelled E.g E.D t) (hbr : (keyCols t).length = 1 ∨ br = .postgres) (d : Pager.Dir) (p : Paging F X) (hw : p.where_ = none)
    (ho : p.orderBy = []) (hl : p.limit ≠ 65535) (zero : F → X) (w : Course V) (mF mQ : Nat → Map F X)
    (hF : ∀ j, Keeps E Ok t (mF j) (w.find j)) (hQ : ∀ j, Keeps E Ok t (mQ j) (w.query j)) (fuel : Nat) (c : F → X)
    (hc : Good Ok t c) (f : Troubles) (hf : NoCut f) :
    let ev := fun page : List (F → X) => Pager.Ev.page (page.map fun s => load t s zero)
    ∃ pages lost more, Tour O t (upOf d) (pageSize p.limit) mF mQ c pages lost more ∧
      (paginateOn E br K f t zero d p w (fun _ => true) fuel (some c) =
          ⟨pages.map ev ++ (if lost then [Pager.Ev.error] else []), if more then .running else .finished⟩ ∨
        ∃ k, paginateOn E br K f t zero d p w (fun _ => true) fuel (some c) = ⟨(pages.take k).map ev ++ [.error], .finished⟩) := by
  intro ev
  obtain ⟨pages, lost, more, e, -, ht⟩ :=
    C93_pages_partial E t Ok K O br h hA hO hn hbr d p hw ho hl zero w mF mQ hF hQ fuel c hc
  refine ⟨pages, lost, more, ht, ?_⟩
  rcases C103_pages_prefix (E := E) (br := br) (K := K) hf t zero d p w (fun _ => true) fuel (some c) with h1 | ⟨k, h1, h2⟩
  · left; rw [h1, e]
  · right
    rw [e] at h1 h2
    by_cases hk : k ≤ pages.length
    · refine ⟨k, ?_⟩
      rw [h1, List.take_append_of_le_length (by simpa using hk), List.map_take]
    · refine ⟨pages.length, ?_⟩
      rw [h1, List.take_length]
      cases lost with
      | false => simp only [Bool.false_eq_true, if_false, List.append_nil]; rw [List.take_of_length_le (by simp; omega)]
      | true =>
        refine absurd rfl (h2 .error ?_)
        simp only [if_true]
        rw [List.take_of_length_le (by simp; omega)]
        simp

/-! ### Answers that are cut -/

/-- Until round `i` all is well, and there the answer to the query is cut after `n` rows. -/
def CutAt (f : Troubles) (i n : Nat) : Prop :=
  (∀ j ≤ i, f.find j = .fine) ∧ (∀ j < i, f.query j = .fine) ∧ ∃ kept, f.query i = .cut n kept

private theorem loopOn_cut {f : Troubles} {j n : Nat} (hf : CutAt f j n) (t : Table F) (zero : F → X) (d : Pager.Dir) (p : Pager.PStmt V)
    (hn : n ≤ p.limit.toNat) (w : Course V) (keep : Nat → Bool) (page : List (F → X)) : ∀ (fuel i k : Nat) (cur : Bool) (v : F → X),
    i + k = j → (pageLoop E br K t zero d p w keep fuel i cur v).evs[k]? = some (.page page) →
    pageLoopOn E br K f t zero d p w keep fuel i cur v =
      ⟨(pageLoop E br K t zero d p w keep fuel i cur v).evs.take k ++ [.page (page.take n)], .finished⟩
  | 0, i, k, cur, v, _, h => by simp [pageLoop] at h
  | fuel + 1, i, k, cur, v, hj, h => by
    have hfit : ∀ l : List (F → X), (l.take n).length.toUInt16 ≤ p.limit := by
      intro l
      have hlt := p.limit.toNat_lt
      have h1 : (l.take n).length ≤ n := by simp
      rw [UInt16.le_iff_toNat_le]
      have h2 : (l.take n).length.toUInt16.toNat = (l.take n).length := by
        simp only [Nat.toUInt16_eq, UInt16.toNat_ofNat']
        omega
      omega
    have hcf : cursorOn E (f.find i) t cur v (w.find i) = cursorOf E t cur v (w.find i) := by rw [hf.1 i (by omega)]; rfl
    cases hv : cursorOf E t cur v (w.find i) with
    | none => simp only [pageLoop, hv] at h; cases k <;> simp at h
    | some v1 =>
      rw [hv] at hcf
      cases hs : Pager.pageQuery E.g.style (Helpers.ofTable E.g t : Helpers.Mdl (F → V) V) d p cur (fun f => E.enc f (v1 f)) with
      | panic => simp only [pageLoop, hv, hs] at h; simp at h
      | err => simp only [pageLoop, hv, hs] at h; cases k <;> simp at h
      | ok s =>
        cases hp : pageRows E br K t zero s (w.query i) with
        | noRows => simp only [pageLoop, hv, hs, hp] at h; cases k <;> simp at h
        | failed => simp only [pageLoop, hv, hs, hp] at h; cases k <;> simp at h
        | panicked => simp only [pageLoop, hv, hs, hp] at h; cases k <;> simp at h
        | ok data =>
          cases k with
          | zero =>
            obtain rfl : i = j := by omega
            obtain ⟨kept, hq⟩ := hf.2.2
            have hcut := pageRowsOn_cut hp n kept
            have hon : pageLoopOn E br K f t zero d p w keep (fuel + 1) i cur v = ⟨[.page (data.take n)], .finished⟩ := by
              simp only [pageLoopOn, hcf, hs, hq, hcut, if_pos (hfit data)]
            rw [hon]
            have hd : data.take n = page.take n := by
              by_cases hle : data.length.toUInt16 ≤ p.limit
              · simp only [pageLoop, hv, hs, hp, if_pos hle] at h
                simp at h
                rw [h]
              · have hlen : p.limit.toNat < data.length := by
                  rcases Nat.lt_or_ge p.limit.toNat data.length with h1 | h1
                  · exact h1
                  · refine absurd ?_ hle
                    rw [UInt16.le_iff_toNat_le]
                    have h2 : data.length.toUInt16.toNat ≤ data.length := by
                      simp only [Nat.toUInt16_eq, UInt16.toNat_ofNat']
                      exact Nat.mod_le _ _
                    omega
                cases hl : data.getLast? with
                | none => simp only [pageLoop, hv, hs, hp, if_neg hle, hl] at h; simp at h
                | some v' =>
                  have hpg : page = data.dropLast := by
                    simp only [pageLoop, hv, hs, hp, if_neg hle, hl] at h
                    cases hk : keep i <;> simp [hk] at h <;> exact h.symm
                  rw [hpg, List.dropLast_eq_take, List.take_take, Nat.min_eq_left (by omega)]
            rw [hd]
            simp
          | succ k =>
            have hq : f.query i = .fine := hf.2.1 i (by omega)
            have e : pageRowsOn E br K .fine t zero s (w.query i) = .ok data := hp
            by_cases hle : data.length.toUInt16 ≤ p.limit
            · simp only [pageLoop, hv, hs, hp, if_pos hle] at h; simp at h
            · cases hl : data.getLast? with
              | none => simp only [pageLoop, hv, hs, hp, if_neg hle, hl] at h; simp at h
              | some v' =>
                cases hk : keep i with
                | false => simp only [pageLoop, hv, hs, hp, if_neg hle, hl, hk] at h; simp at h
                | true =>
                  simp only [pageLoop, hv, hs, hp, if_neg hle, hl, hk, if_true, List.getElem?_cons_succ] at h
                  have := loopOn_cut hf t zero d p hn w keep page fuel (i + 1) k true v' (by omega) h
                  simp only [pageLoopOn, pageLoop, hcf, hv, hs, hq, e, hp, if_neg hle, hl, hk, if_true, this, List.take_succ_cons,
                    List.cons_append]

/-- C103 is false for pagination over a connection that fails after some of the rows of a page, not more than fit on it: what has
arrived is yielded as the last page, and there is no error, whatever is stored and asked for. -/
theorem C103_pages_short (t : Table F) (zero : F → X) (d : Pager.Dir) (p : Paging F X) (w : Course V) (keep : Nat → Bool) (fuel : Nat)
    (c : Option (F → X)) {f : Troubles} {i n : Nat} (hf : CutAt f i n) (hn : n ≤ pageSize p.limit) {page : List (F → X)}
    (hp : (paginate E br K t zero d p w keep fuel c).evs[i]? = some (.page page)) :
    paginateOn E br K f t zero d p w keep fuel c =
      ⟨(paginate E br K t zero d p w keep fuel c).evs.take i ++ [.page (page.take n)], .finished⟩ := by
  have hl : (Pager.paginate (pagingOf E p)).limit.toNat = pageSize p.limit := by
    unfold Pager.paginate pageSize
    have e : (pagingOf E p).limit = p.limit := rfl
    by_cases h : p.limit = 0
    · rw [e, if_pos h, if_pos h]; rfl
    · rw [e, if_neg h, if_neg h]; rfl
  unfold paginate at hp ⊢
  unfold paginateOn
  cases c <;> exact loopOn_cut hf t zero d _ (by omega) w keep page fuel 0 i _ _ (by omega) hp

private theorem flatten_take {A : Type} (size : Nat) (hs : 0 < size) : ∀ (i : Nat) (pages : List (List A)) (pg : List A),
    (∀ page ∈ pages.dropLast, page.length = size) → pages[i]? = some pg → ∀ n ≤ size, n ≤ pg.length →
    (pages.take i ++ [pg.take n]).flatten = pages.flatten.take (i * size + n)
  | _, [], _, _, h, _, _, _ => by simp at h
  | 0, p :: ps, pg, _, h, n, _, h2 => by
    simp at h
    subst h
    simp [List.take_append_of_le_length h2]
  | i + 1, p :: ps, pg, hfull, h, n, h1, h2 => by
    simp only [List.getElem?_cons_succ] at h
    have hne : ps ≠ [] := by rintro rfl; simp at h
    rw [List.dropLast_cons_of_ne_nil hne] at hfull
    have := flatten_take size hs i ps pg (fun x hx => hfull x (by simp [hx])) h n h1 h2
    have hp := hfull p (by simp)
    simp only [List.take_succ_cons, List.cons_append, List.flatten_cons, this]
    rw [show (i + 1) * size + n = p.length + (i * size + n) by rw [hp, Nat.succ_mul]; omega, List.take_length_add_append]

/-- So a listing can leave out any number of the last records without an error: if the answer is cut in round `i` after `n` rows,
then just `i` full pages and `n` more records come out, though nobody changes the table. -/
theorem C103_pages_missing {t : Table F} {O : Comp F X} (h : Setup E t Ok) (hA : Agrees K E.null E.enc Ok t O) (hO : Ordered O Ok t)
    (hn : Spelled E.g E.D t) (hbr : (keyCols t).length = 1 ∨ br = .postgres) (d : Pager.Dir) (p : Paging F X) (hw : p.where_ = none)
    (ho : p.orderBy = []) (hl : p.limit ≠ 65535) (zero : F → X) (σ : Sql.Store V) (m : Map F X) (hk : Keeps E Ok t m σ)
    (c : F → X) (hc : Good Ok t c) (hm : m (keyOf t c) ≠ none) :
    ∃ l, Listed O t (upOf d) m (From O t (upOf d) c) l ∧ ∀ (f : Troubles) (i n : Nat), CutAt f i n → n ≤ pageSize p.limit →
      i * pageSize p.limit + n < l.length → ∀ fuel, l.length < fuel → ∃ pages : List (List (F → X)),
        paginateOn E br K f t zero d p ⟨fun _ => σ, fun _ => σ⟩ (fun _ => true) fuel (some c) =
          ⟨pages.map fun page => Pager.Ev.page (page.map fun s => load t s zero), .finished⟩ ∧
        pages.flatten = l.take (i * pageSize p.limit + n) := by
  obtain ⟨l, hlist, hall⟩ := C93_static_partial E t Ok K O br h hA hO hn hbr d p hw ho hl zero σ m hk c hc hm
  refine ⟨l, hlist, fun f i n hf hnl hlt fuel hfuel => ?_⟩
  obtain ⟨pages, e, hflat, hsize, hfull⟩ := hall fuel hfuel
  have hpos : 0 < pageSize p.limit := by
    unfold pageSize
    split
    · omega
    · next h0 => exact Nat.pos_of_ne_zero fun e => h0 (UInt16.toNat_inj.1 (by simpa using e))
  have hlen : ∀ ps : List (List (F → X)), (∀ page ∈ ps, page.length ≤ pageSize p.limit) → ps.flatten.length ≤ ps.length * pageSize p.limit := by
    intro ps
    induction ps with
    | nil => simp
    | cons a ps ih =>
      intro hps
      have h1 := hps a (by simp)
      have h2 := ih fun x hx => hps x (by simp [hx])
      simp only [List.flatten_cons, List.length_append, List.length_cons, Nat.add_mul, Nat.one_mul]
      omega
  have hi : i < pages.length := by
    rcases Nat.lt_or_ge i pages.length with h1 | h1
    · exact h1
    · have := hlen pages hsize
      rw [hflat] at this
      have := Nat.mul_le_mul_right (pageSize p.limit) h1
      omega
  have hget : pages[i]? = some pages[i] := List.getElem?_eq_getElem hi
  have hnp : n ≤ pages[i].length := by
    by_cases hlast : i + 1 < pages.length
    · have : pages[i] ∈ pages.dropLast := by
        rw [List.mem_iff_getElem]
        exact ⟨i, by rw [List.length_dropLast]; omega, by rw [List.getElem_dropLast]⟩
      rw [hfull _ this]
      exact hnl
    · have hsplit : pages = pages.take i ++ [pages[i]] := by
        rw [← List.take_succ_eq_append_getElem hi, List.take_of_length_le (by omega)]
      have h1 : l.length = (pages.take i).flatten.length + pages[i].length := by
        have := congrArg (fun ps : List (List (F → X)) => ps.flatten.length) hsplit
        simp only [List.flatten_append, List.length_append, List.flatten_cons, List.flatten_nil, List.append_nil] at this
        rw [← hflat]
        exact this
      have h2 := hlen (pages.take i) fun x hx => hsize x (List.mem_of_mem_take hx)
      rw [List.length_take, Nat.min_eq_left (by omega)] at h2
      omega
  refine ⟨pages.take i ++ [pages[i].take n], ?_, ?_⟩
  · have := C103_pages_short (E := E) (br := br) (K := K) t zero d p ⟨fun _ => σ, fun _ => σ⟩ (fun _ => true) fuel (some c) hf hnl
      (page := (pages[i]).map fun s => load t s zero) (by rw [e, List.getElem?_map, hget]; rfl)
    rw [this, e]
    simp [List.map_take]
  · rw [← hflat]
    exact flatten_take _ hpos i pages _ hfull hget n hnl hnp

/-! ### Cases -/

/-- The keys on the pages, and how it ended. -/
def faultPages (f : Troubles) : List (Option (List Nat)) × Pager.End :=
  let r := paginateOn condEnvMy .mysql condOrd f (storeUser "people") (fun _ => 0) .next { limit := 2 } (pageStill condEnvMy)
    (fun _ => true) 9 (some (storeRec 1 0 0))
  (r.evs.map pageSee, r.fin)

/-- all is well; the second query, or the lookup before it, fails; the second answer is cut after one row, the first one after none -/
example : faultPages ⟨fun _ => .fine, fun _ => .fine⟩ = ([some [1, 2], some [3, 4]], .finished) ∧
    faultPages ⟨fun _ => .fine, fun i => if i = 1 then .after else .fine⟩ = ([some [1, 2], none], .finished) ∧
    faultPages ⟨fun i => if i = 1 then .before else .fine, fun _ => .fine⟩ = ([some [1, 2], none], .finished) ∧
    faultPages ⟨fun _ => .fine, fun i => if i = 1 then .cut 1 true else .fine⟩ = ([some [1, 2], some [3]], .finished) ∧
    faultPages ⟨fun _ => .fine, fun _ => .cut 0 true⟩ = ([some []], .finished) := by decide +kernel

example : NoCut ⟨fun i => if i = 1 then .before else .fine, fun i => if i = 1 then .after else .fine⟩ := by
  intro i n kept
  simp only
  split <;> simp

example : CutAt ⟨fun _ => .fine, fun i => if i = 1 then .cut 1 true else .fine⟩ 1 1 :=
  ⟨fun _ _ => rfl, fun j hj => by simp; omega, true, rfl⟩

end Verif.Props

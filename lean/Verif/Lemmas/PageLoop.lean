import Verif.Lemmas.PageRun

/-!
# Lemmas about the loop of pagination
-/

namespace Verif.Store

open Verif Verif.Gen Verif.Spec Verif.Spec.Gen Verif.Spec.Sql Verif.Spec.Store Verif.Sql Verif.Helpers Verif.Spec.Helpers Verif.Spec.Pager

set_option linter.unusedSectionVars false

variable {F X V : Type} [DecidableEq F] [DecidableEq X] [DecidableEq V]

variable {E : Env F X V} {t : Table F} {Ok : F → X → Prop} {K : Compare V} {O : Comp F X}

/-! ## Numbers -/

theorem limit_succ {l : UInt16} (hl : l ≠ 65535) : (l + 1).toNat = l.toNat + 1 ∧ l.toNat + 1 < 65536 := by
  have h1 : l.toNat < 65536 := l.toNat_lt
  have h2 : l.toNat ≠ 65535 := fun e => hl (UInt16.toNat_inj.1 (by simpa using e))
  refine ⟨?_, by omega⟩
  rw [UInt16.toNat_add]
  simp only [UInt16.toNat_one]
  omega

theorem page_fits {A : Type} {l : UInt16} (hl : l ≠ 65535) (a : List A) :
    (a.take (l.toNat + 1)).length.toUInt16 ≤ l ↔ a.length ≤ l.toNat := by
  have h1 := (limit_succ hl).2
  rw [UInt16.le_iff_toNat_le]
  simp only [Nat.toUInt16, UInt16.toNat_ofNat', List.length_take]
  rw [Nat.mod_eq_of_lt (by omega)]
  omega

omit [DecidableEq F] [DecidableEq X] in
/-- The first page and the pages after it. -/
theorem tour_cons (hO : Ordered O Ok t) {up : Bool} {n : Nat} (hn : 0 < n) {mF mQ : Nat → Map F X} {c v : F → X}
    (hc : KeyGood Ok t c) (hm : ∀ j k s, mQ j k = some s → keyOf t s = k ∧ Good Ok t s) {l : List (F → X)} (hl : Listed O t up (mQ 0) (From O t up c) l)
    (hlen : n < l.length) (hv : keyOf t v = keyOf t l[n]) {pages : List (List (F → X))} {lost more : Bool}
    (ht : Tour O t up n (fun j => mF (j + 1)) (fun j => mQ (j + 1)) v pages lost more) :
    Tour O t up n mF mQ c (l.take n :: pages) lost more := by
  have hsplit : l = l.take n ++ l[n] :: l.drop (n + 1) := by
    rw [List.getElem_cons_drop, List.take_append_drop]
  have hgood : ∀ s ∈ l, KeyGood Ok t s := fun s hs => good_key (hm 0 _ _ ((hl.exactly s).1 hs).1).2
  have hmid : l[n] ∈ l := List.getElem_mem _
  have hvg : KeyGood Ok t v := fun c' hc' => by
    rw [(keyOf_eq_iff v l[n]).1 hv c' hc']
    exact hgood _ hmid c' hc'
  have hsort := hl.sorted
  rw [hsplit, List.pairwise_append] at hsort
  obtain ⟨s1, s2, s3⟩ := hsort
  rw [List.pairwise_cons] at s2
  have htg : ∀ s ∈ pages.flatten, KeyGood Ok t s := by
    intro s hs
    obtain ⟨page, hp, hs⟩ := List.mem_flatten.1 hs
    obtain ⟨j, hj⟩ := List.mem_iff_getElem?.1 hp
    exact good_key (hm _ _ _ (ht.stored j page hj s hs)).2
  have hcv : From O t up c v := (from_congr up rfl hv).2 ((hl.exactly _).1 hmid).2
  have hbv : ∀ s ∈ l.take n, Beyond O t up s v := fun s hs => (beyond_congr up rfl hv).2 (s3 s hs _ List.mem_cons_self)
  have hin : ∀ s ∈ l.take n, s ∈ l := fun s hs => List.mem_of_mem_take hs
  have hback : ∀ k, (∀ j < (l.take n :: pages).length, ∃ s, mQ j k = some s ∧ From O t up c s) →
      k ∈ (l.take n).map (keyOf t) ∨ ((∀ r, keyOf t r = k → From O t up v r) ∧
        ∀ j < pages.length, ∃ s, mQ (j + 1) k = some s ∧ From O t up v s) := by
    intro k hk
    obtain ⟨s, hs, hf⟩ := hk 0 (by simp)
    obtain ⟨e, hg⟩ := hm _ _ _ hs
    have hsl : s ∈ l := (hl.exactly s).2 ⟨by rw [e]; exact hs, hf⟩
    rw [hsplit, List.mem_append] at hsl
    rcases hsl with hsl | hsl
    · exact .inl (e ▸ List.mem_map_of_mem hsl)
    · have hfv : From O t up v s := by
        rcases List.mem_cons.1 hsl with rfl | hsl
        · exact .inl hv.symm
        · exact .inr ((beyond_congr up hv rfl).2 (s2.1 s hsl))
      have hall : ∀ r, keyOf t r = k → From O t up v r := fun r hr => (from_congr up rfl (e.trans hr.symm)).1 hfv
      refine .inr ⟨hall, fun j hj => ?_⟩
      obtain ⟨s', hs', -⟩ := hk (j + 1) (by simpa using hj)
      exact ⟨s', hs', hall s' (hm _ _ _ hs').1⟩
  refine ⟨?_, ?_, ?_, ?_, ?_, ?_, ?_, ?_⟩
  · intro j page hj s hs
    cases j with
    | zero =>
      simp only [List.getElem?_cons_zero, Option.some.injEq] at hj
      subst hj
      exact ((hl.exactly s).1 (hin s hs)).1
    | succ j => exact ht.stored j page (by simpa using hj) s hs
  · intro s hs
    rw [List.flatten_cons, List.mem_append] at hs
    rcases hs with hs | hs
    · exact ((hl.exactly s).1 (hin s hs)).2
    · exact from_trans hO hc hvg (htg s hs) hcv (ht.ahead s hs)
  · rw [List.flatten_cons, List.pairwise_append]
    refine ⟨s1, ht.sorted, fun a ha b hb => ?_⟩
    exact beyond_from hO (hgood a (hin a ha)) hvg (htg b hb) (hbv a ha) (ht.ahead b hb)
  · intro page hp
    rcases List.mem_cons.1 hp with rfl | hp
    · simp; omega
    · exact ht.sizes page hp
  · intro j page hj hor
    cases j with
    | zero =>
      simp only [List.getElem?_cons_zero, Option.some.injEq] at hj
      subst hj
      simp; omega
    | succ j =>
      refine ht.full j page (by simpa using hj) ?_
      rcases hor with e | e
      · exact .inl (by simpa using e)
      · exact .inr e
  · intro k hk
    rcases hback k hk with e | ⟨e1, e2⟩
    · exact .inl (by rw [List.flatten_cons, List.map_append]; exact List.mem_append_left _ e)
    · rcases ht.gapless k e2 with e | e
      · exact .inl (by rw [List.flatten_cons, List.map_append]; exact List.mem_append_right _ e)
      · refine .inr fun s hs r hr => ?_
        rw [List.flatten_cons, List.mem_append] at hs
        rcases hs with hs | hs
        · obtain ⟨s0, hs0, -⟩ := hk 0 (by simp)
          have hrg : KeyGood Ok t r := fun c' hc' => by
            rw [(keyOf_eq_iff r s0).1 (hr.trans (hm _ _ _ hs0).1.symm) c' hc']
            exact good_key (hm _ _ _ hs0).2 c' hc'
          exact beyond_from hO (hgood s (hin s hs)) hvg hrg (hbv s hs) (e1 r hr)
        · exact e s hs r hr
  · intro h1 h2 k hk
    rw [List.flatten_cons, List.map_append, List.mem_append]
    rcases hback k hk with e | ⟨-, e2⟩
    · exact .inl e
    · exact .inr (ht.complete h1 h2 k e2)
  · intro h1
    obtain ⟨w, hw, hg⟩ := ht.gone h1
    cases hp : pages with
    | nil =>
      subst hp
      simp only [List.length_nil] at hw hg
      refine ⟨l[n], by rw [← hv, ← hg]; exact hw, ((hl.exactly _).1 hmid).1, fun s hs => ?_⟩
      rw [List.flatten_cons, List.flatten_nil, List.append_nil] at hs
      exact s3 s hs _ List.mem_cons_self
    | cons p ps =>
      refine ⟨w, by rw [← hp]; exact hw, ?_⟩
      rw [hp] at hg
      simp only [List.length_cons] at hg ⊢
      refine ⟨hg.1, fun s hs => ?_⟩
      rw [List.flatten_cons, List.mem_append] at hs
      rcases hs with hs | hs
      · have hwg := good_key (hm _ _ _ hg.1).2
        obtain ⟨x, hx⟩ : ∃ x, x ∈ (p :: ps).flatten := by
          have := ht.full 0 p (by simp [hp]) (.inr (.inl h1))
          cases p with
          | nil => simp at this; omega
          | cons x xs => exact ⟨x, by simp⟩
        have h3 := hg.2 x hx
        have h4 := beyond_from hO (hgood s (hin s hs)) hvg (htg x (by rw [hp]; exact hx)) (hbv s hs) (ht.ahead x (by rw [hp]; exact hx))
        exact beyond_trans hO (hgood s (hin s hs)) (htg x (by rw [hp]; exact hx)) hwg h4 h3
      · exact hg.2 s hs

section
variable (h : Setup E t Ok) (hA : Agrees K E.null E.enc Ok t O) (hO : Ordered O Ok t) (hn : Spelled E.g E.D t)
include h hA hO hn

/-- The loop with a cursor, no condition and no order columns. -/
theorem loop_tour {br : Brand} (hbr : (keyCols t).length = 1 ∨ br = .postgres) (d : Pager.Dir) {p : Pager.PStmt V}
    (hw : p.where_ = none) (ho : p.orderBy = []) (hl : p.limit ≠ 65535) (h0 : p.limit ≠ 0) (zero : F → X) (w : Course V)
    (mF mQ : Nat → Map F X) (hF : ∀ j, Keeps E Ok t (mF j) (w.find j)) (hQ : ∀ j, Keeps E Ok t (mQ j) (w.query j)) :
    ∀ (fuel i : Nat) (c : F → X), Good Ok t c → ∃ pages lost more,
      pageLoop E br K t zero d p w (fun _ => true) fuel i true c =
        ⟨pages.map (fun page => Pager.Ev.page (page.map fun s => load t s zero)) ++ (if lost then [Pager.Ev.error] else []),
          if more then .running else .finished⟩ ∧
      (more = true → pages.length = fuel) ∧
      Tour O t (upOf d) p.limit.toNat (fun j => mF (i + j)) (fun j => mQ (i + j)) c pages lost more := by
  have hm : ∀ j k s, mQ j k = some s → keyOf t s = k ∧ Good Ok t s := fun j k s hs => by
    obtain ⟨rows, -, hh⟩ := hQ j
    exact ⟨(hh.stored k s hs).1, (hh.stored k s hs).2.1⟩
  have hmF : ∀ j k s, mF j k = some s → keyOf t s = k ∧ Good Ok t s := fun j k s hs => by
    obtain ⟨rows, -, hh⟩ := hF j
    exact ⟨(hh.stored k s hs).1, (hh.stored k s hs).2.1⟩
  have h0' : 0 < p.limit.toNat := by
    have : p.limit.toNat ≠ 0 := fun e => h0 (UInt16.toNat_inj.1 (by simpa using e))
    omega
  intro fuel
  induction fuel with
  | zero =>
    intro i c hc
    exact ⟨[], false, true, rfl, fun _ => rfl, by constructor <;> simp⟩
  | succ fuel ih =>
    intro i c hc
    rw [pageLoop, cursor_lookup h (hF i) hc]
    cases hlk : mF i (keyOf t c) with
    | none =>
      refine ⟨[], true, false, rfl, by simp, ?_⟩
      constructor <;> simp
      exact hlk
    | some s0 =>
      have hk0 : keyOf t (load t s0 c) = keyOf t c := (load_key s0 c).trans (hmF _ _ _ hlk).1
      have hg0 : KeyGood Ok t (load t s0 c) := good_key (load_good (hmF _ _ _ hlk).2 c)
      obtain ⟨s, l, e1, hlist, e2⟩ := round_cursor h hA hO hn hbr (hQ i) hg0 d p hw ho zero
      have hlist' : Listed O t (upOf d) (mQ i) (From O t (upOf d) c) l :=
        ⟨fun s => by rw [hlist.exactly, from_congr (O := O) (upOf d) hk0 rfl], hlist.sorted⟩
      simp only [Option.map_some, e1, e2, (limit_succ hl).1]
      have hfit : (List.take (p.limit.toNat + 1) (l.map fun s => load t s zero)).length.toUInt16 ≤ p.limit ↔
          l.length ≤ p.limit.toNat := by rw [page_fits hl, List.length_map]
      by_cases hle : l.length ≤ p.limit.toNat
      · rw [List.map_take, if_pos (hfit.2 hle), List.take_of_length_le (by simp; omega)]
        refine ⟨[l], false, false, by simp, by simp, ?_⟩
        have hex : ∀ k, (∀ j < [l].length, ∃ s, mQ (i + j) k = some s ∧ From O t (upOf d) c s) → k ∈ [l].flatten.map (keyOf t) := by
          intro k hk
          obtain ⟨s, hs, hf⟩ := hk 0 (by simp)
          have e := (hm _ _ _ hs).1
          rw [List.flatten_cons, List.flatten_nil, List.append_nil]
          rw [← e]
          exact List.mem_map_of_mem ((hlist'.exactly s).2 ⟨by rw [e]; exact hs, hf⟩)
        refine ⟨?_, ?_, ?_, ?_, ?_, fun k hk => .inl (hex k hk), fun _ _ => hex, by simp⟩
        · intro j page hj s hs
          cases j with
          | zero =>
            simp only [List.getElem?_cons_zero, Option.some.injEq] at hj
            subst hj
            exact ((hlist'.exactly s).1 hs).1
          | succ j => simp at hj
        · intro s hs
          rw [List.flatten_cons, List.flatten_nil, List.append_nil] at hs
          exact ((hlist'.exactly s).1 hs).2
        · rw [List.flatten_cons, List.flatten_nil, List.append_nil]; exact hlist'.sorted
        · simpa using hle
        · intro j page hj
          simp
      · have hlt : p.limit.toNat < l.length := by omega
        rw [List.map_take, if_neg fun e => hle (hfit.1 e)]
        have htake : (l.map fun s => load t s zero).take (p.limit.toNat + 1) =
            (l.take p.limit.toNat).map (fun s => load t s zero) ++ [load t l[p.limit.toNat] zero] := by
          rw [← List.map_take, List.take_succ_eq_append_getElem hlt, List.map_append]
          rfl
        rw [htake, List.getLast?_concat, List.dropLast_concat]
        simp only [if_true]
        have hmem : l[p.limit.toNat] ∈ l := List.getElem_mem _
        obtain ⟨pages, lost, more, r1, r2, r3⟩ := ih (i + 1) (load t l[p.limit.toNat] zero)
          (load_good (hm _ _ _ ((hlist'.exactly _).1 hmem).1).2 zero)
        refine ⟨l.take p.limit.toNat :: pages, lost, more, ?_, fun e => by rw [List.length_cons, r2 e], ?_⟩
        · rw [r1, List.map_cons, List.cons_append]
        · refine tour_cons hO h0' (good_key hc) (fun j => hm (i + j)) hlist' hlt (load_key _ zero) ?_
          have ea : ∀ f : Nat → Map F X, (fun j => f (i + (j + 1))) = fun j => f (i + 1 + j) := fun f => by
            funext j
            rw [show i + (j + 1) = i + 1 + j by omega]
          rw [ea mF, ea mQ]
          exact r3

end

/-! ## Stopping early -/

theorem loop_stop (br : Brand) (zero : F → X) (d : Pager.Dir) (p : Pager.PStmt V) (w : Course V) (keep : Nat → Bool) :
    ∀ (fuel i k : Nat) (cur : Bool) (v : F → X), (∀ j < k, keep (i + j) = true) → keep (i + k) = false →
      (pageLoop E br K t zero d p w keep fuel i cur v).evs =
        (pageLoop E br K t zero d p w (fun _ => true) fuel i cur v).evs.take (k + 1) := by
  intro fuel
  induction fuel with
  | zero => intros; simp [pageLoop]
  | succ fuel ih =>
    intro i k cur v hk hs
    rw [pageLoop, pageLoop]
    cases cursorOf E t cur v (w.find i) with
    | none => simp
    | some v =>
      cases e : Pager.pageQuery E.g.style (Helpers.ofTable E.g t : Helpers.Mdl (F → V) V) d p cur (fun f => E.enc f (v f)) with
      | panic => simp only [e]; simp
      | err => simp only [e]; simp
      | ok s =>
        simp only [e]
        cases e2 : pageRows E br K t zero s (w.query i) with
        | failed => simp
        | noRows => simp
        | panicked => simp
        | ok data =>
          simp only
          by_cases e3 : data.length.toUInt16 ≤ p.limit
          · simp [if_pos e3]
          · simp only [if_neg e3]
            cases data.getLast? with
            | none => simp
            | some v' =>
              simp only [if_true]
              cases k with
              | zero =>
                have : keep i = false := by simpa using hs
                simp [this]
              | succ k =>
                have : keep i = true := by simpa using hk 0 (by omega)
                simp only [this, if_true, List.take_succ_cons]
                rw [ih (i + 1) k true v' (fun j hj => by have := hk (j + 1) (by omega); rwa [show i + 1 + j = i + (j + 1) by omega])
                  (by rw [show i + 1 + k = i + (k + 1) by omega]; exact hs)]

end Verif.Store

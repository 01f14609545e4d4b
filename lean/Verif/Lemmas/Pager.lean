import Verif.Spec.Pager
import Verif.Lemmas.Query
import Verif.Lemmas.Grouping
import Verif.Lemmas.Helpers
import Verif.Props.Helpers
import Mathlib.Data.List.Basic

/-!
# Lemmas about pagination
-/

namespace Verif.Pager

open Verif Verif.Spec Verif.Spec.Gen Verif.Helpers Verif.Spec.Helpers Verif.Spec.Pager

variable {R V K : Type}

/-! ### Texts -/

theorem head_aligned (st : Style) (m : Mdl R V) :
    AlignedS st (({} : Stmt V).writeS ("SELECT " ++ joinStr "," m.sqlColumns ++ " FROM " ++ m.table ++ " WHERE "))
      (headB m) := by
  have h : AlignedS st ({} : Stmt V) [] := aligned_nil st
  have := h.writeS ("SELECT " ++ joinStr "," m.sqlColumns ++ " FROM " ++ m.table ++ " WHERE ")
  simpa [headB, bs_joinStr, commaStrs, namesB, comma] using this

theorem keyCmp_aligned (st : Style) (m : Mdl R V) (hk : HasKey m) (d : Dir) (r : R) (s : Stmt V)
    (b : List (BSym V)) (h : AlignedS st s b) :
    ∃ s', keyCmp st m d r s = .ok s' ∧ AlignedS st s' (b ++ cursorB m d r) := by
  unfold HasKey at hk
  unfold keyCmp cursorB
  cases hm : m.key with
  | none => rw [hm] at hk; exact hk.elim
  | single a n i val =>
    refine ⟨_, rfl, ?_⟩
    have := (Aligned.var (Aligned.tx h ("(" ++ n ++ (match d with | .next => " >= " | .prev => " <= "))) (val r)).tx ")"
    cases d <;> simpa [AlignedS, Stmt.var, Stmt.write] using this
  | comp names is vals =>
    rw [hm] at hk
    obtain ⟨⟨s1, p⟩, h1⟩ := vars_ok st s (vals r) (by
      right; intro e; have := hk.2 r; rw [e] at this; exact hk.1 (List.eq_nil_of_length_eq_zero this.symm))
    have := (vars_aligned h h1 ("((" ++ joinStr "," names ++ ")" ++ (match d with | .next => " >= " | .prev => " <= "))).2.write ")"
    simp only [h1, Res.ok_bind]
    refine ⟨_, rfl, ?_⟩
    cases d <;>
      simpa [AlignedS, Stmt.write, bs_joinStr, commaStrs, namesB, comma, rowB, tuple] using this

theorem keyOrder_aligned {st : Style} {m : Mdl R V} (hk : HasKey m) (a c : String) {s : Stmt V}
    {b : List (BSym V)} (h : AlignedS st s b) :
    ∃ s', keyOrder m a c s = .ok s' ∧ AlignedS st s' (b ++ (match m.key with
        | .single _ n _ _ => bs n ++ bs a
        | .comp names _ _ => bs "(" ++ namesB names ++ bs ")" ++ bs c
        | .none => [])) := by
  unfold HasKey at hk
  unfold keyOrder
  cases hm : m.key with
  | none => rw [hm] at hk; exact hk.elim
  | single x n i val => exact ⟨_, rfl, by simpa using h.writeS (n ++ a)⟩
  | comp names is vals =>
    refine ⟨_, rfl, ?_⟩
    have := h.writeS ("(" ++ joinStr "," names ++ ")" ++ c)
    simpa [bs_joinStr, commaStrs, namesB, comma] using this

theorem orderLoop_aligned' {st : Style} (os : List Order) {s : Stmt V} {b : List (BSym V)}
    (h : AlignedS st s b) : AlignedS st (orderLoop os s)
      (b ++ os.flatMap fun o => bs o.col ++ bs (if o.asc then " ASC," else " DESC,")) := by
  induction os generalizing s b with
  | nil => simpa [orderLoop] using h
  | cons o os ih =>
    have := ih (h.writeS (o.col ++ (if o.asc then " ASC," else " DESC,")))
    simpa [orderLoop] using this

theorem orderPart_aligned {st : Style} {m : Mdl R V} (hk : HasKey m) (d : Dir) (os : List Order) {s : Stmt V}
    {b : List (BSym V)} (h : AlignedS st s b) :
    ∃ s', orderPart m d os s = .ok s' ∧ AlignedS st s' (b ++ bs " ORDER BY " ++ orderB m d os) := by
  unfold orderPart orderB
  cases hl : os.getLast? with
  | none =>
    cases d with
    | next =>
      obtain ⟨s', h1, h2⟩ := keyOrder_aligned hk "" " ASC" (h.writeS " ORDER BY ")
      refine ⟨s', h1, ?_⟩
      unfold keyOrderB
      cases hm : m.key <;> simpa [hm] using h2
    | prev =>
      obtain ⟨s', h1, h2⟩ := keyOrder_aligned hk " DESC" " DESC" (h.writeS " ORDER BY ")
      refine ⟨s', h1, ?_⟩
      unfold keyOrderB
      cases hm : m.key <;> simpa [hm] using h2
  | some o =>
    obtain ⟨s', h1, h2⟩ := keyOrder_aligned hk (if o.asc then " ASC" else " DESC") (if o.asc then " ASC" else " DESC")
      (orderLoop_aligned' os (h.writeS " ORDER BY "))
    refine ⟨s', h1, ?_⟩
    cases hm : m.key with
    | none => unfold HasKey at hk; rw [hm] at hk; exact hk.elim
    | single a n i val => simpa [hm] using h2
    | comp ns is vals => simpa [hm] using h2

theorem whereCond_aligned {st : Style} (w : Option (Clause V))
    (hc : ∀ c, w = some c → st = .numbered ∨ inNonempty c = true) {s : Stmt V} {b : List (BSym V)}
    (h : AlignedS st s b) : ∃ s', whereCond st w s = .ok s' ∧
      AlignedS st s' (b ++ filterB w) := by
  unfold whereCond
  cases w with
  | none => exact ⟨s, rfl, by simpa [filterB] using h⟩
  | some c =>
    obtain ⟨s', h'⟩ := run_ok st c s (hc c rfl)
    exact ⟨s', h', run_aligned st c s s' b h h'⟩

/-- The query without order columns. -/
theorem pageQuery_noOrder (st : Style) (m : Mdl R V) (hk : HasKey m) (d : Dir) (p : PStmt V)
    (ho : p.orderBy = []) (hc : ∀ c, p.where_ = some c → st = .numbered ∨ inNonempty c = true)
    (cur : Bool) (r : R) :
    ∃ s, pageQuery st m d p cur r = .ok s ∧ Spec.bind st s.text s.args = some (headB m ++
      (filterB p.where_ ++ (if cur then cursorB m d r else [])) ++
      tailB m d [] (p.limit + 1).toNat) := by
  obtain ⟨s1, e1, a1⟩ := whereCond_aligned p.where_ hc (head_aligned st m)
  have : ∃ s2, cursorCond st m d cur r s1 = .ok s2 ∧ AlignedS st s2
      (headB m ++ filterB p.where_ ++ (if cur then cursorB m d r else [])) := by
    unfold cursorCond
    cases cur with
    | false => exact ⟨s1, rfl, by simpa using a1⟩
    | true => simpa using keyCmp_aligned st m hk d r s1 _ a1
  obtain ⟨s2, e2, a2⟩ := this
  obtain ⟨s3, e3, a3⟩ := orderPart_aligned hk d [] a2
  have a4 := a3.writeS (" LIMIT " ++ toString (p.limit + 1).toNat ++ ";")
  refine ⟨_, by simp only [pageQuery, e1, Res.ok_bind, ho, orderCond, e2, e3]; rfl, ?_⟩
  have := a4.1
  simpa [tailB, limitB] using this

/-! ### Travelling through the table -/

section Travel
variable [LinearOrder K]

/-- Strictly before in the direction of travel. -/
def ahead (d : Dir) (a b : K) : Prop := match d with | .next => a < b | .prev => b < a

theorem travel_sorted {key : R → K} {rows : List R} (h : rows.Pairwise fun a b => key a < key b) (d : Dir) :
    (travel d rows).Pairwise fun a b => ahead d (key a) (key b) := by
  cases d with
  | next => exact h
  | prev => exact List.pairwise_reverse.2 h

theorem fromOn_refl (d : Dir) (a : K) : fromOn d a a = true := by cases d <;> simp [fromOn]

theorem fromOn_ahead {d : Dir} {a b : K} (h : ahead d a b) : fromOn d a b = true ∧ fromOn d b a = false := by
  cases d with
  | next =>
    have h : a < b := h
    exact ⟨by simpa [fromOn] using le_of_lt h, by simpa [fromOn] using h⟩
  | prev =>
    have h : b < a := h
    exact ⟨by simpa [fromOn] using le_of_lt h, by simpa [fromOn] using h⟩

theorem rest_split {d : Dir} {key : R → K} {pre post : List R} {c : R}
    (h : (pre ++ c :: post).Pairwise fun a b => ahead d (key a) (key b)) :
    (pre ++ c :: post).filter (fun r => fromOn d (key c) (key r)) = c :: post := by
  rw [List.pairwise_append] at h
  obtain ⟨h1, h2, h3⟩ := h
  rw [List.pairwise_cons] at h2
  rw [List.filter_append, List.filter_cons, if_pos (fromOn_refl d _)]
  have e1 : pre.filter (fun r => fromOn d (key c) (key r)) = [] := by
    rw [List.filter_eq_nil_iff]
    intro a ha
    simp [(fromOn_ahead (h3 a ha c (by simp))).2]
  have e2 : post.filter (fun r => fromOn d (key c) (key r)) = post := by
    rw [List.filter_eq_self]
    intro a ha
    exact (fromOn_ahead (h2.1 a ha)).1
  rw [e1, e2, List.nil_append]

theorem find_one {key : R → K} {rows : List R} (h : rows.Pairwise fun a b => key a < key b) {c : R}
    (hc : c ∈ rows) : rows.filter (fun r => decide (key r = key c)) = [c] := by
  obtain ⟨pre, post, rfl⟩ := List.append_of_mem hc
  rw [List.pairwise_append] at h
  obtain ⟨h1, h2, h3⟩ := h
  rw [List.pairwise_cons] at h2
  rw [List.filter_append, List.filter_cons, if_pos (by simp)]
  have e1 : pre.filter (fun r => decide (key r = key c)) = [] := by
    rw [List.filter_eq_nil_iff]; intro a ha
    simpa using ne_of_lt (h3 a ha c (by simp))
  have e2 : post.filter (fun r => decide (key r = key c)) = [] := by
    rw [List.filter_eq_nil_iff]; intro a ha
    simpa using (ne_of_lt (h2.1 a ha)).symm
  rw [e1, e2, List.nil_append]

variable {st : Style} {m : Mdl R V} {d : Dir} {key : R → K} {rows : List R}
  {db : Txt → List V → Option (List R)}

theorem lookup_ok {n : Nat} (hk : HasKey m) (hs : Serves st m d key rows n db) {v c : R} (hc : c ∈ rows)
    (he : key v = key c) : lookup st m db true v = .ok c := by
  obtain ⟨t, as, h1, h2⟩ := Props.C30_find_by_key st m hk v
  have := hs.find t as v (by simpa [lookupB, headB] using h2)
  rw [he, find_one hs.sorted hc] at this
  simp only [lookup, if_true, h1, Res.ok_bind, this]

theorem lookup_missing {n : Nat} (hk : HasKey m) (hs : Serves st m d key rows n db) {v : R}
    (hv : ∀ r ∈ rows, key r ≠ key v) : lookup st m db true v = .err := by
  obtain ⟨t, as, h1, h2⟩ := Props.C30_find_by_key st m hk v
  have := hs.find t as v (by simpa [lookupB, headB] using h2)
  rw [List.filter_eq_nil_iff.2 (by simpa using hv)] at this
  simp only [lookup, if_true, h1, Res.ok_bind, this]

/-- The answer to the query of one round. -/
theorem round_ok {p : PStmt V} (hk : HasKey m) (hw : p.where_ = none) (ho : p.orderBy = [])
    (hs : Serves st m d key rows (p.limit + 1).toNat db) (c : R) :
    ∃ s, pageQuery st m d p true c = .ok s ∧
      db s.text s.args = some ((rest d key rows (key c)).take (p.limit + 1).toNat) := by
  obtain ⟨s, h1, h2⟩ := pageQuery_noOrder st m hk d p ho (by simp [hw]) true c
  refine ⟨s, h1, hs.page _ _ c ?_⟩
  rw [h2, hw]
  simp [pageB, tailB, orderB, filterB]

theorem loop_pages {p : PStmt V} (hk : HasKey m) (hw : p.where_ = none) (ho : p.orderBy = [])
    (hl : p.limit ≠ 65535) (h0 : p.limit ≠ 0)
    (hs : Serves st m d key rows (p.limit + 1).toNat db) :
    ∀ (fuel i : Nat) (pre post : List R) (c v : R), post.length < fuel → key v = key c →
      travel d rows = pre ++ c :: post →
      ∃ pages : List (List R), loop st m d p db (fun _ => true) fuel i true v = ⟨pages.map .page, .finished⟩ ∧
        pages.flatten = c :: post ∧ (∀ q ∈ pages, q.length ≤ p.limit.toNat) ∧
        (∀ q ∈ pages.dropLast, q.length = p.limit.toNat) := by
  have hl' : (p.limit + 1).toNat = p.limit.toNat + 1 := by
    have h1 : p.limit.toNat < 65536 := p.limit.toNat_lt
    have h2 : p.limit.toNat ≠ 65535 := fun e => hl (UInt16.toNat_inj.1 (by simpa using e))
    rw [UInt16.toNat_add]
    simp only [UInt16.toNat_one]
    omega
  have h0' : 0 < p.limit.toNat := by
    have : p.limit.toNat ≠ 0 := fun e => h0 (UInt16.toNat_inj.1 (by simpa using e))
    omega
  have hlt : p.limit.toNat + 1 < 65536 := by rw [← hl']; exact UInt16.toNat_lt _
  intro fuel
  induction fuel with
  | zero => intro i pre post c v h; omega
  | succ fuel ih =>
    intro i pre post c v hf he ht
    have hmem : c ∈ rows := by
      have : c ∈ travel d rows := by rw [ht]; simp
      cases d with
      | next => exact this
      | prev => exact List.mem_reverse.1 this
    obtain ⟨s, q1, q2⟩ := round_ok hk hw ho hs c
    have hrest : rest d key rows (key c) = c :: post := by
      unfold rest
      have := travel_sorted hs.sorted d
      rw [ht] at this ⊢
      exact rest_split this
    rw [hrest, hl'] at q2
    rw [loop, lookup_ok hk hs hmem he]
    simp only [q1, q2]
    have hlen : (List.take (p.limit.toNat + 1) (c :: post)).length = min (p.limit.toNat + 1) (post.length + 1) := by simp
    have hcmp : (List.take (p.limit.toNat + 1) (c :: post)).length.toUInt16 ≤ p.limit ↔
        (c :: post).length ≤ p.limit.toNat := by
      rw [UInt16.le_iff_toNat_le, hlen]
      simp only [Nat.toUInt16, UInt16.toNat_ofNat', List.length_cons]
      rw [Nat.mod_eq_of_lt (by omega)]
      omega
    by_cases hsmall : (c :: post).length ≤ p.limit.toNat
    · rw [if_pos (hcmp.2 hsmall), List.take_of_length_le (by simp only [List.length_cons] at hsmall ⊢; omega)]
      exact ⟨[c :: post], rfl, by simp, by simpa using hsmall, by simp⟩
    · rw [if_neg (fun h => hsmall (hcmp.1 h))]
      have hlt2 : p.limit.toNat < (c :: post).length := by omega
      have hsplit : c :: post = (c :: post).take p.limit.toNat ++
          (c :: post)[p.limit.toNat] :: (c :: post).drop (p.limit.toNat + 1) := by
        rw [List.getElem_cons_drop, List.take_append_drop]
      have htake : (c :: post).take (p.limit.toNat + 1) =
          (c :: post).take p.limit.toNat ++ [(c :: post)[p.limit.toNat]] := by
        rw [List.take_append_getElem]
      rw [htake, List.getLast?_append_of_ne_nil _ (by simp), List.dropLast_concat]
      simp only [List.getLast?_singleton, if_true]
      obtain ⟨pages, g1, g2, g3, g4⟩ := ih (i + 1) (pre ++ (c :: post).take p.limit.toNat)
        ((c :: post).drop (p.limit.toNat + 1)) (c :: post)[p.limit.toNat] (c :: post)[p.limit.toNat]
        (by have h2 := hlt2; simp only [List.length_cons] at h2; simp only [List.length_drop, List.length_cons]; omega) rfl
        (by rw [ht, List.append_assoc, ← hsplit])
      have hpl : ((c :: post).take p.limit.toNat).length = p.limit.toNat := by
        rw [List.length_take]; omega
      refine ⟨(c :: post).take p.limit.toNat :: pages, by rw [g1]; rfl, ?_, ?_, ?_⟩
      · rw [List.flatten_cons, g2, ← hsplit]
      · intro q hq
        rcases List.mem_cons.1 hq with rfl | hq
        · omega
        · exact g3 q hq
      · intro q hq
        cases pages with
        | nil => simp at hq
        | cons a as =>
          rw [List.dropLast_cons_of_ne_nil (by simp)] at hq
          rcases List.mem_cons.1 hq with rfl | hq
          · exact hpl
          · exact g4 q hq

end Travel

theorem loop_prefix (st : Style) (m : Mdl R V) (d : Dir) (p : PStmt V) (db : Txt → List V → Option (List R))
    (keep : Nat → Bool) : ∀ (fuel i : Nat) (cur : Bool) (v : R),
      (loop st m d p db keep fuel i cur v).evs <+: (loop st m d p db (fun _ => true) fuel i cur v).evs ∧
      (∀ j, i ≤ j → keep j = false → (loop st m d p db keep fuel i cur v).evs.length ≤ j - i + 1) := by
  intro fuel
  induction fuel with
  | zero => intro i cur v; simp [loop]
  | succ fuel ih =>
    intro i cur v
    rw [loop, loop]
    cases lookup st m db cur v with
    | panic => simp
    | err => simp
    | ok v =>
      dsimp only
      cases pageQuery st m d p cur v with
      | panic => simp
      | err => simp
      | ok s =>
        dsimp only
        cases db s.text s.args with
        | none => simp
        | some data =>
          dsimp only
          split
          · simp
          · cases data.getLast? with
            | none => simp
            | some v' =>
              dsimp only
              cases hk : keep i with
              | false => simp
              | true =>
                simp only [if_true, List.cons_prefix_cons, true_and, List.length_cons]
                refine ⟨(ih (i + 1) true v').1, fun j hj hkj => ?_⟩
                have hne : i ≠ j := fun e => by rw [e, hkj] at hk; exact absurd hk (by simp)
                have := (ih (i + 1) true v').2 j (by omega) hkj
                omega

end Verif.Pager

import Verif.Lemmas.Depth
import Mathlib.Data.Nat.Basic

/-!
# Properties C31, C32: pagination
-/

namespace Verif.Props

open Verif.Spec Verif.Spec.Gen Verif.Helpers Verif.Spec.Helpers Verif.Pager Verif.Spec.Pager

variable {R V K : Type} [LinearOrder K]

/-! ### C31 -/

private theorem effective (p : PStmt V) : (paginate p).limit ≠ 0 ∧ (paginate p).where_ = p.where_ ∧
    (paginate p).orderBy = p.orderBy ∧ (p.limit ≠ 65535 → (paginate p).limit ≠ 65535) ∧
    (paginate p).limit.toNat = if p.limit.toNat = 0 then 100 else p.limit.toNat := by
  unfold paginate
  by_cases h : p.limit = 0
  · rw [if_pos h]
    exact ⟨by simp, rfl, rfl, by simp, by simp [h]⟩
  · rw [if_neg h]
    have : p.limit.toNat ≠ 0 := fun e => h (UInt16.toNat_inj.1 (by simpa using e))
    exact ⟨h, rfl, rfl, id, by simp [this]⟩

private theorem travel_mem (d : Dir) (rows : List R) (c : R) : c ∈ travel d rows ↔ c ∈ rows := by
  cases d <;> simp [travel]

/-- C31 (page sizes below 65535, no filter and no order columns, start record in the table).  For every
table, single or composite key, start record and page size, iterating forward or backward yields pages
of at most the page size, all but the last of them full, whose concatenation is exactly the rows from
the start on in key order, and the iteration ends within as many rounds as there are rows.

Missing for the full property: page size 65535 (`C31_page_size_65535`) and filters or order columns,
whose queries are malformed (`C32_well_formed_iff`). -/
theorem C31_pages_exactly_once_partial (st : Style) (m : Mdl R V) (hk : HasKey m) (d : Dir) (key : R → K)
    (rows : List R) (p : PStmt V) (hw : p.where_ = none) (ho : p.orderBy = []) (hl : p.limit ≠ 65535)
    (db : Txt → List V → Option (List R)) (hs : Serves st m d key rows ((paginate p).limit.toNat + 1) db)
    (zero c : R) (hc : ∃ r ∈ rows, key r = key c) (fuel : Nat) (hf : rows.length ≤ fuel) :
    ∃ pages : List (List R),
      run st m d p db (fun _ => true) fuel zero (some c) = ⟨pages.map .page, .finished⟩ ∧
      pages.flatten = rest d key rows (key c) ∧
      (∀ q ∈ pages, q.length ≤ if p.limit.toNat = 0 then 100 else p.limit.toNat) ∧
      (∀ q ∈ pages.dropLast, q.length = if p.limit.toNat = 0 then 100 else p.limit.toNat) := by
  obtain ⟨e0, e1, e2, e3, e4⟩ := effective p
  obtain ⟨r, hr, hrc⟩ := hc
  obtain ⟨pre, post, hsplit⟩ := List.append_of_mem ((travel_mem d rows r).2 hr)
  have hlen : post.length < fuel := by
    have : (travel d rows).length = rows.length := by cases d <;> simp [travel]
    rw [hsplit, List.length_append, List.length_cons] at this
    omega
  have hl1 : ((paginate p).limit + 1).toNat = (paginate p).limit.toNat + 1 := by
    have h2 : (paginate p).limit.toNat ≠ 65535 := fun e => e3 hl (UInt16.toNat_inj.1 (by simpa using e))
    have := (paginate p).limit.toNat_lt
    rw [UInt16.toNat_add]
    simp only [UInt16.toNat_one]
    omega
  obtain ⟨pages, g1, g2, g3, g4⟩ := loop_pages hk (e1.trans hw) (e2.trans ho) (e3 hl) e0 (hl1 ▸ hs)
    fuel 0 pre post r c hlen hrc.symm hsplit
  refine ⟨pages, g1, ?_, ?_, ?_⟩
  · rw [g2, rest, ← hrc]
    have := travel_sorted hs.sorted d
    rw [hsplit] at this ⊢
    exact (rest_split this).symm
  · rw [← e4]; exact g3
  · rw [← e4]; exact g4

/-- C31. Whatever the database answers, a consumer who stops early has received a prefix of the pages,
and nothing after the page at which they stopped. -/
theorem C31_early_stop (st : Style) (m : Mdl R V) (d : Dir) (p : PStmt V)
    (db : Txt → List V → Option (List R)) (keep : Nat → Bool) (fuel : Nat) (zero : R) (cursor : Option R) :
    (run st m d p db keep fuel zero cursor).evs <+: (run st m d p db (fun _ => true) fuel zero cursor).evs ∧
    ∀ j, keep j = false → (run st m d p db keep fuel zero cursor).evs.length ≤ j + 1 := by
  unfold run
  cases cursor with
  | none =>
    have := loop_prefix st m d (paginate p) db keep fuel 0 false zero
    exact ⟨this.1, fun j hj => by simpa using this.2 j (by omega) hj⟩
  | some c =>
    have := loop_prefix st m d (paginate p) db keep fuel 0 true c
    exact ⟨this.1, fun j hj => by simpa using this.2 j (by omega) hj⟩

/-- C31 is false for page size 65535: the row count asked for wraps around to 0, and the consumer gets
one empty page, whatever the table holds. -/
theorem C31_page_size_65535 (st : Style) (m : Mdl R V) (hk : HasKey m) (d : Dir) (key : R → K)
    (rows : List R) (p : PStmt V) (hw : p.where_ = none) (ho : p.orderBy = []) (hl : p.limit = 65535)
    (db : Txt → List V → Option (List R)) (hs : Serves st m d key rows 0 db)
    (zero c : R) (hc : ∃ r ∈ rows, key r = key c) (keep : Nat → Bool) (fuel : Nat) :
    run st m d p db keep (fuel + 1) zero (some c) = ⟨[.page []], .finished⟩ := by
  obtain ⟨r, hr, hrc⟩ := hc
  have hp : paginate p = p := by unfold paginate; rw [if_neg (by rw [hl]; decide)]
  have h0 : (p.limit + 1).toNat = 0 := by rw [hl]; rfl
  obtain ⟨s, q1, q2⟩ := round_ok hk hw ho (h0.symm ▸ hs) r
  rw [h0, List.take_zero] at q2
  have hle : (([] : List R).length).toUInt16 ≤ p.limit := by rw [hl]; exact UInt16.le_iff_toNat_le.2 (Nat.zero_le _)
  rw [run, hp, loop, lookup_ok hk hs hr hrc.symm]
  simp only [q1, q2, if_pos hle]

/-- C31, boundary. A start record whose key is not in the table is an error, not the rows after it. -/
theorem C31_missing_start (st : Style) (m : Mdl R V) (hk : HasKey m) (d : Dir) (key : R → K)
    (rows : List R) (p : PStmt V) (n : Nat) (db : Txt → List V → Option (List R))
    (hs : Serves st m d key rows n db) (zero c : R) (hc : ∀ r ∈ rows, key r ≠ key c) (keep : Nat → Bool)
    (fuel : Nat) : run st m d p db keep (fuel + 1) zero (some c) = ⟨[.error], .finished⟩ := by
  rw [run, loop, lookup_missing hk hs hc]

/-! A database with the table 1, 3, 4, 7, 9 answering the two queries. -/

private def exM : Mdl Nat Nat where
  table := "t"
  columns := ["id"]
  sqlColumns := ["id"]
  values r := [r]
  key := .single false "id" 0 id

private def exRows : List Nat := [1, 3, 4, 7, 9]

private def exDb (n : Nat) : Txt → List Nat → Option (List Nat) := fun t as =>
  match as with
  | [v] =>
    if t = tx "SELECT id FROM t WHERE id = " ++ .anon :: tx " LIMIT 1;" then
      some (exRows.filter fun r => decide (r = v))
    else if t = tx "SELECT id FROM t WHERE (id >= " ++ .anon :: tx (") ORDER BY id LIMIT " ++ toString n ++ ";") then
      some ((exRows.filter fun r => decide (v ≤ r)).take n)
    else none
  | _ => none

private def forgetB : BSym V → Sym
  | .ch c => .ch c
  | .val _ => .anon

private def valOf : BSym V → Option V
  | .ch _ => none
  | .val v => some v

private theorem bindAnon_inv (t : Txt) (as : List V) (b : List (BSym V)) (h : bindAnon t as = some b) :
    t = b.map forgetB ∧ as = b.filterMap valOf := by
  induction t generalizing as b with
  | nil => cases as <;> simp [bindAnon] at h; subst h; simp
  | cons s t ih =>
    cases s with
    | ch c =>
      simp only [bindAnon, Option.map_eq_some_iff] at h
      obtain ⟨x, hx, rfl⟩ := h
      obtain ⟨h1, h2⟩ := ih _ _ hx
      exact ⟨by simp [forgetB, ← h1], h2⟩
    | anon =>
      cases as with
      | nil => simp [bindAnon] at h
      | cons v as =>
        simp only [bindAnon, Option.map_eq_some_iff] at h
        obtain ⟨x, hx, rfl⟩ := h
        obtain ⟨h1, h2⟩ := ih _ _ hx
        exact ⟨by simp [forgetB, ← h1], by simpa [valOf] using h2⟩
    | num n => simp [bindAnon] at h

private theorem exServes (n : Nat) : Serves .anon exM .next id exRows n (exDb n) where
  sorted := by decide
  find t as c h := by
    obtain ⟨h1, h2⟩ := bindAnon_inv t as _ h
    have e2 : as = [c] := h2
    have e1 : t = tx "SELECT id FROM t WHERE id = " ++ .anon :: tx " LIMIT 1;" := h1
    rw [e1, e2]
    rfl
  page t as c h := by
    obtain ⟨h1, h2⟩ := bindAnon_inv t as _ h
    have e2 : as = [c] := by
      rw [h2]
      simp [pageB, headB, cursorB, keyOrderB, limitB, namesB, exM, comma, valOf, bs, List.intercalate,
        List.filterMap_append, List.filterMap_cons]
    have e1 : t = tx "SELECT id FROM t WHERE (id >= " ++ .anon :: tx (") ORDER BY id LIMIT " ++ toString n ++ ";") := by
      rw [h1]
      simp [pageB, headB, cursorB, keyOrderB, limitB, namesB, exM, comma, forgetB, bs, tx, List.intercalate]
    have hne : t ≠ tx "SELECT id FROM t WHERE id = " ++ .anon :: tx " LIMIT 1;" := by
      intro h; rw [e1] at h
      have := congrArg (fun l : Txt => l[23]?) h
      simp [tx] at this
    rw [e2]
    simp only [exDb, if_neg hne, if_pos e1]
    rfl

example : HasKey exM := trivial
example : Serves .anon exM .next id exRows ((paginate { limit := 2 } : PStmt Nat).limit.toNat + 1) (exDb 3) := exServes 3
example : Serves .anon exM .next id exRows 0 (exDb 0) := exServes 0
example : run .anon exM .next { limit := 2 } (exDb 3) (fun _ => true) 5 0 (some 3) =
    ⟨[.page [3, 4], .page [7, 9]], .finished⟩ := by decide +kernel
example : rest .next id exRows 3 = [3, 4, 7, 9] := by decide
example : run .anon exM .next { limit := 2 } (exDb 3) (fun _ => true) 5 0 (some 2) = ⟨[.error], .finished⟩ := by
  decide +kernel
example : run .anon exM .next { limit := 2 } (exDb 3) (fun _ => false) 5 0 (some 3) =
    ⟨[.page [3, 4]], .finished⟩ := by decide +kernel

/-! ### C32 -/

private theorem parse_then_lp (c : Clause V) (hw : WellFormed c) (y : List (BSym V)) :
    parseCond (lex (meaning c ++ (bs "(" ++ y))) = none := by
  rw [lex, lex_meaning c hw _ (by simp [bs, Boundary]), lex_lp]
  generalize lexFrom [] y = ts
  rw [parseCond, show 3 * (toks c ++ WTok.lp :: ts).length + 3 = (3 * (toks c ++ WTok.lp :: ts).length + 1) + 2 by omega,
    pOr, pAnd, pPrim_toks c hw _ _ (by simp; omega)]

private theorem cursorB_lp (m : Mdl R V) (hk : HasKey m) (d : Dir) (r : R) :
    ∃ y, cursorB m d r = bs "(" ++ y := by
  unfold cursorB
  cases hm : m.key with
  | none => unfold HasKey at hk; rw [hm] at hk; exact hk.elim
  | single a n i val => cases d <;> exact ⟨_, by simp only [List.append_assoc]; rfl⟩
  | comp names is vals =>
    cases d <;> exact ⟨bs "(" ++ _, by simp only [List.append_assoc]; rfl⟩

omit [LinearOrder K] in
private theorem meaning_ne (c : Clause V) (hw : WellFormed c) : meaning c ≠ [] := by
  intro e
  have := lex_meaning c hw [] trivial
  rw [e] at this
  have h0 := toks_length_pos c hw
  have h1 := congrArg List.length this
  simp [lexFrom, flush] at h1
  omega

/-- Filters that are conditions. -/
def FilterOk (st : Style) (w : Option (Clause V)) : Prop :=
  ∀ c, w = some c → WellFormed c ∧ (st = .numbered ∨ inNonempty c = true)

/-- C32 is false in general, and this is exactly when it holds: the statement sent for a page has a
condition after `WHERE` if and only if no order columns are given and either a filter or a cursor is
given but not both.  So the first page of an unfiltered listing, every page after the first of a
filtered listing, and every page of a listing with order columns are rejected. -/
theorem C32_well_formed_iff (st : Style) (m : Mdl R V) (hk : HasKey m) (d : Dir) (p : PStmt V)
    (hn : NamesOk m p.orderBy) (hf : FilterOk st p.where_) (cur : Bool) (r : R) (s : Stmt V)
    (hr : pageQuery st m d p cur r = .ok s) :
    QueryOk st m d p.orderBy (p.limit + 1).toNat r s.text s.args ↔
      p.orderBy = [] ∧ p.where_.isSome ≠ cur := by
  by_cases ho : p.orderBy = []
  · obtain ⟨s', h1, h2⟩ := pageQuery_noOrder st m hk d p ho (fun c hc => (hf c hc).2) cur r
    have hss : s' = s := by rw [hr] at h1; exact (Res.ok.inj h1).symm
    subst hss
    have key : QueryOk st m d p.orderBy (p.limit + 1).toNat r s'.text s'.args ↔
        Condition m d r (filterB p.where_ ++ (if cur then cursorB m d r else [])) := by
      unfold QueryOk
      rw [h2, ho]
      constructor
      · rintro ⟨x, hx, hcond⟩
        have := List.append_cancel_left (List.append_cancel_right (Option.some.inj hx))
        rw [this]; exact hcond
      · intro h; exact ⟨_, rfl, h⟩
    rw [key]
    simp only [ho, true_and, ne_eq]
    unfold Condition
    obtain ⟨y, hy⟩ := cursorB_lp m hk d r
    cases hw : p.where_ with
    | none =>
      cases cur with
      | false =>
        simp only [filterB, Bool.false_eq_true, if_false, List.append_nil, Option.isSome_none, not_true_eq_false,
          iff_false]
        rintro (h | h)
        · simp [lex, lexFrom, flush, parseCond, pOr, pAnd, pPrim, pPred] at h
        · rw [hy] at h; simp [bs] at h
      | true => simp [filterB]
    | some c =>
      have hc := (hf c hw).1
      cases cur with
      | false =>
        simp only [filterB, Bool.false_eq_true, if_false, List.append_nil, Option.isSome_some, Bool.true_eq_false,
          not_false_eq_true, iff_true]
        left
        have := lex_meaning c hc [] trivial
        rw [List.append_nil, show lexFrom [] ([] : List (BSym V)) = [] by simp [lexFrom, flush],
          List.append_nil] at this
        rw [lex, this, parse_toks c hc]
        rfl
      | true =>
        simp only [filterB, if_true, Option.isSome_some, not_true_eq_false, iff_false]
        rintro (h | h)
        · rw [hy, parse_then_lp c hc] at h
          simp at h
        · have := congrArg List.length h
          rw [List.length_append] at this
          exact meaning_ne c hc (List.eq_nil_of_length_eq_zero (by omega))
  · simp only [ho, false_and, iff_false]
    rintro ⟨x, hx, hcond⟩
    have hd := bind_depth hx
    rw [depth_append, depth_append, depth_head hn, depth_tail hn] at hd
    have hx0 : depth x = 0 := by
      rcases hcond with h | h
      · exact parse_depth x h
      · rw [h]; exact depth_cursor hn d r
    simp only [pageQuery, Res.bind_eq_ok] at hr
    obtain ⟨s1, e1, s2, e2, s3, e3, s4, e4, e5⟩ := hr
    obtain ⟨s1', f1, a1⟩ := whereCond_aligned p.where_ (fun c hc => (hf c hc).2) (head_aligned st m)
    have : s1' = s1 := by rw [e1] at f1; exact (Res.ok.inj f1).symm
    subst this
    have d1 : depthT s1'.text = 0 := by
      rw [← bind_depth a1.1, depth_append, depth_head hn, depth_filter _ fun c hc => (hf c hc).1]; rfl
    have d2 := orderCond_depth st m d p.orderBy ho hn.2.2.1 r s1' s2 e2
    have d3 := cursorCond_depth st m p.orderBy hn d cur r s2 s3 e3
    have d4 : depthT s4.text = depthT s3.text := orderPart_depth hn d s3 s4 e4
    simp only [Res.ok.injEq] at e5
    have d5 : depthT s.text = depthT s4.text := by
      rw [← e5]
      simp only [Stmt.writeS, Stmt.write, depthT_append, tx_append]
      have l1 : depthT (tx " LIMIT ") = 0 := rfl
      have l2 : depthT (tx ";") = 0 := rfl
      have l3 : depthT (tx (toString (p.limit + 1).toNat)) = 0 := by rw [depthT_tx (V := Unit), depth_nat]
      omega
    omega

private def exF : Clause Nat := .cmp .gt ⟨"a", id⟩ 7

private def textOf (p : PStmt Nat) (d : Dir) (st : Style) (cur : Bool) : String :=
  match pageQuery st exM d p cur 3 with
  | .ok s => String.ofList (renderTxt s.text)
  | _ => ""

example : NamesOk exM [⟨"id", true⟩] :=
  ⟨by decide, by decide, by decide, by simp [exM, SimpleName, reserved, kw]⟩
example : FilterOk .anon (some exF) := by
  rintro c ⟨⟩; exact ⟨by simp [exF, WellFormed, SimpleName, reserved, kw], .inr rfl⟩
example : textOf { limit := 2 } .next .anon true =
    "SELECT id FROM t WHERE (id >= ?) ORDER BY id LIMIT 3;" := by decide +kernel
example : textOf { limit := 2 } .next .anon false =
    "SELECT id FROM t WHERE  ORDER BY id LIMIT 3;" := by decide +kernel
example : textOf { where_ := some exF, limit := 2 } .next .numbered true =
    "SELECT id FROM t WHERE a > $1(id >= $2) ORDER BY id LIMIT 3;" := by decide +kernel
example : textOf { orderBy := [⟨"id", false⟩], limit := 2 } .prev .numbered true =
    "SELECT id FROM t WHERE id >= $1 AND (id > $2 OR (id <= $3) ORDER BY id DESC,id DESC LIMIT 3;" := by
  decide +kernel

end Verif.Props

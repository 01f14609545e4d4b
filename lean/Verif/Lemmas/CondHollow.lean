import Verif.Lemmas.CondStore

/-!
# Lemmas about conditions with empty groups or lists
-/

namespace Verif.Store

open Verif Verif.Gen Verif.Spec Verif.Spec.Gen Verif.Spec.Sql Verif.Spec.Store Verif.Sql

set_option linter.unusedSectionVars false

variable {F X V : Type} [DecidableEq F] [DecidableEq X] [DecidableEq V]

variable {E : Env F X V} {t : Table F} {Ok : F → X → Prop}

mutual
theorem proper_of : (c : Cond F X) → c.Fits Ok t → c.hollow = false → c.Proper Ok t
  | .and cs, hf, hh => by
    simp only [Cond.hollow, Bool.or_eq_false_iff] at hh
    exact ⟨by simpa using hh.1, allProper_of cs hf hh.2⟩
  | .or cs, hf, hh => by
    simp only [Cond.hollow, Bool.or_eq_false_iff] at hh
    exact ⟨by simpa using hh.1, allProper_of cs hf hh.2⟩
  | .cmp _ _ _, hf, _ => hf
  | .isIn _ _ xs, hf, hh => by
    simp only [Cond.hollow] at hh
    exact ⟨hf.1, by simpa using hh, hf.2⟩
  | .null _ _, hf, _ => hf
  | .between _ _ _ _, hf, _ => hf
theorem allProper_of : (cs : List (Cond F X)) → AllFits Ok t cs → anyHollow cs = false → AllProper Ok t cs
  | [], _, _ => trivial
  | c :: cs, hf, hh => by
    simp only [anyHollow, Bool.or_eq_false_iff] at hh
    exact ⟨proper_of c hf.1 hh.1, allProper_of cs hf.2 hh.2⟩
end

/-- A group; an empty one is nothing. -/
def wrap (k : String) (l : List (List (Tok V))) : List (Tok V) :=
  if l = [] then [] else [.sym '('] ++ inter k l ++ [.sym ')']

mutual
/-- The tokens of a condition. -/
noncomputable def toksH (E : Env F X V) : Cond F X → List (Tok V)
  | .and cs => wrap "AND" (toksHL E cs)
  | .or cs => wrap "OR" (toksHL E cs)
  | .cmp op c x => toks E (.cmp op c x)
  | .isIn neg c xs => toks E (.isIn neg c xs)
  | .null neg c => toks E (.null neg c)
  | .between neg c a b => toks E (.between neg c a b)
noncomputable def toksHL (E : Env F X V) : List (Cond F X) → List (List (Tok V))
  | [] => []
  | c :: cs => toksH E c :: toksHL E cs
end

theorem toksHL_eq (cs : List (Cond F X)) : toksHL E cs = cs.map (toksH E) := by
  induction cs with
  | nil => rfl
  | cons c cs ih => simp [toksHL, ih]

mutual
theorem toksH_eq : (c : Cond F X) → c.hollow = false → toksH E c = toks E c
  | .and cs, hh => by
    simp only [Cond.hollow, Bool.or_eq_false_iff] at hh
    have : toksL E cs ≠ [] := by rw [toksL_eq]; simpa using hh.1
    rw [toksH, toks, toksHL_eq' cs hh.2, wrap, if_neg this]
  | .or cs, hh => by
    simp only [Cond.hollow, Bool.or_eq_false_iff] at hh
    have : toksL E cs ≠ [] := by rw [toksL_eq]; simpa using hh.1
    rw [toksH, toks, toksHL_eq' cs hh.2, wrap, if_neg this]
  | .cmp _ _ _, _ => rfl
  | .isIn _ _ _, _ => rfl
  | .null _ _, _ => rfl
  | .between _ _ _ _, _ => rfl
theorem toksHL_eq' : (cs : List (Cond F X)) → anyHollow cs = false → toksHL E cs = toksL E cs
  | [], _ => rfl
  | c :: cs, hh => by
    simp only [anyHollow, Bool.or_eq_false_iff] at hh
    rw [toksHL, toksL, toksH_eq c hh.1, toksHL_eq' cs hh.2]
end

theorem lexes_nil (q : Char) : Lexes (V := V) q [] [] := ⟨[], .idle, [], rfl, rfl, rfl⟩

section
variable (h : Setup E t Ok) (hn : Spelled E.g E.D t)
include h hn

mutual
theorem lexesH : (c : Cond F X) → c.Fits Ok t → Lexes E.D.quote (meaning (clause E c)) (toksH E c)
  | .and cs, hf => by
    have hl := lexesHL cs hf
    have hk : Lit V E.D.quote " AND " [.word "AND".toList] := lit_word h.named.quote rfl rfl rfl
    rw [clause, meaning, toksH, clauses_eq, meanings_eq, toksHL_eq, List.map_map]
    cases cs with
    | nil => exact lexes_nil _
    | cons c cs =>
      have := lexes_inter hk (fun c => meaning (clause E c)) (toksH E) (c :: cs) hl (by simp)
      rw [wrap, if_neg (by simp)]
      exact lexes_paren h.named.quote this
  | .or cs, hf => by
    have hl := lexesHL cs hf
    have hk : Lit V E.D.quote " OR " [.word "OR".toList] := lit_word h.named.quote rfl rfl rfl
    rw [clause, meaning, toksH, clauses_eq, meanings_eq, toksHL_eq, List.map_map]
    cases cs with
    | nil => exact lexes_nil _
    | cons c cs =>
      have := lexes_inter hk (fun c => meaning (clause E c)) (toksH E) (c :: cs) hl (by simp)
      rw [wrap, if_neg (by simp)]
      exact lexes_paren h.named.quote this
  | .cmp op c x, hf => lexes_cond h hn (.cmp op c x) hf
  | .isIn neg c xs, hf => by
    by_cases e : xs = []
    · subst e
      have h1 := column_lexes h hn hf.1
      have h2 : Lexes E.D.quote (tuple ([] : List V)) [.sym '(', .sym ')'] := lexes_paren h.named.quote (lexes_nil _)
      have h3 : Lit V E.D.quote " IN " [.word "IN".toList] := lit_word h.named.quote rfl rfl rfl
      have h4 : Lit V E.D.quote " NOT IN " [.word "NOT".toList, .word "IN".toList] := lit_word h.named.quote rfl rfl rfl
      cases neg
      · have := h1.lit h3 h2
        simpa [clause, toksH, toks, accessor, meaning, notTok, sep] using this
      · have := h1.lit h4 h2
        simpa [clause, toksH, toks, accessor, meaning, notTok, sep] using this
    · exact lexes_cond h hn (.isIn neg c xs) ⟨hf.1, e, hf.2⟩
  | .null neg c, hf => lexes_cond h hn (.null neg c) hf
  | .between neg c a b, hf => lexes_cond h hn (.between neg c a b) hf
theorem lexesHL : (cs : List (Cond F X)) → AllFits Ok t cs →
    ∀ c ∈ cs, Lexes E.D.quote (meaning (clause E c)) (toksH E c)
  | [], _ => by simp
  | c :: cs, hf => List.forall_mem_cons.2 ⟨lexesH c hf.1, lexesHL cs hf.2⟩
end

/-- No condition begins here. -/
def Blocked (D : Spec.Sql.Dialect) (r : List (Tok V)) : Prop := pred D r = none ∧ sym '(' r = none

omit h hn in
theorem Blocked.primary {D : Spec.Sql.Dialect} {r : List (Tok V)} (hr : Blocked D r) (n : Nat) : primary D n r = none := by
  cases n with
  | zero => rw [Sql.primary]
  | succ n => simp [Sql.primary, hr.1, hr.2]

omit h hn in
theorem blocked_word {D : Spec.Sql.Dialect} {w : String} (hw : D.reserved (upper w.toList) = true) (r : List (Tok V)) :
    Blocked D (.word w.toList :: r) := ⟨by simp [pred, name, hw], rfl⟩

omit h hn in
theorem blocked_sym (D : Spec.Sql.Dialect) {c : Char} (hc : c ≠ '(') (r : List (Tok V)) : Blocked D (.sym c :: r) :=
  ⟨rfl, by simp [sym, hc]⟩

omit h hn in
/-- A word that is not followed by an operator. -/
theorem blocked_number (D : Spec.Sql.Dialect) (w : List Char) (n : Nat) (r : List (Tok V)) :
    Blocked D (.word w :: .word (toString n).toList :: r) := by
  have hk : ∀ k : String, (∃ c ∈ k.toList, c.isDigit = false) → upper (toString n).toList ≠ k.toList := by
    intro k ⟨c, hc, hcd⟩ e
    have e2 : (toString n).toList = Nat.toDigits 10 n := Nat.toList_repr
    rw [← e, upper, List.mem_map] at hc
    obtain ⟨d, hd, rfl⟩ := hc
    rw [e2] at hd
    have hdig := Nat.isDigit_of_mem_toDigits (by decide) (by decide) hd
    have : d.toUpper = d := by
      simp only [Char.isDigit, Bool.and_eq_true, decide_eq_true_eq] at hdig
      unfold Char.toUpper
      rw [dif_neg]
      rintro ⟨h1, -⟩
      have := UInt32.le_trans h1 hdig.2
      exact absurd this (by decide)
    rw [this, hdig] at hcd
    exact absurd hcd (by decide)
  refine ⟨?_, rfl⟩
  have k1 : Spec.Sql.kw "IS" (.word (toString n).toList :: r) = none := kw_miss (hk _ (by decide)) r
  have k2 : Spec.Sql.kw "NOT" (.word (toString n).toList :: r) = none := kw_miss (hk _ (by decide)) r
  have k3 : Spec.Sql.kw "IN" (.word (toString n).toList :: r) = none := kw_miss (hk _ (by decide)) r
  have k4 : Spec.Sql.kw "BETWEEN" (.word (toString n).toList :: r) = none := kw_miss (hk _ (by decide)) r
  have k5 : Spec.Sql.kw "LIKE" (.word (toString n).toList :: r) = none := kw_miss (hk _ (by decide)) r
  have hp : ∀ x : Name, predTail x (.word (toString n).toList :: r) = none := by
    intro x
    simp only [predTail, compare?, k1, not?, k2, k3, k4, k5, Option.bind_eq_bind, Option.bind_none]
  unfold pred
  cases e : name D (.word w :: .word (toString n).toList :: r) with
  | none => rfl
  | some x =>
    have : x.2 = .word (toString n).toList :: r := by
      unfold name at e
      split at e <;> simp_all
      rw [← e.2]
    simp only [Option.bind_some, this, hp]

variable (ha : E.D.reserved "AND".toList = true) (ho : E.D.reserved "OR".toList = true)
include ha ho

mutual
theorem primary_hollow : (c : Cond F X) → c.Fits Ok t → c.hollow = true → ∀ (n : Nat) (r : List (Tok V)), Blocked E.D r →
    3 * (toksH E c).length ≤ n → primary E.D n (toksH E c ++ r) = none
  | .and [], _, _, n, r, hr, _ => by simpa [toksH, toksHL, wrap] using hr.primary n
  | .or [], _, _, n, r, hr, _ => by simpa [toksH, toksHL, wrap] using hr.primary n
  | .and (c :: cs), hf, hh, n, r, hr, hl => by
    have hlen : (toksH E (.and (c :: cs))).length = (inter "AND" (toksHL E (c :: cs))).length + 2 := by
      simp [toksH, wrap, toksHL]
    obtain ⟨m, rfl⟩ : ∃ m, n = m + 3 := ⟨n - 3, by omega⟩
    have := and_hollow (c :: cs) hf (by simpa [Cond.hollow] using hh) (m + 1) (.sym ')' :: r) (blocked_sym _ (by decide) _) (by omega)
    have e : toksH E (.and (c :: cs)) ++ r = .sym '(' :: (inter "AND" (toksHL E (c :: cs)) ++ .sym ')' :: r) := by
      simp [toksH, wrap, toksHL]
    have e2 : sym '(' (.sym '(' :: (inter "AND" (toksHL E (c :: cs)) ++ .sym ')' :: r)) =
      some (inter "AND" (toksHL E (c :: cs)) ++ .sym ')' :: r) := rfl
    rw [e, Sql.primary, e2]
    simp only
    rw [orExpr, this]
  | .or (c :: cs), hf, hh, n, r, hr, hl => by
    have hlen : (toksH E (.or (c :: cs))).length = (inter "OR" (toksHL E (c :: cs))).length + 2 := by
      simp [toksH, wrap, toksHL]
    obtain ⟨m, rfl⟩ : ∃ m, n = m + 1 := ⟨n - 1, by omega⟩
    have := or_hollow (c :: cs) hf (by simpa [Cond.hollow] using hh) m (.sym ')' :: r) (blocked_sym _ (by decide) _) (by omega)
    have e : toksH E (.or (c :: cs)) ++ r = .sym '(' :: (inter "OR" (toksHL E (c :: cs)) ++ .sym ')' :: r) := by
      simp [toksH, wrap, toksHL]
    have e2 : sym '(' (.sym '(' :: (inter "OR" (toksHL E (c :: cs)) ++ .sym ')' :: r)) =
      some (inter "OR" (toksHL E (c :: cs)) ++ .sym ')' :: r) := rfl
    rw [e, Sql.primary, e2]
    simp only
    rw [this]
  | .cmp _ _ _, _, hh, _, _, _, _ => by simp [Cond.hollow] at hh
  | .isIn neg c xs, hf, hh, n, r, hr, hl => by
    have e : xs = [] := by simpa [Cond.hollow] using hh
    subst e
    obtain ⟨m, rfl⟩ : ∃ m, n = m + 1 := ⟨n - 1, by simp [toksH, toks] at hl; omega⟩
    have h1 := column_name h hn hf.1 (notTok neg ++ [.word "IN".toList] ++ [.sym '(', .sym ')'] ++ r)
    have h2 := not_sym h1 '('
    have h3 : predTail (colName E.D c) (notTok neg ++ [.word "IN".toList] ++ [.sym '(', .sym ')'] ++ r) = none := by
      cases neg <;> rfl
    have e : toksH E (.isIn neg c []) ++ r = tokc E c :: (notTok neg ++ [.word "IN".toList] ++ [.sym '(', .sym ')'] ++ r) := by
      simp [toksH, toks, sep]
    rw [e, Sql.primary, h2]
    simp only [pred, h1, Option.bind_some, h3, Option.map_none]
  | .null _ _, _, hh, _, _, _, _ => by simp [Cond.hollow] at hh
  | .between _ _ _ _, _, hh, _, _, _, _ => by simp [Cond.hollow] at hh
theorem and_hollow : (cs : List (Cond F X)) → AllFits Ok t cs → anyHollow cs = true → ∀ (n : Nat) (r : List (Tok V)),
    Blocked E.D r → 3 * (inter "AND" (toksHL E cs)).length + 1 ≤ n →
    andExpr E.D n (inter "AND" (toksHL E cs) ++ r) = none
  | [], _, hh, _, _, _, _ => by simp [anyHollow] at hh
  | [c], hf, hh, n, r, hr, hl => by
    obtain ⟨m, rfl⟩ : ∃ m, n = m + 1 := ⟨n - 1, by omega⟩
    simp only [toksHL, inter] at hl ⊢
    have := primary_hollow c hf.1 (by simpa [anyHollow] using hh) m r hr (by omega)
    rw [andExpr, this]
  | c :: d :: cs, hf, hh, n, r, hr, hl => by
    obtain ⟨m, rfl⟩ : ∃ m, n = m + 1 := ⟨n - 1, by omega⟩
    simp only [toksHL, inter_length] at hl
    have e : inter "AND" (toksHL E (c :: d :: cs)) ++ r =
        toksH E c ++ (.word "AND".toList :: (inter "AND" (toksHL E (d :: cs)) ++ r)) := by
      simp [toksHL, inter]
    rw [e, andExpr]
    cases hc : c.hollow with
    | true =>
      rw [primary_hollow c hf.1 hc m _ (blocked_word ha _) (by omega)]
    | false =>
      rw [toksH_eq c hc] at hl ⊢
      have h1 := primary_cond h hn c (proper_of c hf.1 hc) m (.word "AND".toList :: (inter "AND" (toksHL E (d :: cs)) ++ r))
        (by omega)
      have h2 := and_hollow (d :: cs) hf.2 (by rw [anyHollow, hc] at hh; exact hh) m r hr (by simp only [toksHL]; omega)
      rw [h1]
      simp only [kw_inter_and, h2, Option.map_none]
theorem or_hollow : (cs : List (Cond F X)) → AllFits Ok t cs → anyHollow cs = true → ∀ (n : Nat) (r : List (Tok V)),
    Blocked E.D r → 3 * (inter "OR" (toksHL E cs)).length + 2 ≤ n →
    orExpr E.D n (inter "OR" (toksHL E cs) ++ r) = none
  | [], _, hh, _, _, _, _ => by simp [anyHollow] at hh
  | [c], hf, hh, n, r, hr, hl => by
    obtain ⟨m, rfl⟩ : ∃ m, n = m + 2 := ⟨n - 2, by omega⟩
    simp only [toksHL, inter] at hl ⊢
    have := primary_hollow c hf.1 (by simpa [anyHollow] using hh) m r hr (by omega)
    rw [orExpr, andExpr, this]
  | c :: d :: cs, hf, hh, n, r, hr, hl => by
    obtain ⟨m, rfl⟩ : ∃ m, n = m + 2 := ⟨n - 2, by omega⟩
    simp only [toksHL, inter_length] at hl
    have e : inter "OR" (toksHL E (c :: d :: cs)) ++ r =
        toksH E c ++ (.word "OR".toList :: (inter "OR" (toksHL E (d :: cs)) ++ r)) := by
      simp [toksHL, inter]
    rw [e, orExpr, andExpr]
    cases hc : c.hollow with
    | true =>
      rw [primary_hollow c hf.1 hc m _ (blocked_word ho _) (by omega)]
    | false =>
      rw [toksH_eq c hc] at hl ⊢
      have h1 := primary_cond h hn c (proper_of c hf.1 hc) m (.word "OR".toList :: (inter "OR" (toksHL E (d :: cs)) ++ r))
        (by omega)
      have h2 := or_hollow (d :: cs) hf.2 (by rw [anyHollow, hc] at hh; exact hh) (m + 1) r hr (by simp only [toksHL]; omega)
      rw [h1]
      simp only [kw_inter_or, kw_and_or, h2, Option.map_none]
end

theorem reads_hollow (hr : ∀ w ∈ ["ORDER", "LIMIT"], E.D.reserved w.toList = true) {c : Cond F X} (hf : c.Fits Ok t)
    (hh : c.hollow = true) (hw : Props.Writable E.g.style (some (clause E c))) :
    Reads E (some c) none ([.word "WHERE".toList] ++ toksH E c) where
  writable := hw
  seg := Seg.lit (lit_where h.named.quote) (lexesH h hn c hf)
  parse R hR := by
    have hb : Blocked E.D R := by
      match R, hR with
      | .sym x :: R, hR => have : x = ';' := hR; subst this; exact blocked_sym _ (by decide) _
      | .word w :: R, hR =>
        obtain ⟨x, hx, rfl⟩ := List.mem_map.1 hR.1
        simp only [List.mem_cons, List.not_mem_nil, or_false] at hx
        rcases hx with rfl | rfl | rfl
        · exact blocked_word (hr "ORDER" (by simp)) R
        · exact blocked_word (hr "LIMIT" (by simp)) R
        · obtain ⟨n, R', rfl⟩ := hR.2 rfl
          exact blocked_number _ _ _ _
    have h1 := primary_hollow h hn ha ho c hf hh (3 * (toksH E c ++ R).length + 1) R hb (by simp; omega)
    have h2 : expr E.D (toksH E c ++ R) = none := by rw [expr, orExpr, andExpr, h1]
    have h3 : Spec.Sql.kw "WHERE" (.word "WHERE".toList :: (toksH E c ++ R)) = some (toksH E c ++ R) := rfl
    simp only [List.cons_append, List.nil_append, where?, h3, h2, Option.map_none]
  comma R _ := rfl

end

/-! ## What is refused -/

section
variable (br : Brand) (K : Compare V)

theorem runStmt_none {A : Type} {get : Ans V → Ret A} (hg : get .refused = .failed) {r : Res (Verif.Stmt V)} {s : Verif.Stmt V}
    (hr : r = .ok s) (hb : (Spec.bind E.g.style s.text s.args).bind (readWide br E.D) = none) (σ : Sql.Store V) :
    runStmt E br K get r σ = (.failed, σ) := by
  subst hr
  simp only [runStmt, sendWide, hb, hg]

/-- The helper does not get to send anything. -/
theorem where_panics {c : Cond F X} (hst : E.g.style = .anon) (hc : inNonempty (clause E c) = false) (s : Verif.Stmt V) :
    s.whereClause E.g.style (some (clause E c)) = .panic := by
  rw [hst]
  exact run_panic _ _ hc

theorem query_panics {q : Query F X} {c : Cond F X} (hc : q.where_ = some c) (hst : E.g.style = .anon)
    (hp : inNonempty (clause E c) = false) : queryStmt E.g.style (info E t) (selectOf E q) = .panic := by
  have := where_panics hst hp (((Stmt.writeS ({} : Stmt V) "SELECT ").selectList (info E t) (selectOf E q).select).writeS
    (" FROM " ++ dbTable (info E t) (E.g.genTableName t)))
  simp [queryStmt, Stmt.fromClause, selectOf, info, hc] at this ⊢
  rw [this]; rfl

theorem queryOne_panics {q : Query F X} {c : Cond F X} (hc : q.where_ = some c) (hst : E.g.style = .anon)
    (hp : inNonempty (clause E c) = false) : queryOneStmt E.g.style (info E t) (selectOf E q) = .panic := by
  have := where_panics hst hp (((Stmt.writeS ({} : Stmt V) "SELECT ").selectList (info E t) (selectOf E q).select).writeS
    (" FROM " ++ dbTable (info E t) (E.g.genTableName t)))
  simp [queryOneStmt, Stmt.fromClause, selectOf, info, hc] at this ⊢
  rw [this]; rfl

theorem update_panics {u : Change F X} {c : Cond F X} (hc : u.where_ = some c) (hst : E.g.style = .anon)
    (hp : inNonempty (clause E c) = false) : execUpdate E.g.style (info E t) (updateOf E u) = .panic := by
  have := where_panics hst hp ((Stmt.writeS ({} : Stmt V) ("UPDATE " ++ dbTable (info E t) (E.g.genTableName t))).setClause
    E.g.style (updateOf E u).set)
  simp [execUpdate, updateOf, info, hc] at this ⊢
  rw [this]; rfl

theorem delete_panics {u : Removal F X} {c : Cond F X} (hc : u.where_ = some c) (hst : E.g.style = .anon)
    (hp : inNonempty (clause E c) = false) : execDelete E.g.style (info E t) (deleteOf E u) = .panic := by
  have := where_panics hst hp (Stmt.writeS ({} : Stmt V) ("DELETE FROM " ++ dbTable (info E t) (E.g.genTableName t)))
  simp [execDelete, deleteOf, info, hc] at this ⊢
  rw [this]; rfl

/-- Without anything to set the word `SET` is missing. -/
theorem read_update_none (h : Setup E t Ok) (hn : Spelled E.g E.D t) {u : Change F X} (hne : u.set = [])
    (hord : ∀ p ∈ u.orderBy, p.1 ∈ t.columns) (hw : ProperWhere Ok t u.where_) :
    ∃ s, execUpdate E.g.style (info E t) (updateOf E u) = .ok s ∧
      (Spec.bind E.g.style s.text s.args).bind (readWide br E.D) = none := by
  have hr := reads_proper h hn hw
  obtain ⟨s, b, hs, hb, ⟨o, ho, rfl⟩⟩ := Props.update_core E.g.style (info E t) (updateOf E u) hr.writable
  refine ⟨s, hs, ?_⟩
  rw [hb.1, Option.bind_some]
  obtain ⟨v, hv, hv2, hv3⟩ := order_tok h hn hord ho
  have hqt := h.named.quote
  have hseg := hr.seg.comp (hv.comp ((limit_seg h u.limit).comp (Seg.lit_end (lit_end hqt))))
  have hlex := (hseg _ _ ((idle_update (V := V) hqt).append (tokOf_lexes (V := V) (table_tok h)))).lex
  have e1 : bs "UPDATE " ++ qualified (info E t) ((info E t).table.getD (updateOf (V := V) E u).table) ++
      setText (updateOf (V := V) E u).set ++ whereText (updateOf E u).where_ ++ o ++
      execLimitText E.g.style (updateOf (V := V) E u).limit ++ bs ";" =
      bs "UPDATE " ++ bs (E.g.genTableName t) ++
        (whereText (u.where_.map (clause E)) ++ (o ++ (execLimitText E.g.style u.limit ++ bs ";"))) := by
    simp [updateOf, qualified, info, setText, hne]
  have hk : Spec.Sql.kw "SET" (whereTok E u.where_ ++ (v ++ (limitTok E u.limit ++ [.sym ';']))) = none := by
    cases u.where_ with
    | none => exact (hv2 _ _ (limit_tail (E := E) u.limit)).kw (by decide)
    | some c => rfl
  unfold readWide
  rw [e1, hlex, Option.bind_some]
  simp only [List.cons_append, List.nil_append, wide?, wideSelect?, wideUpdate?, wideDelete?]
  rw [kw_miss (by decide), kw_hit (by decide), kw_miss (k := "DELETE") (by decide)]
  simp only [Option.bind_eq_bind, Option.bind_some, Option.bind_none, tokOf_name (table_tok h), hk]
  rfl

/-- Tokens at the start of a text that may not make sense further on. -/
theorem lex_prefix {q : Char} {a : List (BSym V)} {u : List (Tok V)} (ha : Idle q a u) (b : List (BSym V)) :
    lex q .idle (a ++ b) = (lex q .idle b).map (u ++ ·) := by
  rw [lex_run, lex_run, run_append, ha]
  cases e : run q .idle b with
  | none => simp [e]
  | some x => simp only [e, Option.bind_some, Option.map_some]; cases flush x.2 <;> simp

/-- Columns without quotes, one of which is a reserved word. -/
theorem read_words {D : Spec.Sql.Dialect} (hq : IsQuote D.quote) {l : List (GCol F)} (hl : l ≠ [])
    (hw : ∀ c ∈ l, Spec.Store.Wordy D c.name) (hr : ∃ c ∈ l, D.reserved (upper c.name.toList) = true) (b : List (BSym V)) :
    readWide br D (bs "SELECT " ++ comma (l.map fun c => bs c.name) ++ bs " FROM " ++ b) = none := by
  have h1 : Lexes D.quote (comma (l.map fun c => (bs c.name : List (BSym V)))) (sep (l.map fun c => [.word c.name.toList])) :=
    lexes_comma (V := V) hq _ (fun c => [Tok.word c.name.toList]) l (fun c hc => lexes_wordy (hw c hc)) hl
  have h2 : Idle D.quote (bs "SELECT " ++ comma (l.map fun c => (bs c.name : List (BSym V))) ++ bs " FROM ")
      ([.word "SELECT".toList] ++ sep (l.map fun c => [.word c.name.toList]) ++ [.word "FROM".toList]) := by
    obtain ⟨c, r, e, hc⟩ := (lit_from (V := V) hq).delim
    have h3 := (lit_from (V := V) hq).idle
    rw [List.append_assoc, List.append_assoc]
    refine (idle_select hq).comp ?_
    rw [e] at h3 ⊢
    exact h1.delim_idle hc h3
  have hb : (l.mapM fun c => Store.bare D c.name) = none := by
    obtain ⟨c, hc, hcr⟩ := hr
    have hnone : Store.bare D c.name = none := by simp [Store.bare, hcr]
    clear h1 h2 hw hl
    induction l with
    | nil => simp at hc
    | cons d l ih =>
      rw [List.mapM_cons]
      rcases List.mem_cons.1 hc with rfl | hc
      · rw [hnone]; rfl
      · rw [ih hc]; cases Store.bare D d.name <;> rfl
  unfold readWide
  rw [lex_prefix h2]
  cases lex D.quote .idle b with
  | none => rfl
  | some r =>
    have hm := many1_words (V := V) D (fun c : GCol F => c.name) l hl (.word "FROM".toList :: r) rfl
    rw [hb] at hm
    simp only [Option.map_some, Option.bind_some, List.append_assoc, List.cons_append, List.nil_append, wide?, wideSelect?, wideUpdate?, wideDelete?]
    rw [kw_hit (by decide), kw_miss (by decide), kw_miss (k := "DELETE") (by decide)]
    simp only [Option.bind_eq_bind, Option.bind_some, Option.bind_none, hm, Option.map_none]
    rfl

/-- What is built is an intended text or nothing. -/
theorem query_or_panic (q : Query F X) : (∃ s, queryStmt E.g.style (info E t) (selectOf E q) = .ok s) ∨
    queryStmt E.g.style (info E t) (selectOf E q) = .panic := by
  cases hw : q.where_ with
  | none =>
    left
    simp [queryStmt, Stmt.fromClause, selectOf, info, hw, Stmt.whereClause]
  | some c =>
    by_cases hp : E.g.style = .numbered ∨ inNonempty (clause E c) = true
    · left
      obtain ⟨s2, h2⟩ := Props.where_ok E.g.style (some (clause E c)) (hp.imp id fun h d e => by cases e; exact h)
        (((Stmt.writeS ({} : Stmt V) "SELECT ").selectList (info E t) (selectOf E q).select).writeS
          (" FROM " ++ dbTable (info E t) (E.g.genTableName t)))
      exact ⟨((((s2.groupByClause []).orderByClause (q.orderBy.map (ordering E))).limitClause q.limit).offsetClause
        q.offset).writeS ";", by simp [queryStmt, Stmt.fromClause, selectOf, info, hw] at h2 ⊢; rw [h2]; rfl⟩
    · right
      push Not at hp
      refine query_panics hw ?_ (by simpa using hp.2)
      cases e : E.g.style with
      | anon => rfl
      | numbered => exact absurd e hp.1

end

end Verif.Store

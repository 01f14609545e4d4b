import Verif.Lemmas.Keyed
import Verif.Lemmas.Where
import Verif.Spec.Wide

/-!
# Lemmas about reading conditions
-/

namespace Verif.Sql

open Verif Verif.Spec Verif.Spec.Sql Verif.Spec.Gen

variable {V : Type}

/-! ## Text that goes on -/

/-- Text that can follow a token. -/
def Seg (q : Char) (a : List (BSym V)) (u : List (Tok V)) : Prop :=
  ∀ p t, Lexes q p t → Lexes q (p ++ a) (t ++ u)

theorem Seg.nil (q : Char) : Seg (V := V) q [] [] := fun p t h => by simpa using h

theorem Seg.comp {q : Char} {a b : List (BSym V)} {u w : List (Tok V)} (ha : Seg q a u) (hb : Seg q b w) :
    Seg q (a ++ b) (u ++ w) := fun p t h => by
  have := hb _ _ (ha p t h)
  simpa using this

theorem Seg.lit {q : Char} {s : String} {u : List (Tok V)} (hs : Lit V q s u) {b : List (BSym V)} {w : List (Tok V)}
    (hb : Lexes q b w) : Seg q (bs s ++ b) (u ++ w) := fun _ _ h => h.lit hs hb

theorem Seg.lit_end {q : Char} {s : String} {u : List (Tok V)} (hs : Lit V q s u) : Seg q (bs s) u :=
  fun _ _ h => h.lit_end hs

section
variable {q : Char} (hq : IsQuote q)
include hq

theorem lit_word {s : String} {u : List (Tok V)} (h1 : run '`' .idle (bs s) = some (u, .idle))
    (h2 : run '"' .idle (bs s) = some (u, .idle)) (h3 : s.toList.head? = some ' ') : Lit V q s u := by
  refine ⟨by rcases hq with rfl | rfl <;> assumption, ' ', (s.toList.drop 1).map .ch, ?_, delim_space hq⟩
  unfold bs
  cases e : s.toList with
  | nil => simp [e] at h3
  | cons c l =>
    have : c = ' ' := by simpa [e] using h3
    simp [this]

theorem lit_op (op : Op) : ∃ u : List (Tok V), Lit V q (opText op) u ∧ u = (match op with
    | .eq => [.sym '=']
    | .ne => [.sym '<', .sym '>']
    | .gt => [.sym '>']
    | .ge => [.sym '>', .sym '=']
    | .lt => [.sym '<']
    | .le => [.sym '<', .sym '=']
    | .like => [.word "LIKE".toList]
    | .notLike => [.word "NOT".toList, .word "LIKE".toList]) := by
  refine ⟨_, ?_, rfl⟩
  cases op <;> exact lit_word hq rfl rfl rfl

/-- Texts with a keyword between them. -/
def inter (k : String) : List (List (Tok V)) → List (Tok V)
  | [] => []
  | [x] => x
  | x :: y :: r => x ++ .word k.toList :: inter k (y :: r)

omit hq in
theorem lexes_inter {α : Type} {sp k : String} (hk : Lit V q sp [.word k.toList]) (f : α → List (BSym V))
    (tk : α → List (Tok V)) (l : List α) (h : ∀ a ∈ l, Lexes q (f a) (tk a)) (hl : l ≠ []) :
    Lexes q (List.intercalate (bs sp) (l.map f)) (inter k (l.map tk)) := by
  induction l with
  | nil => exact absurd rfl hl
  | cons a l ih =>
    cases l with
    | nil => simpa [inter] using h a (by simp)
    | cons b l =>
      have i := ih (fun x hx => h x (by simp [hx])) (by simp)
      simp only [List.map_cons, List.intercalate_cons_cons] at i ⊢
      have := (h a (by simp)).lit hk i
      simpa [inter] using this

theorem lexes_paren {a : List (BSym V)} {u : List (Tok V)} (h : Lexes q a u) :
    Lexes q (bs "(" ++ a ++ bs ")") ([.sym '('] ++ u ++ [.sym ')']) := by
  rw [List.append_assoc, List.append_assoc]
  exact (idle_open hq).append (h.lit_end (lit_close hq))

theorem lexes_tuple (vs : List V) (hv : vs ≠ []) :
    Lexes q (tuple vs) ([.sym '('] ++ sep (vs.map fun v => [.val v]) ++ [.sym ')']) := by
  have h : Lexes q (comma (vs.map fun v => [.val v])) (sep (vs.map fun v => [.val v])) :=
    lexes_comma hq _ _ vs (fun v _ => (idle_val _ v).lexes) hv
  exact lexes_paren hq h

end

end Verif.Sql

namespace Verif.Store

open Verif Verif.Gen Verif.Spec Verif.Spec.Gen Verif.Spec.Sql Verif.Spec.Store Verif.Sql

set_option linter.unusedSectionVars false

variable {F X V : Type} [DecidableEq F] [DecidableEq X] [DecidableEq V]

variable {E : Env F X V} {t : Table F} {Ok : F → X → Prop} (h : Setup E t Ok)

variable (hn : Spelled E.g E.D t)

/-- The token of a column. -/
noncomputable def tokc (E : Env F X V) (c : GCol F) : Tok V := tokOf V E.D (E.g.ident c.name) (colName E.D c)

def opTok : Verif.Op → List (Tok V)
  | .eq => [.sym '=']
  | .ne => [.sym '<', .sym '>']
  | .gt => [.sym '>']
  | .ge => [.sym '>', .sym '=']
  | .lt => [.sym '<']
  | .le => [.sym '<', .sym '=']
  | .like => [.word "LIKE".toList]
  | .notLike => [.word "NOT".toList, .word "LIKE".toList]

def notTok (neg : Bool) : List (Tok V) := if neg then [.word "NOT".toList] else []

mutual
/-- The tokens of a condition. -/
noncomputable def toks (E : Env F X V) : Cond F X → List (Tok V)
  | .and cs => [.sym '('] ++ inter "AND" (toksL E cs) ++ [.sym ')']
  | .or cs => [.sym '('] ++ inter "OR" (toksL E cs) ++ [.sym ')']
  | .cmp op c x => [tokc E c] ++ (opTok op ++ [.val (E.enc c.field x)])
  | .isIn neg c xs => [tokc E c] ++ (notTok neg ++ [.word "IN".toList] ++
      ([.sym '('] ++ sep ((xs.map (E.enc c.field)).map fun v => [.val v]) ++ [.sym ')']))
  | .null neg c => [tokc E c] ++ ([.word "IS".toList] ++ notTok neg ++ [.word "NULL".toList])
  | .between neg c a b => [tokc E c] ++ (notTok neg ++ [.word "BETWEEN".toList] ++
      ([.val (E.enc c.field a)] ++ ([.word "AND".toList] ++ [.val (E.enc c.field b)])))
noncomputable def toksL (E : Env F X V) : List (Cond F X) → List (List (Tok V))
  | [] => []
  | c :: cs => toks E c :: toksL E cs
end

/-- A list of conditions joined. -/
def joinAst (f : Ast V → Ast V → Ast V) : List (Ast V) → Ast V
  | [] => .pred (.null false [])
  | [a] => a
  | a :: b :: l => f a (joinAst f (b :: l))

mutual
/-- What a condition is read as. -/
def ast (E : Env F X V) : Cond F X → Ast V
  | .and cs => joinAst .and (asts E cs)
  | .or cs => joinAst .or (asts E cs)
  | .cmp op c x => .pred (opPred op (colName E.D c) (E.enc c.field x))
  | .isIn neg c xs => .pred (.isIn neg (colName E.D c) (xs.map (E.enc c.field)))
  | .null neg c => .pred (.null neg (colName E.D c))
  | .between neg c a b => .pred (.between neg (colName E.D c) (E.enc c.field a) (E.enc c.field b))
def asts (E : Env F X V) : List (Cond F X) → List (Ast V)
  | [] => []
  | c :: cs => ast E c :: asts E cs
end

theorem toksL_eq (cs : List (Cond F X)) : toksL E cs = cs.map (toks E) := by
  induction cs with
  | nil => rfl
  | cons c cs ih => simp [toksL, ih]

theorem asts_eq (cs : List (Cond F X)) : asts E cs = cs.map (ast E) := by
  induction cs with
  | nil => rfl
  | cons c cs ih => simp [asts, ih]

theorem clauses_eq (cs : List (Cond F X)) : clauses E cs = cs.map (clause E) := by
  induction cs with
  | nil => rfl
  | cons c cs ih => simp [clauses, ih]

theorem allProper_iff (cs : List (Cond F X)) : AllProper Ok t cs ↔ ∀ c ∈ cs, c.Proper Ok t := by
  induction cs with
  | nil => simp [AllProper]
  | cons c cs ih => simp [AllProper, ih]

section
include h hn

theorem column_reads {c : GCol F} (hc : c ∈ t.columns) : NameTxt E.D (E.g.ident c.name) (colName E.D c) := by
  have hq : NameTxt E.D _ (colName E.D c) := nameTxt_of_quoted (h.named.cols c hc)
  unfold Cfg.ident
  rcases hn c hc with h1 | h1
  · simpa [h1] using hq
  · have hp : NameTxt E.D c.name (colName E.D c) := by
      unfold colName; rw [← h1.2]; exact nameTxt_plain E.D _ h1.1
    cases E.g.quoteNames
    · exact hp
    · exact hq

theorem column_lexes {c : GCol F} (hc : c ∈ t.columns) :
    Lexes E.D.quote (bs (E.g.ident c.name) : List (BSym V)) [tokc E c] := tokOf_lexes (column_reads h hn hc)

theorem column_name {c : GCol F} (hc : c ∈ t.columns) (r : List (Tok V)) :
    name E.D (tokc E c :: r) = some (colName E.D c, r) := tokOf_name (column_reads h hn hc) r

mutual
theorem lexes_cond : (c : Cond F X) → c.Proper Ok t → Lexes E.D.quote (meaning (clause E c)) (toks E c)
  | .and cs, hp => by
    rw [clause, meaning, toks, clauses_eq, meanings_eq, toksL_eq, List.map_map]
    have hl := lexes_conds cs hp.2
    have hk : Lit V E.D.quote " AND " [.word "AND".toList] := lit_word h.named.quote rfl rfl rfl
    have := lexes_inter hk (fun c => meaning (clause E c)) (toks E) cs hl hp.1
    obtain ⟨c, l, e⟩ := List.exists_cons_of_ne_nil hp.1
    have e2 : paren " AND " (cs.map fun c => meaning (clause E c)) =
        bs "(" ++ List.intercalate (bs " AND ") (cs.map fun c => meaning (clause E c)) ++ bs ")" := by
      rw [e]; rfl
    change Lexes _ (paren " AND " (cs.map fun c => meaning (clause E c))) _
    rw [e2]
    exact lexes_paren h.named.quote this
  | .or cs, hp => by
    rw [clause, meaning, toks, clauses_eq, meanings_eq, toksL_eq, List.map_map]
    have hl := lexes_conds cs hp.2
    have hk : Lit V E.D.quote " OR " [.word "OR".toList] := lit_word h.named.quote rfl rfl rfl
    have := lexes_inter hk (fun c => meaning (clause E c)) (toks E) cs hl hp.1
    obtain ⟨c, l, e⟩ := List.exists_cons_of_ne_nil hp.1
    have e2 : paren " OR " (cs.map fun c => meaning (clause E c)) =
        bs "(" ++ List.intercalate (bs " OR ") (cs.map fun c => meaning (clause E c)) ++ bs ")" := by
      rw [e]; rfl
    change Lexes _ (paren " OR " (cs.map fun c => meaning (clause E c))) _
    rw [e2]
    exact lexes_paren h.named.quote this
  | .cmp op c x, hp => by
    obtain ⟨u, hu, e⟩ := lit_op (V := V) h.named.quote op
    have e : u = opTok op := by rw [e]; cases op <;> rfl
    subst e
    simp only [clause, meaning, toks, accessor, id, List.append_assoc]
    exact (column_lexes h hn hp.1).lit hu (idle_val _ _).lexes
  | .isIn neg c xs, hp => by
    have h1 := column_lexes h hn hp.1
    have h2 := lexes_tuple h.named.quote (xs.map (E.enc c.field)) (by simpa using hp.2.1)
    have h3 : Lit V E.D.quote " IN " [.word "IN".toList] := lit_word h.named.quote rfl rfl rfl
    have h4 : Lit V E.D.quote " NOT IN " [.word "NOT".toList, .word "IN".toList] := lit_word h.named.quote rfl rfl rfl
    simp only [clause, toks, accessor]
    cases neg <;> simp only [meaning, List.append_assoc, notTok, if_true, Bool.false_eq_true, if_false]
    · have := h1.lit h3 h2
      simpa using this
    · have := h1.lit h4 h2
      simpa using this
  | .null neg c, hp => by
    have h1 := column_lexes h hn hp
    have h3 : Lit V E.D.quote " IS " [.word "IS".toList] := lit_word h.named.quote rfl rfl rfl
    have h4 : Lit V E.D.quote " IS NOT " [.word "IS".toList, .word "NOT".toList] := lit_word h.named.quote rfl rfl rfl
    have h5 : Lexes E.D.quote (bs "NULL" : List (BSym V)) [.word "NULL".toList] := by
      refine ⟨[], .word "NULL".toList, [.word "NULL".toList], ?_, rfl, rfl⟩
      rcases h.named.quote with e | e <;> rw [e] <;> rfl
    have e1 : (bs " IS NULL" : List (BSym V)) = bs " IS " ++ bs "NULL" := rfl
    have e2 : (bs " IS NOT NULL" : List (BSym V)) = bs " IS NOT " ++ bs "NULL" := rfl
    simp only [clause, toks, accessor]
    cases neg <;> simp only [meaning, notTok, if_true, Bool.false_eq_true, if_false]
    · rw [e1]; exact h1.lit h3 h5
    · rw [e2]; exact h1.lit h4 h5
  | .between neg c a b, hp => by
    have h1 := column_lexes h hn hp.1
    have h3 : Lit V E.D.quote " BETWEEN " [.word "BETWEEN".toList] := lit_word h.named.quote rfl rfl rfl
    have h4 : Lit V E.D.quote " NOT BETWEEN " [.word "NOT".toList, .word "BETWEEN".toList] :=
      lit_word h.named.quote rfl rfl rfl
    have h5 : Lit V E.D.quote " AND " [.word "AND".toList] := lit_word h.named.quote rfl rfl rfl
    have h6 := ((idle_val E.D.quote (E.enc c.field a)).lexes).lit h5 (idle_val E.D.quote (E.enc c.field b)).lexes
    simp only [clause, toks, accessor]
    cases neg <;> simp only [meaning, notTok, if_true, Bool.false_eq_true, if_false, List.append_assoc, id]
    · exact h1.lit h3 h6
    · exact h1.lit h4 h6
theorem lexes_conds : (cs : List (Cond F X)) → AllProper Ok t cs →
    ∀ c ∈ cs, Lexes E.D.quote (meaning (clause E c)) (toks E c)
  | [], _ => by simp
  | c :: cs, hp => List.forall_mem_cons.2 ⟨lexes_cond c hp.1, lexes_conds cs hp.2⟩
end

end

/-! ## Parsing -/

theorem kw_word (k : String) (w : String) (r : List (Tok V)) :
    Spec.Sql.kw k (.word w.toList :: r) = if upper w.toList = k.toList then some r else none := rfl

theorem not_sym {D : Dialect} {x : Tok V} {r : List (Tok V)} {y : Name × List (Tok V)} (e : name D (x :: r) = some y) (c : Char) :
    sym c (x :: r) = none := by
  cases x <;> simp_all [name, sym]

theorem predTail_op (n : Name) (op : Verif.Op) (v : V) (r : List (Tok V)) :
    predTail n (opTok op ++ [.val v] ++ r) = some (opPred op n v, r) := by
  cases op <;> rfl

theorem predTail_in (n : Name) (neg : Bool) (vs : List V) (hv : vs ≠ []) (r : List (Tok V)) :
    predTail n (notTok neg ++ [.word "IN".toList] ++ ([.sym '('] ++ sep (vs.map fun v => [.val v]) ++ [.sym ')']) ++ r) =
      some (.isIn neg n vs, r) := by
  have h1 := vals_parse (V := V) (l := vs) (fun v => v) hv (.sym ')' :: r) rfl
  cases neg <;> simp [notTok, predTail, compare?, Spec.Sql.kw, not?, sym, upper, h1]

theorem predTail_null (n : Name) (neg : Bool) (r : List (Tok V)) :
    predTail n ([.word "IS".toList] ++ notTok neg ++ [.word "NULL".toList] ++ r) = some (.null neg n, r) := by
  cases neg <;> rfl

theorem predTail_between (n : Name) (neg : Bool) (a b : V) (r : List (Tok V)) :
    predTail n (notTok neg ++ [.word "BETWEEN".toList] ++ ([.val a] ++ ([.word "AND".toList] ++ [.val b])) ++ r) =
      some (.between neg n a b, r) := by
  cases neg <;> rfl

theorem toks_pos (c : Cond F X) : 0 < (toks E c).length := by cases c <;> simp [toks]

theorem inter_length (k : String) (l : List (List (Tok V))) (x y : List (Tok V)) :
    (inter k (x :: y :: l)).length = x.length + 1 + (inter k (y :: l)).length := by
  simp [inter]; omega

section
include h hn

/-- An elementary condition. -/
theorem primary_pred {c : GCol F} (hc : c ∈ t.columns) {ts r : List (Tok V)} {p : Pred V}
    (hp : predTail (colName E.D c) (ts ++ r) = some (p, r)) {n : Nat} (hn0 : 0 < n) :
    primary E.D n ([tokc E c] ++ ts ++ r) = some (.pred p, r) := by
  obtain ⟨m, rfl⟩ : ∃ m, n = m + 1 := ⟨n - 1, by omega⟩
  have h1 := column_name h hn hc (ts ++ r)
  have h2 := not_sym h1 '('
  simp only [List.cons_append, List.nil_append] at *
  simp [primary, h2, pred, h1, hp]

/-- What comes after a group. -/
def Stops (r : List (Tok V)) : Prop := Spec.Sql.kw "AND" r = none ∧ Spec.Sql.kw "OR" r = none

omit h hn in
theorem kw_inter_and (r : List (Tok V)) : Spec.Sql.kw "AND" (.word "AND".toList :: r) = some r := rfl
omit h hn in
theorem kw_inter_or (r : List (Tok V)) : Spec.Sql.kw "OR" (.word "OR".toList :: r) = some r := rfl
omit h hn in
theorem kw_and_or (r : List (Tok V)) : Spec.Sql.kw "AND" (.word "OR".toList :: r) = none := rfl

mutual
theorem primary_cond : (c : Cond F X) → c.Proper Ok t → ∀ (n : Nat) (r : List (Tok V)), 3 * (toks E c).length ≤ n →
    primary E.D n (toks E c ++ r) = some (ast E c, r)
  | .and cs, hp, n, r, hl => by
    have hlen : (toks E (.and cs : Cond F X)).length = (inter "AND" (toksL E cs)).length + 2 := by simp [toks]
    obtain ⟨m, rfl⟩ : ∃ m, n = m + 3 := ⟨n - 3, by omega⟩
    have := and_conds cs hp.1 hp.2 (m + 1) (.sym ')' :: r) ⟨rfl, rfl⟩ (by omega)
    simp only [toks, List.cons_append, List.nil_append, List.append_assoc, primary, sym, if_true, orExpr, this]
    simp [Spec.Sql.kw, ast]
  | .or cs, hp, n, r, hl => by
    have hlen : (toks E (.or cs : Cond F X)).length = (inter "OR" (toksL E cs)).length + 2 := by simp [toks]
    obtain ⟨m, rfl⟩ : ∃ m, n = m + 1 := ⟨n - 1, by omega⟩
    have := or_conds cs hp.1 hp.2 m (.sym ')' :: r) ⟨rfl, rfl⟩ (by omega)
    simp only [toks, List.cons_append, List.nil_append, List.append_assoc, primary, sym, if_true, this]
    simp [ast]
  | .cmp op c x, hp, n, r, hl => by
    have hpos := toks_pos (E := E) (.cmp op c x)
    simp only [toks, ast]
    exact primary_pred h hn hp.1 (predTail_op _ _ _ _) (by omega)
  | .isIn neg c xs, hp, n, r, hl => by
    have hpos := toks_pos (E := E) (.isIn neg c xs)
    simp only [toks, ast]
    exact primary_pred h hn hp.1 (predTail_in _ _ _ (by simpa using hp.2.1) _) (by omega)
  | .null neg c, hp, n, r, hl => by
    have hpos := toks_pos (E := E) (.null neg c : Cond F X)
    simp only [toks, ast]
    exact primary_pred h hn hp (predTail_null _ _ _) (by omega)
  | .between neg c a b, hp, n, r, hl => by
    have hpos := toks_pos (E := E) (.between neg c a b)
    simp only [toks, ast]
    exact primary_pred h hn hp.1 (predTail_between _ _ _ _ _) (by omega)
theorem and_conds : (cs : List (Cond F X)) → cs ≠ [] → AllProper Ok t cs → ∀ (n : Nat) (r : List (Tok V)), Stops r →
    3 * (inter "AND" (toksL E cs)).length + 1 ≤ n →
    andExpr E.D n (inter "AND" (toksL E cs) ++ r) = some (joinAst .and (asts E cs), r)
  | [], hne, _, _, _, _, _ => absurd rfl hne
  | [c], _, hp, n, r, hr, hl => by
    obtain ⟨m, rfl⟩ : ∃ m, n = m + 1 := ⟨n - 1, by omega⟩
    simp only [toksL, inter] at hl ⊢
    have := primary_cond c hp.1 m r (by omega)
    simp [andExpr, this, hr.1, asts, joinAst]
  | c :: d :: cs, _, hp, n, r, hr, hl => by
    obtain ⟨m, rfl⟩ : ∃ m, n = m + 1 := ⟨n - 1, by omega⟩
    simp only [toksL, inter_length] at hl ⊢
    have h1 := primary_cond c hp.1 m (.word "AND".toList :: (inter "AND" (toksL E (d :: cs)) ++ r)) (by omega)
    have h2 := and_conds (d :: cs) (by simp) hp.2 m r hr (by simp only [toksL]; omega)
    simp only [toksL] at h1 h2
    simp only [inter, List.append_assoc, List.cons_append, andExpr, h1, kw_inter_and, h2]
    simp [asts, joinAst]
theorem or_conds : (cs : List (Cond F X)) → cs ≠ [] → AllProper Ok t cs → ∀ (n : Nat) (r : List (Tok V)), Stops r →
    3 * (inter "OR" (toksL E cs)).length + 2 ≤ n →
    orExpr E.D n (inter "OR" (toksL E cs) ++ r) = some (joinAst .or (asts E cs), r)
  | [], hne, _, _, _, _, _ => absurd rfl hne
  | [c], _, hp, n, r, hr, hl => by
    obtain ⟨m, rfl⟩ : ∃ m, n = m + 2 := ⟨n - 2, by omega⟩
    simp only [toksL, inter] at hl ⊢
    have := primary_cond c hp.1 m r (by omega)
    simp [orExpr, andExpr, this, hr.1, hr.2, asts, joinAst]
  | c :: d :: cs, _, hp, n, r, hr, hl => by
    obtain ⟨m, rfl⟩ : ∃ m, n = m + 2 := ⟨n - 2, by omega⟩
    simp only [toksL, inter_length] at hl ⊢
    have h1 := primary_cond c hp.1 m (.word "OR".toList :: (inter "OR" (toksL E (d :: cs)) ++ r)) (by omega)
    have h2 := or_conds (d :: cs) (by simp) hp.2 (m + 1) r hr (by simp only [toksL]; omega)
    simp only [toksL] at h1 h2
    simp only [inter, List.append_assoc, List.cons_append]
    rw [orExpr, andExpr, h1]
    simp only [kw_inter_or, kw_and_or, h2]
    simp [asts, joinAst]
end

theorem expr_cond (c : Cond F X) (hp : c.Proper Ok t) (r : List (Tok V)) (hr : Stops r) :
    expr E.D (toks E c ++ r) = some (ast E c, r) := by
  have h2 := primary_cond h hn c hp (3 * (toks E c ++ r).length + 1) r (by simp; omega)
  simp only [expr, orExpr, andExpr, h2, hr.1, hr.2]

end

end Verif.Store

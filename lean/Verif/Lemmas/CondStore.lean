import Verif.Lemmas.Cond
import Verif.Lemmas.Query
import Verif.Props.Stmt

/-!
# Lemmas about statements with conditions at work on a database
-/

namespace Verif.Store

open Verif Verif.Gen Verif.Spec Verif.Spec.Gen Verif.Spec.Sql Verif.Spec.Store Verif.Sql

set_option linter.unusedSectionVars false

variable {F X V : Type} [DecidableEq F] [DecidableEq X] [DecidableEq V]

variable {E : Env F X V} {t : Table F} {Ok : F → X → Prop} {K : Compare V} {O : Comp F X}

/-! ## The truth of conditions -/

section
variable (hA : Agrees K E.null E.enc Ok t O)
include hA

omit [DecidableEq X] [DecidableEq F] in
theorem known3_eq {c : GCol F} (hc : c ∈ t.columns) {x y : X} (hx : Ok c.field x) (hy : Ok c.field y) (b : Bool) :
    known3 E.null (E.enc c.field x) (E.enc c.field y) b =
      if O.isNil c.field x || O.isNil c.field y then .u else TV.ofBool b := by
  have h1 := hA.isNil c hc x hx
  have h2 := hA.isNil c hc y hy
  unfold known3
  rw [if_congr (or_congr h1 h2) rfl rfl]
  cases O.isNil c.field x <;> cases O.isNil c.field y <;> simp

theorem predTruth_op {c : GCol F} (hc : c ∈ t.columns) {s : F → X} {row : Row V} (hr : Rep E.enc E.D t s row)
    (hs : Ok c.field (s c.field)) {y : X} (hy : Ok c.field y) (op : Verif.Op) :
    predTruth K E.null row (opPred op (colName E.D c) (E.enc c.field y)) = O.says3 c.field op (s c.field) y := by
  have hk := known3_eq hA hc hs hy
  have e1 := hA.eq c hc _ _ hs hy
  have e2 := hA.lt c hc _ _ hs hy
  have e3 := hA.lt c hc _ _ hy hs
  have e4 := hA.like c hc _ _ hs hy
  have hr := hr c hc
  cases op <;> simp only [opPred, predTruth, TV.flip, compare3, hr, hk, Comp.says3, Comp.says, e1, e2, e3, e4] <;>
    cases O.isNil c.field (s c.field) <;> cases O.isNil c.field y <;> simp [TV.not, TV.ofBool]
  all_goals cases O.like c.field (s c.field) y <;> simp

theorem compare3_eq {c : GCol F} (hc : c ∈ t.columns) {s : F → X} {row : Row V} (hr : Rep E.enc E.D t s row)
    (hs : Ok c.field (s c.field)) {y : X} (hy : Ok c.field y) :
    compare3 K E.null ['='] (row (colName E.D c)) (E.enc c.field y) = O.says3 c.field .eq (s c.field) y ∧
    compare3 K E.null ['>', '='] (row (colName E.D c)) (E.enc c.field y) = O.says3 c.field .ge (s c.field) y ∧
    compare3 K E.null ['<', '='] (row (colName E.D c)) (E.enc c.field y) = O.says3 c.field .le (s c.field) y :=
  ⟨predTruth_op hA hc hr hs hy .eq, predTruth_op hA hc hr hs hy .ge, predTruth_op hA hc hr hs hy .le⟩

theorem foldr_in {c : GCol F} (hc : c ∈ t.columns) {s : F → X} {row : Row V} (hr : Rep E.enc E.D t s row)
    (hs : Ok c.field (s c.field)) (xs : List X) (hx : ∀ x ∈ xs, Ok c.field x) :
    (xs.map (E.enc c.field)).foldr (fun v x => (compare3 K E.null ['='] (row (colName E.D c)) v).or x) TV.f =
      xs.foldr (fun x y => (O.says3 c.field .eq (s c.field) x).or y) TV.f := by
  induction xs with
  | nil => rfl
  | cons x xs ih =>
    simp only [List.map_cons, List.foldr_cons]
    rw [ih (fun y hy => hx y (by simp [hy])), (compare3_eq hA hc hr hs (hx x (by simp))).1]

omit hA in
theorem and_t (x : TV) : x.and .t = x := by cases x <;> rfl
omit hA in
theorem or_f (x : TV) : x.or .f = x := by cases x <;> rfl

mutual
theorem eval_cond {s : F → X} {row : Row V} (hr : Rep E.enc E.D t s row) (hs : Good Ok t s) :
    (c : Cond F X) → c.Proper Ok t → (ast E c).eval (predTruth K E.null row) = c.truth O s
  | .and cs, hp => by
    rw [ast, Cond.truth]
    exact eval_all hr hs cs hp.1 hp.2
  | .or cs, hp => by
    rw [ast, Cond.truth]
    exact eval_any hr hs cs hp.1 hp.2
  | .cmp op c x, hp => predTruth_op hA hp.1 hr (hs c hp.1) hp.2 op
  | .isIn neg c xs, hp => by
    simp only [ast, Cond.truth, Ast.eval, predTruth]
    rw [foldr_in hA hp.1 hr (hs c hp.1) xs hp.2.2]
  | .null neg c, hp => by
    simp only [ast, Cond.truth, Ast.eval, predTruth, hr c hp]
    have := hA.isNil c hp _ (hs c hp)
    have e : decide (E.enc c.field (s c.field) = E.null) = O.isNil c.field (s c.field) := by
      rw [Bool.eq_iff_iff, decide_eq_true_iff]
      exact this
    rw [e]
    cases neg <;> cases O.isNil c.field (s c.field) <;> rfl
  | .between neg c a b, hp => by
    simp only [ast, Cond.truth, Ast.eval, predTruth]
    rw [(compare3_eq hA hp.1 hr (hs c hp.1) hp.2.1).2.1, (compare3_eq hA hp.1 hr (hs c hp.1) hp.2.2).2.2]
theorem eval_all {s : F → X} {row : Row V} (hr : Rep E.enc E.D t s row) (hs : Good Ok t s) :
    (cs : List (Cond F X)) → cs ≠ [] → AllProper Ok t cs →
    (joinAst .and (asts E cs)).eval (predTruth K E.null row) = truthAll O s cs
  | [], hne, _ => absurd rfl hne
  | [c], _, hp => by
    simp only [asts, joinAst, truthAll, and_t]
    exact eval_cond hr hs c hp.1
  | c :: d :: cs, _, hp => by
    have h1 := eval_cond hr hs c hp.1
    have h2 := eval_all hr hs (d :: cs) (by simp) hp.2
    rw [truthAll, ← h1, ← h2]
    rfl
theorem eval_any {s : F → X} {row : Row V} (hr : Rep E.enc E.D t s row) (hs : Good Ok t s) :
    (cs : List (Cond F X)) → cs ≠ [] → AllProper Ok t cs →
    (joinAst .or (asts E cs)).eval (predTruth K E.null row) = truthAny O s cs
  | [], hne, _ => absurd rfl hne
  | [c], _, hp => by
    simp only [asts, joinAst, truthAny, or_f]
    exact eval_cond hr hs c hp.1
  | c :: d :: cs, _, hp => by
    have h1 := eval_cond hr hs c hp.1
    have h2 := eval_any hr hs (d :: cs) (by simp) hp.2
    rw [truthAny, ← h1, ← h2]
    rfl
end

theorem selects_iff {s : F → X} {row : Row V} (hr : Rep E.enc E.D t s row) (hs : Good Ok t s) {w : Option (Cond F X)}
    (hw : ProperWhere Ok t w) : selects K E.null (w.map (ast E)) row = true ↔ Meets O w s := by
  cases w with
  | none => simp [selects, Meets]
  | some c => simp [selects, Meets, eval_cond hA hr hs c (hw c rfl)]

theorem precedes_eq {a b : F → X} {ra rb : Row V} (ha : Rep E.enc E.D t a ra) (hb : Rep E.enc E.D t b rb) (ga : Good Ok t a)
    (gb : Good Ok t b) (o : List (GCol F × Bool)) (ho : ∀ p ∈ o, p.1 ∈ t.columns) :
    precedes K.before (o.map fun p => (colName E.D p.1, p.2)) ra rb = O.earlier o a b := by
  induction o with
  | nil => rfl
  | cons p o ih =>
    have hp := ho p (by simp)
    have e1 := hA.before _ hp _ _ (ga _ hp) (gb _ hp)
    have e2 := hA.before _ hp _ _ (gb _ hp) (ga _ hp)
    obtain ⟨c, asc⟩ := p
    simp only [List.map_cons, precedes, Comp.earlier, ha c hp, hb c hp, e1, e2, ih (fun p hp => ho p (by simp [hp]))]

end

mutual
theorem cols_cond : (c : Cond F X) → c.Proper Ok t → ∀ n ∈ (ast E c).cols, n ∈ t.columns.map (colName E.D)
  | .and cs, hp => by
    rw [ast]
    exact cols_join .and (fun _ _ => rfl) cs hp.1 hp.2
  | .or cs, hp => by
    rw [ast]
    exact cols_join .or (fun _ _ => rfl) cs hp.1 hp.2
  | .cmp op c x, hp => by
    intro n hn
    have : n = colName E.D c := by cases op <;> simpa [ast, Ast.cols, opPred, Pred.col] using hn
    rw [this]; exact List.mem_map_of_mem hp.1
  | .isIn neg c xs, hp => by
    intro n hn
    have : n = colName E.D c := by simpa [ast, Ast.cols, Pred.col] using hn
    rw [this]; exact List.mem_map_of_mem hp.1
  | .null neg c, hp => by
    intro n hn
    have : n = colName E.D c := by simpa [ast, Ast.cols, Pred.col] using hn
    rw [this]; exact List.mem_map_of_mem hp
  | .between neg c a b, hp => by
    intro n hn
    have : n = colName E.D c := by simpa [ast, Ast.cols, Pred.col] using hn
    rw [this]; exact List.mem_map_of_mem hp.1
theorem cols_join (f : Ast V → Ast V → Ast V) (hf : ∀ a b, (f a b).cols = a.cols ++ b.cols) :
    (cs : List (Cond F X)) → cs ≠ [] → AllProper Ok t cs →
    ∀ n ∈ (joinAst f (asts E cs)).cols, n ∈ t.columns.map (colName E.D)
  | [], hne, _ => absurd rfl hne
  | [c], _, hp => by
    simp only [asts, joinAst]
    exact cols_cond c hp.1
  | c :: d :: cs, _, hp => by
    intro n hn
    have h1 := cols_cond c hp.1 n
    have h2 := cols_join f hf (d :: cs) (by simp) hp.2 n
    have e : (joinAst f (asts E (c :: d :: cs))).cols = (ast E c).cols ++ (joinAst f (asts E (d :: cs))).cols := hf _ _
    rw [e, List.mem_append] at hn
    exact hn.elim h1 h2
end

/-! ## Reading the statements -/

/-- The beginning of what may come after a condition. -/
def Tail (ws : List String) (r : List (Tok V)) : Prop :=
  match r with
  | .sym c :: _ => c = ';'
  | .word w :: r => w ∈ ws.map String.toList ∧ (w = "OFFSET".toList → ∃ n r', r = .word (toString (n : Nat)).toList :: r')
  | _ => False

theorem Tail.kw {ws : List String} {r : List (Tok V)} (hr : Tail ws r) {k : String} (hk : ∀ w ∈ ws, upper w.toList ≠ k.toList) :
    Spec.Sql.kw k r = none := by
  match r, hr with
  | .sym c :: r, _ => rfl
  | .word w :: r, hr =>
    obtain ⟨x, hx, e⟩ := List.mem_map.1 hr.1
    have := hk x hx
    rw [e] at this
    simp [Spec.Sql.kw, this]

theorem Tail.comma {ws : List String} {r : List (Tok V)} (hr : Tail ws r) : sym ',' r = none := by
  match r, hr with
  | .sym c :: r, hr => have : c = ';' := hr; subst this; rfl
  | .word w :: r, hr => rfl

theorem Tail.mono {ws ws' : List String} {r : List (Tok V)} (hr : Tail ws r) (hs : ∀ w ∈ ws, w ∈ ws') : Tail ws' r := by
  match r, hr with
  | .sym c :: r, hr => exact hr
  | .word w :: r, hr =>
    obtain ⟨x, hx, e⟩ := List.mem_map.1 hr.1
    exact ⟨List.mem_map.2 ⟨x, hs x hx, e⟩, hr.2⟩

/-- The tokens of a condition, if there is one. -/
noncomputable def whereTok (E : Env F X V) : Option (Cond F X) → List (Tok V)
  | none => []
  | some c => [.word "WHERE".toList] ++ toks E c

def countTok (k : String) (n : Nat) : List (Tok V) :=
  if n = 0 then [] else [.word k.toList] ++ [.word (toString n).toList]

/-- No number is none. -/
def positive (n : Nat) : Option Nat := if n = 0 then none else some n

theorem digits_word (D : Spec.Sql.Dialect) (hq : IsQuote D.quote) (n : Nat) : Spec.Store.Wordy D (toString n) := by
  have e : (toString n).toList = Nat.toDigits 10 n := Nat.toList_repr
  refine ⟨by exact Nat.repr_ne_empty, fun c hc => ?_⟩
  rw [e] at hc
  have hd := Nat.isDigit_of_mem_toDigits (by decide) (by decide) hc
  refine ⟨by simp [isWord, Char.isAlphanum, hd], ?_, ?_⟩
  · rcases hq with h | h <;> rw [h] <;> rintro rfl <;> simp at hd
  · rintro rfl
    simp at hd

theorem number_digits (n : Nat) : number? (toString n).toList = some n := by
  have e : (toString n).toList = Nat.toDigits 10 n := Nat.toList_repr
  rw [e]
  have h2 : (Nat.toDigits 10 n).all Char.isDigit = true := by
    rw [List.all_eq_true]
    exact fun c hc => Nat.isDigit_of_mem_toDigits (by decide) (by decide) hc
  have h3 := Nat.ofDigitChars_ten_toDigits (n := n)
  rw [Nat.ofDigitChars_eq_foldl] at h3
  simp only [number?, ne_eq, Nat.toDigits_ne_nil, not_false_eq_true, h2, and_self, if_true, Option.some.injEq]
  exact h3

theorem count_tok {k : String} (n : Nat) {r : List (Tok V)} (hk : upper k.toList = k.toList) (hr : Spec.Sql.kw k r = none) :
    count? k (countTok k n ++ r) = some (positive n, r) := by
  unfold countTok positive
  by_cases h0 : n = 0
  · simp [h0, count?, hr]
  · have e : Spec.Sql.kw k (.word k.toList :: .word (toString n).toList :: r) = some (.word (toString n).toList :: r) := by
      simp [Spec.Sql.kw, hk]
    rw [if_neg h0, if_neg h0]
    simp only [List.cons_append, List.nil_append, count?, e, number_digits, Option.map_some]

section
variable (h : Setup E t Ok) (hn : Spelled E.g E.D t)
include h hn

theorem seg_where {w : Option (Cond F X)} (hw : ProperWhere Ok t w) :
    Seg E.D.quote (whereText (w.map (clause E))) (whereTok E w) := by
  cases w with
  | none => exact Seg.nil _
  | some c => exact Seg.lit (lit_where h.named.quote) (lexes_cond h hn c (hw c rfl))

theorem where_tok {w : Option (Cond F X)} (hw : ProperWhere Ok t w) {r : List (Tok V)} (hr : Tail ["ORDER", "LIMIT", "OFFSET"] r) :
    where? E.D (whereTok E w ++ r) = some (w.map (ast E), r) := by
  cases w with
  | none =>
    have : Spec.Sql.kw "WHERE" r = none := hr.kw (by decide)
    simp [whereTok, where?, this]
  | some c =>
    have h1 := expr_cond h hn c (hw c rfl) r ⟨hr.kw (by decide), hr.kw (by decide)⟩
    have h2 : Spec.Sql.kw "WHERE" (.word "WHERE".toList :: (toks E c ++ r)) = some (toks E c ++ r) := rfl
    simp only [whereTok, List.cons_append, List.nil_append, where?, h2, h1, Option.map_some]

omit hn in
theorem seg_count {s : String} {k : String} (hs : Lit V E.D.quote s [.word k.toList]) (n : Nat) :
    Seg (V := V) E.D.quote (countText s n) (countTok k n) := by
  unfold countText countTok
  by_cases h0 : n = 0
  · simpa [h0] using Seg.nil _
  · rw [if_neg h0, if_neg h0]
    exact Seg.lit hs (lexes_wordy (digits_word _ h.named.quote n))

/-- One item of a list of columns to sort by. -/
theorem orderItem_tok {a : List (BSym V)} {c : GCol F} {asc : Bool} (hc : c ∈ t.columns)
    (ha : OrderItem a (ordering E (c, asc))) :
    ∃ u : List (Tok V), Lexes E.D.quote a u ∧ u ≠ [] ∧ ∀ r, (∃ r', r = .sym ',' :: r') ∨ Tail ["LIMIT", "OFFSET"] r →
      orderItem E.D (u ++ r) = some ((colName E.D c, asc), r) := by
  have h1 := column_lexes h hn hc
  have hasc : Lexes E.D.quote (bs (E.g.ident c.name) ++ bs " ASC" : List (BSym V)) ([tokc E c] ++ [.word "ASC".toList]) := by
    have h3 : Lit V E.D.quote " " [] := ⟨by rcases h.named.quote with e | e <;> rw [e] <;> rfl, ' ', [], rfl, delim_space h.named.quote⟩
    have h5 : Lexes E.D.quote (bs "ASC" : List (BSym V)) [.word "ASC".toList] := by
      refine ⟨[], .word "ASC".toList, [.word "ASC".toList], ?_, rfl, rfl⟩
      rcases h.named.quote with e | e <;> rw [e] <;> rfl
    exact h1.lit h3 h5
  have hdesc : Lexes E.D.quote (bs (E.g.ident c.name) ++ bs " DESC" : List (BSym V)) ([tokc E c] ++ [.word "DESC".toList]) := by
    have h3 : Lit V E.D.quote " " [] := ⟨by rcases h.named.quote with e | e <;> rw [e] <;> rfl, ' ', [], rfl, delim_space h.named.quote⟩
    have h5 : Lexes E.D.quote (bs "DESC" : List (BSym V)) [.word "DESC".toList] := by
      refine ⟨[], .word "DESC".toList, [.word "DESC".toList], ?_, rfl, rfl⟩
      rcases h.named.quote with e | e <;> rw [e] <;> rfl
    exact h1.lit h3 h5
  have hk : ∀ r : List (Tok V), (∃ r', r = .sym ',' :: r') ∨ Tail ["LIMIT", "OFFSET"] r →
      Spec.Sql.kw "DESC" r = none ∧ Spec.Sql.kw "ASC" r = none := by
    rintro r (⟨r', rfl⟩ | hr)
    · exact ⟨rfl, rfl⟩
    · exact ⟨hr.kw (by decide), hr.kw (by decide)⟩
  generalize e : ordering E (c, asc) = o at ha
  cases ha with
  | plain x =>
    simp only [ordering, Order.mk.injEq] at e
    obtain ⟨rfl, rfl⟩ := e
    refine ⟨_, h1, by simp, fun r hr => ?_⟩
    simp [orderItem, column_name h hn hc, hk r hr]
  | asc x =>
    simp only [ordering, Order.mk.injEq] at e
    obtain ⟨rfl, rfl⟩ := e
    refine ⟨_, hasc, by simp, fun r hr => ?_⟩
    simp [orderItem, column_name h hn hc, Spec.Sql.kw, upper]
  | desc x =>
    simp only [ordering, Order.mk.injEq] at e
    obtain ⟨rfl, rfl⟩ := e
    refine ⟨_, hdesc, by simp, fun r hr => ?_⟩
    simp [orderItem, column_name h hn hc, Spec.Sql.kw, upper]

theorem orderItems_tok {items : List (List (BSym V))} {os : List (GCol F × Bool)} (hos : ∀ p ∈ os, p.1 ∈ t.columns)
    (hne : os ≠ []) (hi : List.Forall₂ OrderItem items (os.map (ordering E))) :
    ∃ u : List (Tok V), Lexes E.D.quote (List.intercalate (bs ",") items) u ∧ os.length ≤ u.length ∧
      ∀ r, Tail ["LIMIT", "OFFSET"] r → ∀ n, os.length ≤ n →
      many (orderItem E.D) n (u ++ r) = some (os.map fun p => (colName E.D p.1, p.2), r) := by
  induction os generalizing items with
  | nil => exact absurd rfl hne
  | cons p os ih =>
    obtain ⟨c, asc⟩ := p
    cases hi with
    | @cons a _ items _ ha hi =>
      obtain ⟨u, h1, h2, h3⟩ := orderItem_tok h hn (hos (c, asc) (by simp)) ha
      have hu : 0 < u.length := List.length_pos_iff.2 h2
      cases os with
      | nil =>
        cases hi
        refine ⟨u, by simpa using h1, by simp; omega, fun r hr n hn => ?_⟩
        obtain ⟨m, rfl⟩ : ∃ m, n = m + 1 := ⟨n - 1, by simp at hn; omega⟩
        simp [many, h3 r (.inr hr), hr.comma]
      | cons q os =>
        obtain ⟨v, i1, i2, i3⟩ := ih (fun x hx => hos x (by simp [hx])) (by simp) hi
        obtain ⟨b, items', rfl⟩ : ∃ b l, items = b :: l := by
          cases hi with
          | cons _ _ => exact ⟨_, _, rfl⟩
        refine ⟨u ++ .sym ',' :: v, ?_, ?_, fun r hr n hn => ?_⟩
        · rw [intercalate_cons_cons]
          have hc : Idle E.D.quote ([.ch ','] : List (BSym V)) [.sym ','] := by
            rcases h.named.quote with e | e <;> rw [e] <;> rfl
          have := h1.delim (delim_comma h.named.quote) (hc.append i1)
          rw [List.append_assoc]
          exact this
        · simp only [List.length_append, List.length_cons] at i2 ⊢; omega
        · obtain ⟨m, rfl⟩ : ∃ m, n = m + 1 := ⟨n - 1, by simp at hn; omega⟩
          have h4 := h3 (.sym ',' :: (v ++ r)) (.inl ⟨_, rfl⟩)
          have h5 := i3 r hr m (by simpa using hn)
          have h6 : sym ',' (.sym ',' :: (v ++ r)) = some (v ++ r) := rfl
          simp only [List.append_assoc, List.cons_append, many, h4, h6, h5, Option.map_some]
          rfl

/-- The clause for the order. -/
theorem order_tok {o : List (BSym V)} {os : List (GCol F × Bool)} (hos : ∀ p ∈ os, p.1 ∈ t.columns)
    (ho : OrderText o (os.map (ordering E))) :
    ∃ u : List (Tok V), Seg E.D.quote o u ∧
      (∀ ws r, Tail ws r → Tail ("ORDER" :: ws) (u ++ r)) ∧
      ∀ r, Tail ["LIMIT", "OFFSET"] r → order? E.D (u ++ r) = some (os.map fun p => (colName E.D p.1, p.2), r) := by
  generalize e : os.map (ordering E) = l at ho
  cases ho with
  | none =>
    have : os = [] := by simpa using e
    subst this
    refine ⟨[], Seg.nil _, fun ws r hr => hr.mono (by simp_all), fun r hr => ?_⟩
    have : Spec.Sql.kw "ORDER" r = none := hr.kw (by decide)
    simp [order?, this]
  | some items _ hne hi =>
    subst e
    obtain ⟨u, h1, h2, h3⟩ := orderItems_tok h hn hos (by simpa using hne) hi
    have hl : Lit V E.D.quote " ORDER BY " [.word "ORDER".toList, .word "BY".toList] := lit_word h.named.quote rfl rfl rfl
    refine ⟨_, Seg.lit hl h1, fun ws r hr => by simp [Tail], fun r hr => ?_⟩
    have e1 : Spec.Sql.kw "ORDER" (.word "ORDER".toList :: .word "BY".toList :: (u ++ r)) = some (.word "BY".toList :: (u ++ r)) := rfl
    have e2 : Spec.Sql.kw "BY" (.word "BY".toList :: (u ++ r)) = some (u ++ r) := rfl
    have e3 := h3 r hr (u ++ r).length (by simp; omega)
    simp only [List.cons_append, List.nil_append, order?, e1, e2, Option.bind_some, many1, e3]

/-! ### Whole statements -/

omit h hn in
mutual
theorem inNonempty_clause : (c : Cond F X) → c.Proper Ok t → inNonempty (clause E c) = true
  | .and cs, hp => by rw [clause, inNonempty]; exact insNonempty_clauses cs hp.2
  | .or cs, hp => by rw [clause, inNonempty]; exact insNonempty_clauses cs hp.2
  | .cmp op c x, _ => by simp [clause, inNonempty]
  | .isIn neg c xs, hp => by simpa [clause, inNonempty] using hp.2.1
  | .null neg c, _ => by simp [clause, inNonempty]
  | .between neg c a b, _ => by simp [clause, inNonempty]
theorem insNonempty_clauses : (cs : List (Cond F X)) → AllProper Ok t cs → insNonempty (clauses E cs) = true
  | [], _ => rfl
  | c :: cs, hp => by
    rw [clauses, insNonempty, inNonempty_clause c hp.1, insNonempty_clauses cs hp.2]
    rfl
end

omit h hn in
theorem writable_clause {w : Option (Cond F X)} (hw : ProperWhere Ok t w) (st : Style) :
    Props.Writable st (w.map (clause E)) := by
  refine .inr fun c hc => ?_
  cases w with
  | none => simp at hc
  | some d =>
    simp only [Option.map_some, Option.some.injEq] at hc
    subst hc
    exact inNonempty_clause d (hw d rfl)

/-- How the clause for the condition is written and read. -/
structure Reads (E : Env F X V) (w : Option (Cond F X)) (res : Option (Option (Ast V))) (wt : List (Tok V)) : Prop where
  writable : Props.Writable E.g.style (w.map (clause E))
  seg : Seg E.D.quote (whereText (w.map (clause E))) wt
  parse : ∀ R, Tail ["ORDER", "LIMIT", "OFFSET"] R → where? E.D (wt ++ R) = res.map fun a => (a, R)
  comma : ∀ R, sym ',' R = none → sym ',' (wt ++ R) = none

theorem reads_proper {w : Option (Cond F X)} (hw : ProperWhere Ok t w) : Reads E w (some (w.map (ast E))) (whereTok E w) where
  writable := writable_clause hw _
  seg := seg_where h hn hw
  parse R hR := where_tok h hn hw hR
  comma R hR := by
    cases w with
    | none => exact hR
    | some c => rfl

omit hn in
theorem info_sql : (info E t).sqlColumns = none := by
  have : (t.columns.any fun c => c.sqlScan.isSome) = false := by
    rw [List.any_eq_false]
    intro c hc
    simp [(h.plain c hc).2]
  simp only [info, Cfg.genSqlColumns, this, Bool.false_eq_true, if_false]
  cases t.columns.mapM E.g.sqlColumn <;> rfl

/-- The columns selected. -/
def selected (t : Table F) (q : Query F X) : List (GCol F) := if q.select = [] then t.columns else q.select

omit hn in
theorem selectCols_eq (q : Query F X) :
    (selectCols (info E t) (selectOf (V := V) E q).select : List (BSym V)) =
      comma ((selected t q).map fun c => bs (E.g.ident c.name)) := by
  unfold selectCols selected
  rw [info_sql h]
  by_cases e : q.select = []
  · simp [selectOf, e, info, Cfg.genColumns, commaStrs, comma, Function.comp_def]
  · have e' : (selectOf (V := V) E q).select ≠ [] := by simpa [selectOf] using e
    rw [if_pos e', if_neg e]
    simp [selectOf, commaStrs, comma, Function.comp_def]

omit h hn in
theorem tail_count {k : String} (n : Nat) {ws : List String} {r : List (Tok V)} (hr : Tail ws r) :
    Tail (k :: ws) (countTok k n ++ r) := by
  unfold countTok
  by_cases h0 : n = 0
  · rw [if_pos h0]; exact hr.mono (by simp_all)
  · rw [if_neg h0]; exact ⟨by simp, fun _ => ⟨n, r, rfl⟩⟩

omit h hn in
theorem tail_end : Tail (V := V) [] [.sym ';'] := rfl

omit hn in
theorem table_tok : NameTxt E.D (E.g.genTableName t) (tableName E.D t) := genTableName_reads h.named h.bare

theorem cols_in {l : List (GCol F)} (hl : ∀ c ∈ l, c ∈ t.columns) (hne : l ≠ []) :
    Cols E.D (fun c : GCol F => E.g.ident c.name) (colName E.D) l :=
  ⟨fun c hc => column_reads h hn (hl c hc), hne⟩

/-- The statement a select means. -/
def wideOf (E : Env F X V) (t : Table F) (q : Query F X) (w : Option (Ast V)) (l f : Option Nat) : Wide V :=
  .select ((selected t q).map (colName E.D)) (tableName E.D t) w
    (q.orderBy.map fun p => (colName E.D p.1, p.2)) l f

omit hn in
theorem columns_ne' : t.columns ≠ [] := by
  intro e
  obtain ⟨c, l, e'⟩ := List.exists_cons_of_ne_nil (keyCols_ne h)
  have := mem_of_pick (t := t) (is := keyPos t) (c := c) (by simp [e'])
  simp [e] at this

theorem selected_cols {q : Query F X} (hsel : ∀ c ∈ q.select, c ∈ t.columns) :
    Cols E.D (fun c : GCol F => E.g.ident c.name) (colName E.D) (selected t q) := by
  unfold selected
  by_cases e : q.select = []
  · rw [if_pos e]; exact cols_in h hn (fun _ hc => hc) (columns_ne' h)
  · rw [if_neg e]; exact cols_in h hn hsel e

omit h hn in
theorem kw_hit {k : String} (hk : upper k.toList = k.toList) (r : List (Tok V)) : Spec.Sql.kw k (.word k.toList :: r) = some r := by
  simp [Spec.Sql.kw, hk]

omit h hn in
theorem kw_miss {k k' : String} (hk : upper k'.toList ≠ k.toList) (r : List (Tok V)) :
    Spec.Sql.kw k (.word k'.toList :: r) = none := by
  simp [Spec.Sql.kw, hk]

omit h hn in
theorem select_parse (br : Brand) {D : Spec.Sql.Dialect} {l : List (GCol F)} {txt : GCol F → String} {nm : GCol F → Name}
    (hc : Cols D txt nm l) {tb : String} {tn : Name} (ht : NameTxt D tb tn) {R R1 R2 R3 : List (Tok V)}
    {res : Option (Option (Ast V))} {o : List (Name × Bool)} {lim off : Option Nat}
    (p1 : where? D R = res.map fun a => (a, R1))
    (p2 : order? D R1 = some (o, R2)) (p3 : count? "LIMIT" R2 = some (lim, R3))
    (p4 : count? "OFFSET" R3 = some (off, [.sym ';'])) :
    wide? br D (.word "SELECT".toList :: (sep (l.map fun c => [tokOf V D (txt c) (nm c)]) ++
      .word "FROM".toList :: tokOf V D tb tn :: R)) =
      res.bind fun w => if lim = none ∧ off ≠ none ∧ br ≠ .postgres then none
        else some (.select (l.map nm) tn w o lim off) := by
  have h1 : wideUpdate? br D (.word "SELECT".toList :: (sep (l.map fun c => [tokOf V D (txt c) (nm c)]) ++
      .word "FROM".toList :: tokOf V D tb tn :: R)) = none := by
    rw [wideUpdate?, kw_miss (by decide)]; rfl
  have h2 : wideDelete? br D (.word "SELECT".toList :: (sep (l.map fun c => [tokOf V D (txt c) (nm c)]) ++
      .word "FROM".toList :: tokOf V D tb tn :: R)) = none := by
    rw [wideDelete?, kw_miss (by decide)]; rfl
  rw [wide?, h1, h2, wideSelect?, kw_hit (by decide)]
  simp only [Option.bind_eq_bind, Option.bind_some]
  rw [hc.parse _ rfl]
  simp only [Option.bind_some]
  rw [kw_hit (by decide)]
  have hd : done ([.sym ';'] : List (Tok V)) = some () := rfl
  cases res with
  | none =>
    simp only [Option.bind_some, tokOf_name ht, p1, Option.map_none, Option.bind_none]
    rfl
  | some w =>
    simp only [Option.bind_some, tokOf_name ht, p1, p2, p3, p4, hd, Option.map_some]
    split <;> rfl

/-- The text of a query, as it is read. -/
theorem query_lexes {q : Query F X} (hsel : ∀ c ∈ q.select, c ∈ t.columns) {res : Option (Option (Ast V))}
    {wt : List (Tok V)} (hw : Reads E q.where_ res wt) {o : List (BSym V)} {u : List (Tok V)} (hu : Seg E.D.quote o u)
    {e : List (BSym V)} {v : List (Tok V)} (he : Seg E.D.quote e v) :
    lex E.D.quote .idle (bs "SELECT " ++ selectCols (info E t) (selectOf (V := V) E q).select ++ bs " FROM " ++
      qualified (info E t) (E.g.genTableName t) ++ whereText (selectOf E q).where_ ++ groupText (selectOf (V := V) E q).groupBy ++
      o ++ e) = some (.word "SELECT".toList ::
        (sep ((selected t q).map fun c => [tokOf V E.D (E.g.ident c.name) (colName E.D c)]) ++ .word "FROM".toList ::
          tokOf V E.D (E.g.genTableName t) (tableName E.D t) :: (wt ++ (u ++ v)))) := by
  have hqt := h.named.quote
  have hc := selected_cols h hn hsel
  have hseg := (Seg.lit (lit_from hqt) (tokOf_lexes (V := V) (table_tok h))).comp (hw.seg.comp (hu.comp he))
  have hlex := (hseg _ _ ((idle_select (V := V) hqt).append (hc.lexes hqt))).lex
  have e1 : bs "SELECT " ++ selectCols (info E t) (selectOf (V := V) E q).select ++ bs " FROM " ++
      qualified (info E t) (E.g.genTableName t) ++ whereText (selectOf E q).where_ ++ groupText (selectOf (V := V) E q).groupBy ++
      o ++ e =
      bs "SELECT " ++ comma ((selected t q).map fun c => bs (E.g.ident c.name)) ++
      (bs " FROM " ++ bs (E.g.genTableName t) ++ (whereText (q.where_.map (clause E)) ++ (o ++ e))) := by
    rw [selectCols_eq h]
    simp [selectOf, groupText, qualified, info]
  rw [e1, hlex]
  simp

theorem read_query (br : Brand) {q : Query F X} (hsel : ∀ c ∈ q.select, c ∈ t.columns)
    (hord : ∀ p ∈ q.orderBy, p.1 ∈ t.columns) {res : Option (Option (Ast V))} {wt : List (Tok V)}
    (hw : Reads E q.where_ res wt) :
    ∃ s, queryStmt E.g.style (info E t) (selectOf E q) = .ok s ∧
      (Spec.bind E.g.style s.text s.args).bind (readWide br E.D) =
        res.bind fun w => if positive q.limit = none ∧ positive q.offset ≠ none ∧ br ≠ .postgres then none
          else some (wideOf E t q w (positive q.limit) (positive q.offset)) := by
  have hok : ∃ s, queryStmt E.g.style (info E t) (selectOf E q) = .ok s := by
    obtain ⟨s2, h2⟩ := Props.where_ok E.g.style (q.where_.map (clause E)) hw.writable
      (((Stmt.writeS ({} : Stmt V) "SELECT ").selectList (info E t) (selectOf E q).select).writeS
        (" FROM " ++ dbTable (info E t) (E.g.genTableName t)))
    exact ⟨((((s2.groupByClause []).orderByClause (q.orderBy.map (ordering E))).limitClause q.limit).offsetClause
      q.offset).writeS ";", by simp [queryStmt, Stmt.fromClause, selectOf, info] at h2 ⊢; rw [h2]; rfl⟩
  obtain ⟨s, hs⟩ := hok
  refine ⟨s, hs, ?_⟩
  obtain ⟨tb, b, htb, ⟨o, ho, rfl⟩, hb⟩ := Props.query_core _ _ _ _ hs
  have etb : tb = E.g.genTableName t := by simpa [queryTable, selectOf, info] using htb.symm
  subst etb
  rw [hb.1, Option.bind_some]
  obtain ⟨u, hu, hu2, hu3⟩ := order_tok h hn hord ho
  have hqt := h.named.quote
  have hlim : Lit V E.D.quote " LIMIT " [.word "LIMIT".toList] := lit_word hqt rfl rfl rfl
  have hoff : Lit V E.D.quote " OFFSET " [.word "OFFSET".toList] := lit_word hqt rfl rfl rfl
  have hlex := query_lexes h hn hsel hw hu
    ((seg_count h hlim q.limit).comp ((seg_count h hoff q.offset).comp (Seg.lit_end (lit_end hqt))))
  have t1 := tail_count (V := V) (k := "OFFSET") q.offset tail_end
  have t2 := tail_count (k := "LIMIT") q.limit t1
  have t3 := hu2 _ _ t2
  have p1 := hw.parse _ t3
  have p3 := count_tok (k := "LIMIT") q.limit rfl (t1.kw (by decide))
  have p4 := count_tok (V := V) (k := "OFFSET") q.offset (r := [.sym ';']) rfl rfl
  have := select_parse br (selected_cols h hn hsel) (table_tok h) p1 (hu3 _ t2) p3 p4
  unfold readWide
  simp only [List.append_assoc] at hlex ⊢
  rw [show (selectOf (V := V) E q).limit = q.limit from rfl, show (selectOf (V := V) E q).offset = q.offset from rfl, hlex,
    Option.bind_some, this]
  rfl

theorem read_queryOne (br : Brand) {q : Query F X} (hsel : ∀ c ∈ q.select, c ∈ t.columns)
    (hord : ∀ p ∈ q.orderBy, p.1 ∈ t.columns) {res : Option (Option (Ast V))} {wt : List (Tok V)}
    (hw : Reads E q.where_ res wt) :
    ∃ s, queryOneStmt E.g.style (info E t) (selectOf E q) = .ok s ∧
      (Spec.bind E.g.style s.text s.args).bind (readWide br E.D) =
        res.map fun w => wideOf E t q w (some 1) none := by
  have hok : ∃ s, queryOneStmt E.g.style (info E t) (selectOf E q) = .ok s := by
    obtain ⟨s2, h2⟩ := Props.where_ok E.g.style (q.where_.map (clause E)) hw.writable
      (((Stmt.writeS ({} : Stmt V) "SELECT ").selectList (info E t) (selectOf E q).select).writeS
        (" FROM " ++ dbTable (info E t) (E.g.genTableName t)))
    exact ⟨((s2.groupByClause []).orderByClause (q.orderBy.map (ordering E))).writeS " LIMIT 1;", by
      simp [queryOneStmt, Stmt.fromClause, selectOf, info] at h2 ⊢; rw [h2]; rfl⟩
  obtain ⟨s, hs⟩ := hok
  refine ⟨s, hs, ?_⟩
  obtain ⟨tb, b, htb, ⟨o, ho, rfl⟩, hb⟩ := Props.queryOne_core _ _ _ _ hs
  have etb : tb = E.g.genTableName t := by simpa [queryTable, selectOf, info] using htb.symm
  subst etb
  rw [hb.1, Option.bind_some]
  obtain ⟨u, hu, hu2, hu3⟩ := order_tok h hn hord ho
  have hlex := query_lexes h hn hsel hw hu (Seg.lit_end (lit_limit h.named.quote))
  have t2 : Tail (V := V) ["LIMIT", "OFFSET"] [.word "LIMIT".toList, .word "1".toList, .sym ';'] := by simp [Tail]
  have t3 := hu2 _ _ t2
  have p1 := hw.parse _ t3
  have p3 : count? "LIMIT" ([.word "LIMIT".toList, .word "1".toList, .sym ';'] : List (Tok V)) = some (some 1, [.sym ';']) := rfl
  have p4 : count? "OFFSET" ([.sym ';'] : List (Tok V)) = some (none, [.sym ';']) := rfl
  have := select_parse br (selected_cols h hn hsel) (table_tok h) p1 (hu3 _ t2) p3 p4
  unfold readWide
  rw [hlex, Option.bind_some, this]
  cases res <;> rfl

/-- The limit of an update or a delete as it is sent. -/
def sentLimit (E : Env F X V) (n : Nat) : Option Nat :=
  match E.g.style with
  | .anon => positive n
  | .numbered => none

noncomputable def limitTok (E : Env F X V) (n : Nat) : List (Tok V) :=
  match E.g.style with
  | .anon => countTok "LIMIT" n
  | .numbered => []

omit hn in
theorem limit_seg (n : Nat) : Seg E.D.quote (execLimitText E.g.style n) (limitTok E n) := by
  unfold execLimitText limitTok
  have hlim : Lit V E.D.quote " LIMIT " [.word "LIMIT".toList] := lit_word h.named.quote rfl rfl rfl
  cases E.g.style with
  | anon => exact seg_count h hlim n
  | numbered => exact Seg.nil _

omit h hn in
theorem limit_tail (n : Nat) : Tail ["LIMIT"] (limitTok E n ++ [.sym ';']) := by
  unfold limitTok
  cases E.g.style with
  | anon => exact tail_count n tail_end
  | numbered => exact (rfl : ';' = ';')

omit h hn in
theorem limit_parse (n : Nat) : count? "LIMIT" (limitTok E n ++ [.sym ';']) = some (sentLimit E n, [.sym ';']) := by
  unfold limitTok sentLimit
  cases E.g.style with
  | anon => exact count_tok n rfl rfl
  | numbered => rfl

omit h hn in
theorem limited_parse (br : Brand) {D : Spec.Sql.Dialect} {R R1 : List (Tok V)} {o : List (Name × Bool)} {l : Option Nat}
    (p2 : order? D R = some (o, R1)) (p3 : count? "LIMIT" R1 = some (l, [.sym ';'])) :
    limited? br D R = if br ≠ .mysql ∧ (o ≠ [] ∨ l ≠ none) then none else some (o, l) := by
  simp only [limited?, p2, p3, Option.bind_eq_bind, Option.bind_some]
  simp only [done, sym]
  rfl

open Classical in
theorem limited_ok (br : Brand) {os : List (GCol F × Bool)} {n : Nat} (hst : E.g.style = .numbered → n = 0)
    {u : List (Tok V)}
    (p : ∀ r, Tail ["LIMIT", "OFFSET"] r → order? E.D (u ++ r) = some (os.map fun p => (colName E.D p.1, p.2), r)) :
    limited? br E.D (u ++ (limitTok E n ++ [.sym ';'])) =
      if Allowed br os n then some (os.map fun p => (colName E.D p.1, p.2), positive n) else none := by
  have hl : sentLimit E n = positive n := by
    unfold sentLimit
    cases e : E.g.style with
    | anon => rfl
    | numbered => simp [hst e, positive]
  have hp : positive n = none ↔ n = 0 := by unfold positive; split <;> simp_all
  rw [limited_parse br (p _ ((limit_tail n).mono (by simp))) (limit_parse n), hl]
  by_cases ha : Allowed br os n
  · rw [if_pos ha, if_neg]
    rcases ha with h1 | ⟨rfl, h2⟩
    · simp [h1]
    · simp [hp.2 h2]
  · rw [if_neg ha, if_pos]
    unfold Allowed at ha
    push Not at ha
    refine ⟨ha.1, ?_⟩
    by_cases e : os = []
    · exact .inr (fun e' => ha.2 e (hp.1 e'))
    · exact .inl (by simpa using e)

open Classical in
theorem read_update_all (br : Brand) {u : Change F X} (hset : ∀ p ∈ u.set, p.1 ∈ t.columns) (hne : u.set ≠ [])
    (hord : ∀ p ∈ u.orderBy, p.1 ∈ t.columns) {res : Option (Option (Ast V))} {wt : List (Tok V)}
    (hw : Reads E u.where_ res wt)
    (hst : E.g.style = .numbered → u.limit = 0) :
    ∃ s, execUpdate E.g.style (info E t) (updateOf E u) = .ok s ∧
      (Spec.bind E.g.style s.text s.args).bind (readWide br E.D) =
        res.bind fun w => if Allowed br u.orderBy u.limit then
          some (.update (tableName E.D t) (u.set.map fun p => (colName E.D p.1, E.enc p.1.field p.2)) w
            (u.orderBy.map fun p => (colName E.D p.1, p.2)) (positive u.limit))
        else none := by
  obtain ⟨s, b, hs, hb, ⟨o, ho, rfl⟩⟩ := Props.update_core E.g.style (info E t) (updateOf E u) hw.writable
  refine ⟨s, hs, ?_⟩
  rw [hb.1, Option.bind_some]
  obtain ⟨v, hv, hv2, hv3⟩ := order_tok h hn hord ho
  have hqt := h.named.quote
  have hc : Cols E.D (fun p : GCol F × X => E.g.ident p.1.name) (fun p => colName E.D p.1) u.set :=
    ⟨fun p hp => column_reads h hn (hset p hp), hne⟩
  have hset := sets_lexes (V := V) hqt hc (fun p => E.enc p.1.field p.2)
  have hseg := (Seg.lit (lit_set hqt) hset).comp (hw.seg.comp
    (hv.comp ((limit_seg h u.limit).comp (Seg.lit_end (lit_end hqt)))))
  have hlex := (hseg _ _ ((idle_update (V := V) hqt).append (tokOf_lexes (V := V) (table_tok h)))).lex
  have e1 : bs "UPDATE " ++ qualified (info E t) ((info E t).table.getD (updateOf (V := V) E u).table) ++
      setText (updateOf (V := V) E u).set ++ whereText (updateOf E u).where_ ++ o ++
      execLimitText E.g.style (updateOf (V := V) E u).limit ++ bs ";" =
      bs "UPDATE " ++ bs (E.g.genTableName t) ++ (bs " SET " ++
        comma (u.set.map fun p => bs (E.g.ident p.1.name) ++ bs " = " ++ [.val (E.enc p.1.field p.2)]) ++
        (whereText (u.where_.map (clause E)) ++ (o ++ (execLimitText E.g.style u.limit ++ bs ";")))) := by
    have e2 : (setText (updateOf (V := V) E u).set) = bs " SET " ++
        comma (u.set.map fun p => bs (E.g.ident p.1.name) ++ bs " = " ++ [.val (E.enc p.1.field p.2)]) := by
      unfold setText
      rw [if_neg (by simpa [updateOf] using hne)]
      simp [updateOf, setItem, accessor, comma, Function.comp_def]
    rw [e2]
    simp [updateOf, qualified, info]
  have p1 := hw.parse _ ((hv2 _ _ (limit_tail (E := E) u.limit)).mono (by simp))
  have p2 := limited_ok h hn br hst hv3
  unfold readWide
  rw [e1, hlex, Option.bind_some]
  simp only [List.cons_append, List.nil_append, wide?, wideSelect?, wideUpdate?, wideDelete?]
  rw [kw_miss (by decide), kw_hit (by decide), kw_miss (k := "DELETE") (by decide)]
  simp only [Option.bind_eq_bind, Option.bind_some, Option.bind_none, tokOf_name (table_tok h)]
  rw [kw_hit (by decide)]
  have hsp := sets_parse (V := V) hc (fun p => E.enc p.1.field p.2)
    (wt ++ (v ++ (limitTok E u.limit ++ [.sym ';']))) (hw.comma _ (hv2 _ _ (limit_tail (E := E) u.limit)).comma)
  simp only [Option.bind_some, hsp, p1]
  cases res with
  | none => rfl
  | some w =>
    simp only [Option.map_some, Option.bind_some, p2]
    split <;> rfl

open Classical in
theorem read_delete_all (br : Brand) {u : Removal F X} (hord : ∀ p ∈ u.orderBy, p.1 ∈ t.columns)
    {res : Option (Option (Ast V))} {wt : List (Tok V)} (hw : Reads E u.where_ res wt)
    (hst : E.g.style = .numbered → u.limit = 0) :
    ∃ s, execDelete E.g.style (info E t) (deleteOf E u) = .ok s ∧
      (Spec.bind E.g.style s.text s.args).bind (readWide br E.D) =
        res.bind fun w => if Allowed br u.orderBy u.limit then
          some (.delete (tableName E.D t) w
            (u.orderBy.map fun p => (colName E.D p.1, p.2)) (positive u.limit))
        else none := by
  obtain ⟨s, b, hs, hb, ⟨o, ho, rfl⟩⟩ := Props.delete_core E.g.style (info E t) (deleteOf E u) hw.writable
  refine ⟨s, hs, ?_⟩
  rw [hb.1, Option.bind_some]
  obtain ⟨v, hv, hv2, hv3⟩ := order_tok h hn hord ho
  have hqt := h.named.quote
  have hseg := hw.seg.comp (hv.comp ((limit_seg h u.limit).comp (Seg.lit_end (lit_end hqt))))
  have hlex := (hseg _ _ ((idle_delete (V := V) hqt).append (tokOf_lexes (V := V) (table_tok h)))).lex
  have e1 : bs "DELETE FROM " ++ qualified (info E t) ((info E t).table.getD (deleteOf (V := V) E u).fromTable) ++
      whereText (deleteOf E u).where_ ++ o ++
      execLimitText E.g.style (deleteOf (V := V) E u).limit ++ bs ";" =
      bs "DELETE FROM " ++ bs (E.g.genTableName t) ++
        (whereText (u.where_.map (clause E)) ++ (o ++ (execLimitText E.g.style u.limit ++ bs ";"))) := by
    simp [deleteOf, qualified, info]
  have p1 := hw.parse _ ((hv2 _ _ (limit_tail (E := E) u.limit)).mono (by simp))
  have p2 := limited_ok h hn br hst hv3
  unfold readWide
  rw [e1, hlex, Option.bind_some]
  simp only [List.cons_append, List.nil_append, wide?, wideSelect?, wideUpdate?, wideDelete?]
  rw [kw_miss (by decide), kw_miss (k := "UPDATE") (by decide), kw_hit (k := "DELETE") (by decide)]
  simp only [Option.bind_eq_bind, Option.bind_some, Option.bind_none]
  rw [kw_hit (by decide)]
  simp only [Option.bind_some, tokOf_name (table_tok h), p1]
  cases res with
  | none => rfl
  | some w =>
    simp only [Option.map_some, Option.bind_some, p2]
    split <;> rfl

end

end Verif.Store

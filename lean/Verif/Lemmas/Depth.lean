import Verif.Lemmas.Pager
import Verif.Lemmas.Text

/-!
# Parentheses in texts and in parsed conditions
-/

namespace Verif.Pager

open Verif Verif.Spec Verif.Spec.Gen Verif.Helpers Verif.Spec.Helpers Verif.Spec.Pager

variable {R V : Type}

/-- Weight of a character. -/
def wt (c : Char) : Int := if c = '(' then 1 else if c = ')' then -1 else 0

theorem depth_append (a b : List (BSym V)) : depth (a ++ b) = depth a + depth b := by
  induction a with
  | nil => simp [depth]
  | cons s a ih => cases s <;> simp [depth, ih, Int.add_assoc]

theorem depth_bs_any (s : String) : (depth (bs s : List (BSym V))) = depth (bs s : List (BSym Unit)) := by
  unfold bs
  induction s.toList with
  | nil => rfl
  | cons c l ih => simp [depth, ih]

theorem flat_depth {s : String} (h : Flat s) : depth (bs s : List (BSym V)) = 0 := by
  rw [depth_bs_any]; exact h

theorem depth_noparen (l : List Char) (h : ∀ c ∈ l, c ≠ '(' ∧ c ≠ ')') :
    depth (l.map BSym.ch : List (BSym V)) = 0 := by
  induction l with
  | nil => rfl
  | cons c l ih =>
    have h1 := h c (by simp)
    simp [Spec.Pager.depth, h1.1, h1.2, ih (fun x hx => h x (by simp [hx]))]

theorem depth_simple {s : String} (h : SimpleName s) : depth (bs s : List (BSym V)) = 0 :=
  depth_noparen _ fun c hc => ⟨(h.1.2 c hc).2.1, (h.1.2 c hc).2.2.1⟩

theorem depth_nat (n : Nat) : depth (bs (toString n) : List (BSym V)) = 0 := by
  apply depth_noparen
  intro c hc
  rw [Nat.toString_eq_ofList_toDigits, String.toList_ofList] at hc
  have := Nat.isDigit_of_mem_toDigits (by decide) (by decide) hc
  constructor <;> (rintro rfl; exact absurd this (by decide))

theorem depth_comma (l : List (List (BSym V))) (h : ∀ x ∈ l, depth x = 0) : depth (comma l) = 0 := by
  unfold comma
  cases l with
  | nil => rfl
  | cons x l =>
    rw [intercalate_restText, depth_append, h x (by simp)]
    have : ∀ l : List (List (BSym V)), (∀ x ∈ l, depth x = 0) → depth (restText "," l) = 0 := by
      intro l
      induction l with
      | nil => intro _; rfl
      | cons y l ih =>
        intro h
        have e : restText "," (y :: l) = bs "," ++ y ++ restText "," l := by simp [restText]
        rw [e, depth_append, depth_append, h y (by simp), ih (fun x hx => h x (by simp [hx]))]
        rfl
    rw [this l (fun x hx => h x (by simp [hx]))]; rfl

theorem depth_names (l : List String) (h : ∀ x ∈ l, depth (bs x : List (BSym V)) = 0) :
    depth (namesB l : List (BSym V)) = 0 :=
  depth_comma _ (by simpa using h)

/-! ### Placeholder texts -/

def depthT : Txt → Int
  | [] => 0
  | .ch c :: t => wt c + depthT t
  | _ :: t => depthT t

theorem depthT_append (a b : Txt) : depthT (a ++ b) = depthT a + depthT b := by
  induction a with
  | nil => simp [depthT]
  | cons s a ih => cases s <;> simp [depthT, ih, Int.add_assoc]

theorem depthT_tx (s : String) : depthT (tx s) = depth (bs s : List (BSym V)) := by
  unfold tx bs
  induction s.toList with
  | nil => rfl
  | cons c l ih => simp [depthT, depth, wt, ih]

theorem bindAnon_depth (t : Txt) (as : List V) (b : List (BSym V)) (h : bindAnon t as = some b) :
    depth b = depthT t := by
  induction t generalizing as b with
  | nil => cases as <;> simp [bindAnon] at h; subst h; rfl
  | cons s t ih =>
    cases s with
    | ch c =>
      simp only [bindAnon, Option.map_eq_some_iff] at h
      obtain ⟨x, hx, rfl⟩ := h
      simp [depth, depthT, wt, ih _ _ hx]
    | anon =>
      cases as with
      | nil => simp [bindAnon] at h
      | cons v as =>
        simp only [bindAnon, Option.map_eq_some_iff] at h
        obtain ⟨x, hx, rfl⟩ := h
        simp [depth, depthT, ih _ _ hx]
    | num n => simp [bindAnon] at h

theorem substNum_depth (as : List V) (t : Txt) (b : List (BSym V)) (h : substNum as t = some b) :
    depth b = depthT t := by
  induction t generalizing b with
  | nil => simp [substNum] at h; subst h; rfl
  | cons s t ih =>
    cases s with
    | ch c =>
      simp only [substNum, Option.map_eq_some_iff] at h
      obtain ⟨x, hx, rfl⟩ := h
      simp [depth, depthT, wt, ih _ hx]
    | anon => simp [substNum] at h
    | num n =>
      cases n with
      | zero => simp [substNum] at h
      | succ k =>
        simp only [substNum] at h
        split at h
        · next v r h1 h2 =>
          simp only [Option.some.injEq] at h
          subst h
          simp [depth, depthT, ih _ h2]
        · exact absurd h (by simp)

theorem bind_depth {st : Style} {t : Txt} {as : List V} {b : List (BSym V)} (h : Spec.bind st t as = some b) :
    depth b = depthT t := by
  cases st with
  | anon => exact bindAnon_depth t as b h
  | numbered =>
    have h : bindNum t as = some b := h
    unfold bindNum at h
    split at h
    · exact substNum_depth as t b h
    · exact absurd h (by simp)

theorem depthT_var (st : Style) (n : Nat) (t : Txt) : depthT (st.var n :: t) = depthT t := by cases st <;> rfl

/-! ### Parsed conditions balance -/

def balT : List (WTok V) → Int
  | [] => 0
  | .lp :: t => 1 + balT t
  | .rp :: t => -1 + balT t
  | _ :: t => balT t

theorem balT_append (a b : List (WTok V)) : balT (a ++ b) = balT a + balT b := by
  induction a with
  | nil => simp [balT]
  | cons s a ih => cases s <;> simp [balT, ih, Int.add_assoc]

theorem balT_flush (w : List Char) : balT (flush w : List (WTok V)) = 0 := by
  unfold flush; split <;> rfl

theorem lex_depth (w : List Char) (t : List (BSym V)) : balT (lexFrom w t) = depth t := by
  induction t generalizing w with
  | nil => simp [lexFrom, depth, balT_flush]
  | cons s t ih =>
    cases s with
    | val v => simp [lexFrom, depth, balT_append, balT_flush, balT, ih]
    | ch c =>
      rw [lexFrom, depth]
      by_cases h1 : c = ' '
      · subst h1; simp [balT_append, balT_flush, ih]
      · by_cases h2 : c = '('
        · subst h2; simp [balT_append, balT_flush, ih, balT]
        · by_cases h3 : c = ')'
          · subst h3; simp [balT_append, balT_flush, ih, balT]
          · by_cases h4 : c = ','
            · subst h4; simp [balT_append, balT_flush, ih, balT]
            · simp [h1, h2, h3, h4, ih]

theorem pVals_bal (ts : List (WTok V)) (vs : List V) (r : List (WTok V)) (h : pVals ts = some (vs, r)) :
    balT ts = -1 + balT r := by
  induction ts using pVals.induct generalizing vs r with
  | case1 v r' => simp [pVals] at h; obtain ⟨rfl, rfl⟩ := h; simp [balT]
  | case2 v r' ih =>
    simp only [pVals, Option.map_eq_some_iff] at h
    obtain ⟨⟨a, b⟩, h1, h2⟩ := h
    simp only [Prod.mk.injEq] at h2
    obtain ⟨rfl, rfl⟩ := h2
    simp [balT, ih _ _ h1]
  | case3 ts h1 h2 => rw [pVals] at h; simp at h; exact h1; exact h2

theorem pTail_bal (col : List Char) (neg : Bool) (ts : List (WTok V)) (p : Pred V) (r : List (WTok V))
    (h : pTail col neg ts = some (p, r)) : balT ts = balT r := by
  unfold pTail at h
  split at h
  · next w v r' =>
    split at h
    · split at h
      · split at h
        · simp at h; obtain ⟨_, rfl⟩ := h; simp [balT]
        · simp at h
      · simp at h
    · split at h
      · simp at h; obtain ⟨_, rfl⟩ := h; simp [balT]
      · split at h
        · simp at h; obtain ⟨_, rfl⟩ := h; simp [balT]
        · simp at h
  · next w r' =>
    split at h
    · simp only [Option.map_eq_some_iff] at h
      obtain ⟨⟨a, b⟩, h1, h2⟩ := h
      simp only [Prod.mk.injEq] at h2
      obtain ⟨_, rfl⟩ := h2
      have e := pVals_bal _ _ _ h1
      simp only [balT]; omega
    · simp at h
  · simp at h

theorem pPred_bal (ts : List (WTok V)) (p : Pred V) (r : List (WTok V)) (h : pPred ts = some (p, r)) :
    balT ts = balT r := by
  unfold pPred at h
  split at h
  · next c w r' =>
    split at h
    · simp at h
    · split at h
      · split at h
        · split at h
          · simp at h; obtain ⟨_, rfl⟩ := h; simp [balT]
          · split at h
            · split at h
              · split at h
                · simp at h; obtain ⟨_, rfl⟩ := h; simp [balT]
                · simp at h
              · simp at h
            · simp at h
        · simp at h
      · split at h
        · simpa [balT] using pTail_bal _ _ _ _ _ h
        · simpa [balT] using pTail_bal _ _ _ _ _ h
  · simp at h

theorem parse_bal (n : Nat) : ∀ (ts : List (WTok V)) (a : Ast V) (r : List (WTok V)),
    (pOr n ts = some (a, r) → balT ts = balT r) ∧ (pAnd n ts = some (a, r) → balT ts = balT r) ∧
    (pPrim n ts = some (a, r) → balT ts = balT r) := by
  induction n with
  | zero => intro ts a r; simp [pOr, pAnd, pPrim]
  | succ n ih =>
    intro ts a r
    refine ⟨fun h => ?_, fun h => ?_, fun h => ?_⟩
    · rw [pOr] at h
      split at h
      · next a' w r' h1 =>
        have e := (ih _ _ _).2.1 h1
        split at h
        · simp only [Option.map_eq_some_iff] at h
          obtain ⟨⟨x, y⟩, h2, h3⟩ := h
          simp only [Prod.mk.injEq] at h3
          obtain ⟨_, rfl⟩ := h3
          rw [e, show balT (WTok.word w :: r') = balT r' from rfl, (ih _ _ _).1 h2]
        · simp only [Option.some.injEq, Prod.mk.injEq] at h
          obtain ⟨_, rfl⟩ := h
          exact e
      · exact (ih _ _ _).2.1 h
    · rw [pAnd] at h
      split at h
      · next a' w r' h1 =>
        have e := (ih _ _ _).2.2 h1
        split at h
        · simp only [Option.map_eq_some_iff] at h
          obtain ⟨⟨x, y⟩, h2, h3⟩ := h
          simp only [Prod.mk.injEq] at h3
          obtain ⟨_, rfl⟩ := h3
          rw [e, show balT (WTok.word w :: r') = balT r' from rfl, (ih _ _ _).2.1 h2]
        · simp only [Option.some.injEq, Prod.mk.injEq] at h
          obtain ⟨_, rfl⟩ := h
          exact e
      · exact (ih _ _ _).2.2 h
    · unfold pPrim at h
      split at h
      · simp at h
      · next r0 heq =>
        split at h
        · next a' r' h1 =>
          simp only [Option.some.injEq, Prod.mk.injEq] at h
          obtain ⟨_, rfl⟩ := h
          cases heq
          rw [balT, (ih _ _ _).1 h1, balT]; omega
        · simp at h
      · simp only [Option.map_eq_some_iff] at h
        obtain ⟨⟨x, y⟩, h2, h3⟩ := h
        simp only [Prod.mk.injEq] at h3
        obtain ⟨_, rfl⟩ := h3
        exact pPred_bal _ _ _ h2

/-- A condition has balanced parentheses. -/
theorem parse_depth (x : List (BSym V)) (h : (parseCond (lex x)).isSome = true) : depth x = 0 := by
  unfold parseCond at h
  split at h
  · next a h1 =>
    have := (parse_bal _ _ _ _).1 h1
    rw [lex, lex_depth] at this
    simpa [balT] using this
  · simp at h

theorem depth_meaning (c : Clause V) (hw : WellFormed c) : depth (meaning c) = 0 := by
  apply parse_depth
  have := lex_meaning c hw [] trivial
  rw [List.append_nil, show lexFrom [] ([] : List (BSym V)) = [] by simp [lexFrom, flush],
    List.append_nil] at this
  rw [lex, this, parse_toks c hw]
  rfl

theorem depth_filter (w : Option (Clause V)) (hw : ∀ c, w = some c → WellFormed c) : depth (filterB w) = 0 := by
  cases w with
  | none => rfl
  | some c => exact depth_meaning c (hw c rfl)

theorem depth_head {m : Mdl R V} {os : List Order} (hn : NamesOk m os) : depth (headB m) = 0 := by
  obtain ⟨h1, h2, _⟩ := hn
  simp only [headB, depth_append]
  rw [depth_names _ (fun x hx => flat_depth (h1 x hx)), flat_depth h2]
  rfl

theorem depth_cursor {m : Mdl R V} {os : List Order} (hn : NamesOk m os) (d : Dir) (r : R) :
    depth (cursorB m d r) = 0 := by
  obtain ⟨_, _, _, h⟩ := hn
  unfold cursorB
  cases hm : m.key with
  | none => rfl
  | single a n i val =>
    rw [hm] at h
    cases d <;> simp only [depth_append] <;> rw [depth_simple h] <;> rfl
  | comp names is vals =>
    rw [hm] at h
    have hv : depth (rowB (vals r)) = 0 := by
      simp only [rowB, depth_append]
      rw [depth_comma _ (by intro x hx; simp only [List.mem_map] at hx; obtain ⟨v, _, rfl⟩ := hx; rfl)]
      rfl
    cases d <;> simp only [depth_append] <;>
      rw [depth_names _ (fun x hx => depth_simple (h x hx)), hv] <;> rfl

theorem depth_flatMap {α : Type} (l : List α) (f : α → List (BSym V)) (h : ∀ x ∈ l, depth (f x) = 0) :
    depth (l.flatMap f) = 0 := by
  induction l with
  | nil => rfl
  | cons x l ih => rw [List.flatMap_cons, depth_append, h x (by simp), ih (fun y hy => h y (by simp [hy]))]; rfl

theorem depth_tail {m : Mdl R V} {os : List Order} (hn : NamesOk m os) (d : Dir) (n : Nat) :
    depth (tailB m d os n) = 0 := by
  obtain ⟨_, _, h3, h⟩ := hn
  have hl : depth (limitB n : List (BSym V)) = 0 := by
    simp only [limitB, depth_append]; rw [depth_nat]; rfl
  have ho : depth (orderB m d os) = 0 := by
    unfold orderB
    cases hg : os.getLast? with
    | none =>
      unfold keyOrderB
      cases hm : m.key with
      | none => rfl
      | single a n i val =>
        rw [hm] at h
        cases d
        · exact depth_simple h
        · simp only [depth_append]; rw [depth_simple h]; rfl
      | comp names is vals =>
        rw [hm] at h
        cases d <;> simp only [depth_append] <;> rw [depth_names _ (fun x hx => depth_simple (h x hx))] <;> rfl
    | some o =>
      simp only [depth_append]
      rw [depth_flatMap os _ (by
        intro x hx
        rw [depth_append, flat_depth (h3 x hx)]
        split <;> rfl)]
      have hs : depth (bs (if o.asc then " ASC" else " DESC") : List (BSym V)) = 0 := by split <;> rfl
      rw [hs]
      cases hm : m.key with
      | none => rfl
      | single a n i val => rw [hm] at h; simp [depth_simple h]
      | comp names is vals =>
        rw [hm] at h
        simp only [depth_append]
        rw [depth_names _ (fun x hx => depth_simple (h x hx))]; rfl
  simp only [tailB, depth_append]
  rw [ho, hl]; rfl

/-! ### The condition on the ordered columns -/

theorem nextLoop_depth (st : Style) (val : String → Res V) (sep up down : String)
    (hsep : Flat sep) (hu : Flat up) (hd : Flat down) (os : List Order) (ho : ∀ o ∈ os, Flat o.col) :
    ∀ (i : Nat) (s s' : Stmt V), nextLoop st val sep up down i os s = .ok s' →
      depthT s'.text = depthT s.text := by
  induction os with
  | nil => intro i s s' h; simp only [nextLoop, Res.ok.injEq] at h; rw [h]
  | cons o os ih =>
    intro i s s' h
    simp only [nextLoop, Res.bind_eq_ok] at h
    obtain ⟨v, _, h⟩ := h
    rw [ih (fun x hx => ho x (by simp [hx])) _ _ _ h]
    have e1 : depthT (tx (if o.asc = true then up else down)) = 0 := by
      rw [depthT_tx (V := Unit)]; split
      · exact hu
      · exact hd
    have e2 : depthT (tx o.col) = 0 := by rw [depthT_tx (V := Unit)]; exact ho o (by simp)
    have e3 : depthT (tx sep) = 0 := by rw [depthT_tx (V := Unit)]; exact hsep
    by_cases hi : i > 0
    · simp [hi, Stmt.write, Stmt.writeS, Stmt.var, depthT_append, e1, e2, e3, depthT_var, depthT]
    · simp [hi, Stmt.write, Stmt.var, depthT_append, e1, e2, depthT_var, depthT]

theorem prevLoop_depth (st : Style) (val : String → Res V) (os : List Order) (ho : ∀ o ∈ os, Flat o.col) :
    ∀ (s : Stmt V) (buf : Txt) (s' : Stmt V) (buf' : Txt), prevLoop st val os s buf = .ok (s', buf') →
      depthT s'.text = depthT s.text ∧ depthT buf' = depthT buf := by
  induction os with
  | nil => intro s buf s' buf' h; simp only [prevLoop, Res.ok.injEq, Prod.mk.injEq] at h; rw [h.1, h.2]; simp
  | cons o os ih =>
    intro s buf s' buf' h
    simp only [prevLoop, Res.bind_eq_ok] at h
    obtain ⟨v, _, h⟩ := h
    obtain ⟨h1, h2⟩ := ih (fun x hx => ho x (by simp [hx])) _ _ _ _ h
    have e2 : depthT (tx o.col) = 0 := by rw [depthT_tx (V := Unit)]; exact ho o (by simp)
    have a : depthT (tx (if o.asc = true then " <= " else " >= ")) = 0 := by split <;> rfl
    have b : depthT (tx (if o.asc = true then " < " else " > ")) = 0 := by split <;> rfl
    have c : depthT (tx " AND ") = 0 := rfl
    have e : depthT (tx " OR ") = 0 := rfl
    rw [h1, h2]
    simp [Stmt.write, Stmt.var, depthT_append, e2, a, b, c, e, depthT_var]

theorem orderCond_depth (st : Style) (m : Mdl R V) (d : Dir) (os : List Order) (hne : os ≠ [])
    (ho : ∀ o ∈ os, Flat o.col) (r : R) (s s' : Stmt V) (h : orderCond st m d os r s = .ok s') :
    depthT s'.text = depthT s.text + 1 := by
  cases os with
  | nil => exact absurd rfl hne
  | cons o os =>
    cases d with
    | next =>
      simp only [orderCond, Res.bind_eq_ok] at h
      obtain ⟨s1, h1, s2, h2, h3⟩ := h
      have e1 := nextLoop_depth st _ _ _ _ (by decide) (by decide) (by decide) _ ho _ _ _ h1
      have e2 := nextLoop_depth st _ _ _ _ (by decide) (by decide) (by decide) _ ho _ _ _ h2
      simp only [Res.ok.injEq] at h3
      subst h3
      simp only [Stmt.writeS, Stmt.write, depthT_append] at e2 ⊢
      rw [e2, e1]
      have : depthT (tx " AND (") = 1 := rfl
      have : depthT (tx " OR ") = 0 := rfl
      omega
    | prev =>
      simp only [orderCond, Res.bind_eq_ok] at h
      obtain ⟨⟨s1, buf⟩, h1, h2⟩ := h
      obtain ⟨e1, e2⟩ := prevLoop_depth st _ _ ho _ _ _ _ h1
      simp only [Res.ok.injEq] at h2
      subst h2
      simp only [Stmt.write, depthT_append]
      rw [e1, e2]
      have : depthT (tx "(") = 1 := rfl
      have : depthT [] = 0 := rfl
      omega

theorem vars_depth (st : Style) (s s' : Stmt V) (vs : List V) (p : Txt) (h : s.vars st vs = .ok (s', p)) :
    s'.text = s.text ∧ depthT p = 0 := by
  cases st with
  | anon =>
    simp only [Stmt.vars] at h
    cases vs with
    | nil => simp [Stmt.repeatVar] at h
    | cons v vs =>
      have e : Stmt.repeatVar (v :: vs).length = .ch ',' :: .anon :: Stmt.repeatVar vs.length := rfl
      rw [e] at h
      simp only [Res.ok.injEq, Prod.mk.injEq] at h
      obtain ⟨rfl, rfl⟩ := h
      have : ∀ n, depthT (Stmt.repeatVar n) = 0 := by
        intro n
        induction n with
        | zero => rfl
        | succ n ih => simpa [Stmt.repeatVar, depthT_append, depthT, tx, wt] using ih
      simp [depthT_append, depthT, tx, wt, this]
  | numbered =>
    simp only [Stmt.vars, Res.ok.injEq, Prod.mk.injEq] at h
    obtain ⟨rfl, rfl⟩ := h
    have : ∀ n i, depthT (Stmt.varsLoop i n) = 0 := by
      intro n
      induction n with
      | zero => intro i; rfl
      | succ n ih =>
        intro i
        rw [Stmt.varsLoop]
        split <;> simp [depthT, tx, wt, ih]
    simp [depthT_append, depthT, tx, wt, this]

theorem depthT_flat {s : String} (h : depth (bs s : List (BSym Unit)) = 0) : depthT (tx s) = 0 := by
  rw [depthT_tx (V := Unit)]; exact h

theorem flat_joinStr (l : List String) (h : ∀ x ∈ l, Flat x) : Flat (joinStr "," l) := by
  unfold Flat
  rw [bs_joinStr]
  exact depth_comma _ (by simpa using fun x hx => flat_depth (h x hx))

theorem cursorCond_depth (st : Style) (m : Mdl R V) (os : List Order) (hn : NamesOk m os) (d : Dir) (cur : Bool)
    (r : R) (s s' : Stmt V) (h : cursorCond st m d cur r s = .ok s') : depthT s'.text = depthT s.text := by
  obtain ⟨_, _, _, hk⟩ := hn
  unfold cursorCond at h
  cases cur with
  | false => simp only [Bool.false_eq_true, if_false, Res.ok.injEq] at h; rw [h]
  | true =>
    simp only [if_true] at h
    unfold keyCmp at h
    cases hm : m.key with
    | none => rw [hm] at h; simp at h
    | single a n i val =>
      rw [hm] at h hk
      have e : depthT (tx n) = 0 := depthT_flat (depth_simple hk)
      simp only [Res.ok.injEq] at h
      subst h
      have l1 : depthT (tx "(") = 1 := rfl
      have l2 : depthT (tx ")") = -1 := rfl
      have l3 : depthT (tx "((") = 2 := rfl
      have l4 : depthT (tx " >= ") = 0 := rfl
      have l5 : depthT (tx " <= ") = 0 := rfl
      cases d <;>
        simp [Stmt.var, Stmt.write, depthT_append, depthT_var, e, l1, l2, l4, l5]
    | comp names is vals =>
      rw [hm] at h hk
      simp only [Res.bind_eq_ok] at h
      obtain ⟨⟨s1, p⟩, h1, h2⟩ := h
      obtain ⟨e1, e2⟩ := vars_depth st s s1 _ p h1
      have e : depthT (tx (joinStr "," names)) = 0 :=
        depthT_flat (flat_joinStr names fun x hx => depth_simple (hk x hx))
      simp only [Res.ok.injEq] at h2
      subst h2
      have l2 : depthT (tx ")") = -1 := rfl
      have l3 : depthT (tx "((") = 2 := rfl
      have l4 : depthT (tx " >= ") = 0 := rfl
      have l5 : depthT (tx " <= ") = 0 := rfl
      cases d <;> simp [Stmt.write, depthT_append, e, e1, e2, l2, l3, l4, l5]

theorem orderLoop_depth (os : List Order) (ho : ∀ o ∈ os, Flat o.col) (s : Stmt V) :
    depthT (orderLoop os s).text = depthT s.text := by
  induction os generalizing s with
  | nil => rfl
  | cons o os ih =>
    rw [orderLoop, ih (fun x hx => ho x (by simp [hx]))]
    have e2 : depthT (tx o.col) = 0 := depthT_flat (ho o (by simp))
    have a : depthT (tx (if o.asc = true then " ASC," else " DESC,")) = 0 := by split <;> rfl
    simp [Stmt.writeS, Stmt.write, depthT_append, e2, a]

theorem keyOrder_depth {m : Mdl R V} {os : List Order} (hn : NamesOk m os) (a b : String)
    (ha : depthT (tx a) = 0) (hb : depthT (tx b) = 0) (s s' : Stmt V) (h : keyOrder m a b s = .ok s') :
    depthT s'.text = depthT s.text := by
  obtain ⟨_, _, _, hk⟩ := hn
  unfold keyOrder at h
  cases hm : m.key with
  | none => rw [hm] at h; simp at h
  | single x n i val =>
    rw [hm] at h hk
    have e : depthT (tx n) = 0 := depthT_flat (depth_simple hk)
    simp only [Res.ok.injEq] at h
    subst h
    simp [Stmt.writeS, Stmt.write, depthT_append, e, ha]
  | comp names is vals =>
    rw [hm] at h hk
    have e : depthT (tx (joinStr "," names)) = 0 :=
      depthT_flat (flat_joinStr names fun x hx => depth_simple (hk x hx))
    have l1 : depthT (tx "(") = 1 := rfl
    have l2 : depthT (tx ")") = -1 := rfl
    simp only [Res.ok.injEq] at h
    subst h
    simp [Stmt.writeS, Stmt.write, depthT_append, e, hb, l1, l2]

theorem orderPart_depth {m : Mdl R V} {os : List Order} (hn : NamesOk m os) (d : Dir) (s s' : Stmt V)
    (h : orderPart m d os s = .ok s') : depthT s'.text = depthT s.text := by
  have l : depthT (tx " ORDER BY ") = 0 := rfl
  unfold orderPart at h
  cases hg : os.getLast? with
  | none =>
    rw [hg] at h
    cases d with
    | next =>
      rw [keyOrder_depth hn _ _ rfl rfl _ _ h]
      simp [Stmt.writeS, Stmt.write, depthT_append, l]
    | prev =>
      rw [keyOrder_depth hn _ _ rfl rfl _ _ h]
      simp [Stmt.writeS, Stmt.write, depthT_append, l]
  | some o =>
    rw [hg] at h
    have a : depthT (tx (if o.asc = true then " ASC" else " DESC")) = 0 := by split <;> rfl
    rw [keyOrder_depth hn _ _ a a _ _ h, orderLoop_depth os hn.2.2.1]
    simp [Stmt.writeS, Stmt.write, depthT_append, l]

end Verif.Pager
